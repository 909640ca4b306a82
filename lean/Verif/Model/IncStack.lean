import Verif.Model.Word
/-!
`inc_stack`: `ron/inc_stack.hpp`, a stack that stores runs of consecutive values as spans.

The element type is a template parameter; all it needs is `+` with a number (`plus`). Lengths
are `uint32_t`. `none` is undefined behaviour (access to an empty vector, a dereferenced or
advanced end iterator).
-/
namespace Ron

/-- `ron/inc_stack.hpp:12-17`. -/
structure Span (α : Type) where
  value : α
  size : Nat
  deriving DecidableEq, Repr

/-- `ron/inc_stack.hpp:69-70`. -/
structure IncStack (α : Type) where
  spans : List (Span α)
  size : Nat
  deriving DecidableEq, Repr

/-- `Uuid::operator+`, `ron/uuid.hpp:244`. -/
def Uuid.plus (u : Uuid) (n : Nat) : Uuid := ⟨u.value + BitVec.ofNat 64 n, u.origin⟩

/-- `fsize_t + len_t`: arithmetic on `uint32_t`. -/
def plus32 (a n : Nat) : Nat := (a + n) % 2 ^ 32

namespace IncStack
variable {α : Type} [DecidableEq α]

/-- `ron/inc_stack.hpp:73`. -/
def empty : IncStack α := ⟨[], 0⟩

/-- `ron/inc_stack.hpp:77`. -/
def isEmpty (s : IncStack α) : Bool := decide (s.size = 0)

/-- `ron/inc_stack.hpp:78`. -/
def front (s : IncStack α) : Option α := s.spans.head?.map Span.value

/-- `ron/inc_stack.hpp:79-82`; `size - 1` is unsigned. -/
def back (plus : α → Nat → α) (s : IncStack α) : Option α :=
  s.spans.getLast?.map fun b => plus b.value ((b.size + (2 ^ 32 - 1)) % 2 ^ 32)

/-- `ron/inc_stack.hpp:93-102`. -/
def push (plus : α → Nat → α) (s : IncStack α) (i : α) : IncStack α :=
  let n := (s.size + 1) % 2 ^ 32
  match s.spans.getLast? with
  | none => ⟨s.spans ++ [⟨i, 1⟩], n⟩
  | some b =>
    if plus b.value b.size = i then ⟨s.spans.dropLast ++ [⟨b.value, (b.size + 1) % 2 ^ 32⟩], n⟩
    else ⟨s.spans ++ [⟨i, 1⟩], n⟩

/-- `ron/inc_stack.hpp:104-112`. -/
def pop (s : IncStack α) : Option (IncStack α) :=
  match s.spans.getLast? with
  | none => none
  | some b =>
    let n := (s.size + (2 ^ 32 - 1)) % 2 ^ 32
    if b.size = 1 then some ⟨s.spans.dropLast, n⟩
    else some ⟨s.spans.dropLast ++ [⟨b.value, (b.size + (2 ^ 32 - 1)) % 2 ^ 32⟩], n⟩

/-- `const_iterator`, `ron/inc_stack.hpp:21-25`: the spans from `i_` on, and `off_`. -/
structure Iter (α : Type) where
  rest : List (Span α)
  off : Nat
  deriving DecidableEq, Repr

/-- `ron/inc_stack.hpp:86-88`. -/
def begin_ (s : IncStack α) : Iter α := ⟨s.spans, 0⟩

/-- `ron/inc_stack.hpp:89-91`. -/
def end_ : Iter α := ⟨[], 0⟩

namespace Iter

/-- `operator*`, `ron/inc_stack.hpp:36`. -/
def deref (plus : α → Nat → α) (i : Iter α) : Option α := i.rest.head?.map fun s => plus s.value i.off

/-- `operator++`, `ron/inc_stack.hpp:29-35`. -/
def next (i : Iter α) : Option (Iter α) :=
  match i.rest with
  | [] => none
  | s :: t =>
    let off := (i.off + 1) % 2 ^ 32
    if off = s.size then some ⟨t, 0⟩ else some ⟨s :: t, off⟩

/-- `operator+=`, `ron/inc_stack.hpp:43-53`. Line 49 moves `i_`, not `off_`. -/
def advance (n : Nat) (rest : List (Span α)) (off : Nat) : Option (Iter α) :=
  match rest with
  | [] => if n = 0 then some ⟨[], off⟩ else none
  | s :: t =>
    if n = 0 then some ⟨s :: t, off⟩
    else if s.size ≤ n then advance (n - s.size) t off
    else if n ≤ (s :: t).length then some ⟨(s :: t).drop n, off⟩ else none

/-- `skip_span`, `ron/inc_stack.hpp:54-65`: the number of elements skipped. -/
def skipSpan (i : Iter α) (max : Nat) : Option (Nat × Iter α) :=
  match i.rest with
  | [] => none
  | s :: t =>
    if (i.off + max) % 2 ^ 32 < s.size then some (max, ⟨s :: t, (i.off + max) % 2 ^ 32⟩)
    else some ((s.size + (2 ^ 32 - i.off)) % 2 ^ 32, ⟨t, 0⟩)

end Iter
end IncStack
end Ron
