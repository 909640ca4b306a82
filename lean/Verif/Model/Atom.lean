import Verif.Model.Word
/-!
`Atom`, `Range`: `ron/uuid.hpp:142-192`, `ron/slice.hpp:53-129`.
A `Uuid` is an `Atom` in the source (`struct Uuid : public Atom`), here they are one type.
-/
namespace Ron

/-- Outcome of an operation: a result, a failed `assert` (the program aborts; with asserts
compiled out it goes on with garbage), or undefined behaviour (a memory access outside of
an object, an overflow of a signed integer). -/
inductive Out (α : Type) where
  | ok (a : α)
  | abort
  | ub
  deriving DecidableEq, Repr

namespace Out
/-- Sequencing. -/
def bind {α β : Type} : Out α → (α → Out β) → Out β
  | ok a, f => f a
  | abort, _ => abort
  | ub, _ => ub

instance : Monad Out where
  pure := ok
  bind := bind

/-- `none` as undefined behaviour. -/
def ofOption {α : Type} : Option α → Out α
  | some a => ok a
  | none => ub
end Out

/-- `ron/uuid.hpp:162-192` `struct Atom`: two words. -/
abbrev Atom := Uuid

namespace Atom

/-- `ron/const.hpp:30` `enum ATOM`. -/
def tUUID : Nat := 0
def tINT : Nat := 1
def tSTRING : Nat := 2
def tFLOAT : Nat := 3

/-- `ron/uuid.hpp:182` `type()`: the two most significant bits of the origin. -/
def type (a : Atom) : Nat := a.origin.toNat / 2 ^ 62

/-- `Word{range} | (type << 62)`: `ron/uuid.hpp:56`, `ron/slice.hpp:57-67` (little endian:
the begin is the lower half, the end the higher half; both are `uint32_t`). -/
def rangeWord (t b e : Nat) : Word :=
  BitVec.ofNat 64 (e % 2 ^ 32 * 2 ^ 32 + b % 2 ^ 32) ||| BitVec.ofNat 64 (t * 2 ^ 62)

/-- `ron/uuid.hpp:180-181` `Atom(ATOM type, Range range)`. -/
def ofRange (t b e : Nat) : Atom := ⟨0#64, rangeWord t b e⟩

/-- `ron/uuid.hpp:183-186` `safe_origin().as_range.begin()`. -/
def rBegin (a : Atom) : Nat := a.origin.toNat % 2 ^ 32 % 2 ^ 30
/-- `ron/uuid.hpp:183-186` `safe_origin().as_range.end()`. -/
def rEnd (a : Atom) : Nat := a.origin.toNat / 2 ^ 32 % 2 ^ 30

/-- `value.cp`, `ron/uuid.hpp:24-27` (lower half). -/
def cp (a : Atom) : Nat := a.value.toNat % 2 ^ 32
/-- `value.cp_size` (higher half). -/
def cpSize (a : Atom) : Nat := a.value.toNat / 2 ^ 32

/-- `Word{higher, lower}`, `ron/uuid.hpp:31`. -/
def valueWord (cpSize cp : Nat) : Word := BitVec.ofNat 64 (cpSize % 2 ^ 32 * 2 ^ 32 + cp % 2 ^ 32)

/-- `value.cp = cp`. -/
def setCp (a : Atom) (c : Nat) : Atom := ⟨valueWord (cpSize a) c, a.origin⟩
/-- `value.cp_size = n`. -/
def setCpSize (a : Atom) (n : Nat) : Atom := ⟨valueWord n (cp a), a.origin⟩

/-- `origin.as_range.Consume(len)`, `ron/slice.hpp:109-112`: the lower half wraps modulo
2^32. -/
def consume (a : Atom) (len : Nat) : Atom :=
  ⟨a.value, BitVec.ofNat 64
    (a.origin.toNat / 2 ^ 32 * 2 ^ 32 + (a.origin.toNat % 2 ^ 32 + len) % 2 ^ 32)⟩

/-- `as_range.valid()`, `ron/slice.hpp:108`, with the flag bits still in place. -/
def rawValid (a : Atom) : Bool := decide (a.origin.toNat % 2 ^ 32 ≤ a.origin.toNat / 2 ^ 32)

/-- `ron/uuid.hpp:169-172` `Atom::String`. -/
def string (cp b e cpSize : Nat) : Atom := ⟨valueWord cpSize cp, rangeWord tSTRING b e⟩

/-- `ron/uuid.hpp:173-175` `Atom::Integer` with the default range. -/
def integer (i : Int) : Atom := ⟨BitVec.ofInt 64 i, rangeWord tINT 0 0⟩

end Atom
end Ron
