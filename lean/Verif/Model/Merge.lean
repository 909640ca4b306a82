import Verif.Model.Ops
/-!
`MergeCursor`: `rdt/merge.hpp`. A heap of cursors in a vector; `none` is an access past its
end (undefined behaviour), which is shown never to happen.
-/
namespace Ron

/-- A valid cursor: the current op and the ops after it. -/
abbrev Cur (α : Type) := α × List α

namespace Heap
variable {α : Type}

/-- `rdt/merge.hpp:38` `up`. -/
def up (i : Nat) : Nat := (i + 1) / 2 - 1
/-- `rdt/merge.hpp:40` `left`. -/
def left (i : Nat) : Nat := (i + 1) * 2 - 1
/-- `rdt/merge.hpp:42` `right`. -/
def right (i : Nat) : Nat := (i + 1) * 2

/-- `rdt/merge.hpp:48-50` `less_than(a, b)`. -/
def lessAt (lt : α → α → Bool) (h : List (Cur α)) (a b : Nat) : Option Bool :=
  match h[a]?, h[b]? with
  | some x, some y => some (lt x.1 y.1)
  | _, _ => none

/-- `rdt/merge.hpp:52-54` `swap(a, b)`. -/
def swap (h : List (Cur α)) (a b : Nat) : Option (List (Cur α)) :=
  match h[a]?, h[b]? with
  | some x, some y => some ((h.set a y).set b x)
  | _, _ => none

/-- `rdt/merge.hpp:56-66` `pop(idx)`: moves a cursor up. The recursion is on ever smaller
indices; `fuel` is an upper bound of its depth. -/
def pop (lt : α → α → Bool) : Nat → List (Cur α) → Nat → Option (List (Cur α))
  | 0, _, _ => none
  | fuel + 1, h, idx =>
    if idx = 0 then some h
    else
      (lessAt lt h (up idx) idx).bind fun less =>
      if less then some h
      else (swap h idx (up idx)).bind fun h' => pop lt fuel h' (up idx)

/-- `rdt/merge.hpp:68-83` `push(idx)`: moves a cursor down. -/
def push (lt : α → α → Bool) : Nat → List (Cur α) → Nat → Option (List (Cur α))
  | 0, _, _ => none
  | fuel + 1, h, idx =>
    let l := left idx
    let r := right idx
    let leftOnly (_ : Unit) : Option (List (Cur α)) :=
      if l < h.length then
        (lessAt lt h l idx).bind fun ll =>
        if ll then (swap h l idx).bind fun h' => push lt fuel h' l else some h
      else some h
    if r < h.length then
      (lessAt lt h r idx).bind fun rl =>
      if rl then
        (lessAt lt h l r).bind fun lr =>
        if lr then (swap h l idx).bind fun h' => push lt fuel h' l
        else (swap h r idx).bind fun h' => push lt fuel h' r
      else leftOnly ()
    else leftOnly ()

/-- `rdt/merge.hpp:25-29` `Add(input)` of a valid cursor. -/
def add (lt : α → α → Bool) (h : List (Cur α)) (c : Cur α) : Option (List (Cur α)) :=
  pop lt (h.length + 1) (h ++ [c]) h.length

/-- `rdt/merge.hpp:25-29,21-23`: a cursor over a frame is added unless it is invalid (has no
ops). -/
def addInput (lt : α → α → Bool) (h : List (Cur α)) : List α → Option (List (Cur α))
  | [] => some h
  | o :: os => add lt h (o, os)

/-- `rdt/merge.hpp:21-23` `MergeCursor(inputs)`. -/
def build (lt : α → α → Bool) : List (Cur α) → List (List α) → Option (List (Cur α))
  | h, [] => some h
  | h, i :: is => (addInput lt h i).bind fun h' => build lt h' is

/-- `rdt/merge.hpp:85-92` `eject()`. -/
def eject (lt : α → α → Bool) (h : List (Cur α)) : Option (List (Cur α)) :=
  match h.getLast? with
  | none => some h
  | some c => push lt (h.length + 1) ((h.set 0 c).dropLast) 0

/-- `rdt/merge.hpp:94-101` `step()`. -/
def step (lt : α → α → Bool) (h : List (Cur α)) : Option (List (Cur α)) :=
  match h with
  | [] => none
  | (_, o :: os) :: t => push lt (h.length + 1) ((o, os) :: t) 0
  | (_, []) :: _ => eject lt h

/-- `rdt/merge.hpp:106-111` `Next()`: skips the ops with the id of the current one. `same`
compares the ids. `fuel` bounds the number of steps. -/
def nextFrom (lt same : α → α → Bool) (cur : α) : Nat → List (Cur α) → Option (List (Cur α))
  | 0, _ => none
  | fuel + 1, h =>
    (step lt h).bind fun h' =>
    match h' with
    | [] => some []
    | c :: _ => if same c.1 cur then nextFrom lt same cur fuel h' else some h'

/-- The number of ops left in a heap. -/
def total (h : List (Cur α)) : Nat := (h.map fun c => c.2.length + 1).sum

/-- `rdt/merge.hpp:115-122` `Merge(output)`: the ops handed to `output.AppendOp`, in order.
`fuel` bounds the number of rounds. -/
def drain (lt same : α → α → Bool) : Nat → List (Cur α) → Option (List α)
  | 0, _ => none
  | _ + 1, [] => some []
  | fuel + 1, c :: t =>
    (nextFrom lt same c.1 (total (c :: t) + 1) (c :: t)).bind fun h' =>
    (drain lt same fuel h').bind fun out => some (c.1 :: out)

/-- The constructor and `Merge`. -/
def merge (lt same : α → α → Bool) (inputs : List (List α)) : Option (List α) :=
  (build lt [] inputs).bind fun h => drain lt same (total h + 1) h

end Heap
end Ron
