import Verif.Model.TextMerge
/-!
`MaxRDT` on text frames: `rdt/max.hpp`. (`Verif.Model.Rdt` has the same code on lists of ops.)

`.ok none`: not done within the number of turns given. `fl` is `strtod`, the bits of its result.
-/
namespace Ron.TextMerge
open Ron

/-- `ParseAtom`, `ron/text.hpp:48-62`, of an atom of a cursor. -/
def parsed (fl : List Byte → Word) (c : Cursor) (a : Atom) : Out Atom :=
  if a.type = Atom.tINT then
    (atomData c.buf a).bind fun d => (Out.ofOption (parseInteger d)).bind fun v => .ok ⟨BitVec.ofInt 64 v, a.origin⟩
  else if a.type = Atom.tFLOAT then (Cursor.floatText c.buf a).bind fun d => .ok ⟨fl d, a.origin⟩
  else if a.type = Atom.tSTRING ∧ a.cp ≠ 0 then .ok ⟨BitVec.ofNat 64 a.cp, BitVec.ofNat 64 (2 ^ 63)⟩
  else .ok a

/-- `atom(2)`, `ron/text.hpp:121-126`: fails an assert if it is not there. -/
def value2 (fl : List Byte → Word) (c : Cursor) : Out Atom :=
  match c.op[2]? with
  | none => .abort
  | some a => parsed fl c a

/-- `MaxRDT::Less`, `rdt/max.hpp:16-23`. -/
def maxLess (fl : List Byte → Word) (a b : Cursor) : Out Bool :=
  if a.op.length = 2 then
    if b.op.length > 2 then .ok true
    else
      match a.id, b.id with
      | some x, some y => .ok (Uuid.gt y x)
      | _, _ => .abort
  else if b.op.length = 2 then .ok false
  else (value2 fl a).bind fun x => (value2 fl b).bind fun y => .ok (Uuid.lt x y)

/-- The inner loop, `rdt/max.hpp:37-42`: the greatest so far, the input. -/
def maxScan (fl : List Byte → Word) : Nat → Cursor → Cursor → Out (Option Cursor)
  | 0, _, _ => .ok none
  | n + 1, m, c =>
    if c.cs = 0 then .ok (some m)
    else (maxLess fl m c).bind fun l => c.next.bind fun r => maxScan fl n (if l then c else m) r.1

/-- The outer loop, `rdt/max.hpp:36`, over the inputs from the last one on. -/
def maxScans (fl : List Byte → Word) (n : Nat) : Cursor → List Cursor → Out (Option Cursor)
  | m, [] => .ok (some m)
  | m, c :: cs =>
    (maxScan fl n m c).bind fun r =>
      match r with
      | none => .ok none
      | some m => maxScans fl n m cs

/-- `rdt/max.hpp:34-45`. -/
def maxRest (fl : List Byte → Word) (n : Nat) (b : Builder) (inputs : List Cursor) : Out (Option Builder) :=
  match inputs.getLast? with
  | none => .ub
  | some m =>
    m.next.bind fun r =>
      (maxScans fl n m (r.1 :: inputs.dropLast.reverse)).bind fun x =>
        match x with
        | none => .ok none
        | some m => (b.appendCursor m).bind fun b => (b.endChunk 0).bind fun b => .ok (some b)

/-- `MaxRDT::Merge`, `rdt/max.hpp:26-46`. -/
def max (fl : List Byte → Word) (n : Nat) (b : Builder) : List Cursor → Out (Option (Builder × Status))
  | [] => .ok (some (b, Status.OK))
  | c :: cs =>
    okay <|
      if c.cs ≠ 0 ∧ c.ref = some Rdt.MAX_UUID then
        (b.appendCursor c).bind fun b => c.next.bind fun r => maxRest fl n b (r.1 :: cs)
      else maxRest fl n b (c :: cs)

end Ron.TextMerge
