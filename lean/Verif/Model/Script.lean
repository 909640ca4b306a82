import Verif.Model.TextBuilder
/-!
Test scripts: `SplitTests`, `db/main.cc:234-250`.
-/
namespace Ron.Script
open Ron

/-- `Uuid::COMMENT`, `ron/uuid.cc:11`: the name `~`. -/
def COMMENT : Uuid := ⟨BitVec.ofNat 64 (63 * 2 ^ 54), 0#64⟩

/-- The condition of lines 238-239: a comment with the terminator `!` or `?`. -/
def isHeader (c : Cursor) : Bool := decide (c.id = some COMMENT) && (decide (c.term = 2) || decide (c.term = 3))

/-- The loop and what is after it, lines 237-249; `b` is the builder, `tests` the frames so far. `none`: not done
within `n` ops. The status that the loop ends with is not looked at: the result is `OK`. -/
def splitLoop : Nat → Cursor → Builder → List (List Byte) → Out (Option (List (List Byte)))
  | 0, _, _, _ => .ok none
  | n + 1, c, b, tests =>
    c.next.bind fun r =>
      if r.2 ≠ .ok then
        if b.data ≠ [] then b.release.bind fun x => .ok (some (tests ++ [x.1])) else .ok (some tests)
      else
        (if isHeader r.1 ∧ b.data ≠ [] then b.release.bind fun x => .ok (x.2, tests ++ [x.1])
          else .ok (b, tests)).bind fun s =>
        (s.1.appendCursor r.1).bind fun b =>
        (if r.1.term ≠ 1 then b.endChunk r.1.term else .ok b).bind fun b => splitLoop n r.1 b s.2

/-- `SplitTests`. -/
def splitTests (n : Nat) (frame : List Byte) : Out (Option (List (List Byte))) :=
  splitLoop n (Cursor.init frame) Builder.init []

end Ron.Script
