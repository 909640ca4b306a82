import Verif.Model.TextCursor
/-!
Splitting a log into chains: `rdt/rdt.hpp:168-195`, for text frames.
-/
namespace Ron

/-- `nxt.data().EndAt(at)`, `ron/slice.hpp:117-120,183`: the cursor goes no further than `n`. -/
def Cursor.cutAt (c : Cursor) (n : Nat) : Cursor := { c with buf := c.buf.take n }

namespace Chains
open Cursor

/-- The inner loop of `SplitLogIntoChains`, `rdt/rdt.hpp:181-185`: `prev`, `at`, `cur` and `ok` at
its end. `none` inside `ok`: out of fuel. -/
def runEnd (cutoff : Uuid) : Nat → Cursor → Out (Option (Uuid × Nat × Cursor × NextStatus))
  | 0, _ => .ok none
  | fuel + 1, cur =>
    match cur.id with
    | none => .abort
    | some prev =>
      (next cur).bind fun r =>
        if r.2 = .ok ∧ r.1.ref = some prev ∧ prev ≠ cutoff then runEnd cutoff fuel r.1
        else .ok (some (prev, cur.beg, r.1, r.2))

/-- The outer loop, `rdt/rdt.hpp:179-193`: the chains and the last `ok`. -/
def loop (cutoff : Uuid) : Nat → Uuid → Cursor → Cursor → List Cursor → NextStatus →
    Out (Option (List Cursor × NextStatus))
  | 0, _, _, _, _, _ => .ok none
  | fuel + 1, prev, cur, nxt, chains, last =>
    if cur.cs ≠ 0 ∧ prev ≠ cutoff then
      (runEnd cutoff (fuel + 1) cur).bind fun r =>
        match r with
        | none => .ok none
        | some (prev', at', cur', st) =>
          if st = .ok then loop cutoff fuel prev' cur' cur' (chains ++ [nxt.cutAt at']) st
          else loop cutoff fuel prev' cur' nxt (chains ++ [nxt]) st
    else .ok (some (chains, last))

/-- `SplitLogIntoChains`, `rdt/rdt.hpp:168-195`. The result is the chains, which are cursors at the
first op of a chain each, and the status. A status that was not assigned is `OK`,
`ron/status.hpp:15`. -/
def splitLog (fuel : Nat) (cutoff : Uuid) (input : List Byte) :
    Out (Option (List Cursor × NextStatus)) :=
  (next (init input)).bind fun r =>
    if r.2 = .ok then
      (loop cutoff fuel ⟨0#64, 0#64⟩ r.1 r.1 [] .ok).bind fun x =>
        .ok (x.map fun y => (y.1, if y.2 = .endOfFrame then .ok else y.2))
    else .ok (some ([], .ok))

end Chains
end Ron
