import Verif.Model.TextBuilder
import Verif.Model.TextState
/-!
Chains are written out as frames: `ron/frames.hpp:104-120`.

`.ok none`: not done within the number of turns given.
-/
namespace Ron.Reserialize
open Ron

/-- The inner loop, `ron/frames.hpp:111-113`: the op the cursor is at is appended before `Next` is called. -/
def ops : Nat → Builder → Cursor → Out (Option (Builder × Cursor.NextStatus))
  | 0, _, _ => .ok none
  | n + 1, b, c =>
    (b.appendCursor c).bind fun b => c.next.bind fun r => if r.2 = .ok then ops n b r.1 else .ok (some (b, r.2))

/-- The outer loop, `ron/frames.hpp:108-118`; `into` are the frames made so far. They stay there if there is an error
in one of the inputs. -/
def frames (n : Nat) : List (List Byte) → List Cursor → Out (Option (Status × List (List Byte)))
  | into, [] => .ok (some (Status.OK, into))
  | into, c :: what =>
    (ops n Builder.init c).bind fun r =>
      match r with
      | none => .ok none
      | some (b, st) =>
        if st ≠ .endOfFrame then .ok (some (TextMerge.statusOf st, into))
        else b.release.bind fun t => frames n (into ++ [t.1]) what

/-- `Reserialize`, `ron/frames.hpp:104-120`. (The cursors of `what` are left where the loop left them; no caller uses
them afterwards.) -/
def reserialize (n : Nat) (what : List Cursor) : Out (Option (Status × List (List Byte))) := frames n [] what

/-- What `rdt/test/lww.cc:84-90` does: a log is split into chains, the chains are written out. -/
def splitFrames (n : Nat) (cutoff : Uuid) (log : List Byte) : Out (Option (Status × List (List Byte))) :=
  (Chains.splitLog n cutoff log).bind fun r =>
    match r with
    | none => .ok none
    | some (chains, st) => if st = .ok then reserialize n chains else .ok (some (TextMerge.statusOf st, []))

end Ron.Reserialize
