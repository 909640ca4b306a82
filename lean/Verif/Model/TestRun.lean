import Verif.Model.Script
import Verif.Model.Compare
/-!
Running of test scripts: `CommandTest`, `db/main.cc:256-302`. The replica is left open: `recv s b f` is what
`ReceiveFrame(b, f, test_yarn_id)` makes of the replica `s` and of the builder of responses `b`, with the status. The
branch `test` is created and made active before (lines 258-261), so `s` is the replica after that. What is printed is
left out; `feq` is as for `compareFrames`.
-/
namespace Ron.Script
open Ron

/-- The header of a test: the terminator of the first op of the frame, `none` if it is not a
comment. `id()` fails an assert on an op with less than two atoms. The name of the test is read and dropped; so is the
result of the second `Next`. `db/main.cc:270-281`. -/
def readHeader (frame : List Byte) : Out (Option Nat) :=
  (Cursor.next (Cursor.init frame)).bind fun r =>
    match r.1.id with
    | none => .abort
    | some u =>
      if u ≠ COMMENT then .ok none
      else
        (match r.1.op[2]? with
          | some a => if Atom.type a = Atom.tSTRING then (Cursor.readString r.1.buf a).bind fun _ => .ok () else .ok ()
          | none => .ok ()).bind fun _ =>
        (Cursor.next r.1).bind fun _ => .ok (some r.1.term)

variable {S : Type}

/-- The loop, `db/main.cc:269-302`: `b` has the responses since the last test with a question mark, `ok` is the status
of the last test. `none`: a comparison is not done within `fuel` ops. -/
def runTests (recv : S → Builder → List Byte → Out (S × Builder × Status)) (feq : List Byte → List Byte → Bool)
    (fuel : Nat) : List (List Byte) → S → Builder → Status → Out (Option (S × Builder × Status))
  | [], s, b, ok => .ok (some (s, b, ok))
  | f :: fs, s, b, ok =>
    if !ok.ok then .ok (some (s, b, ok))
    else (readHeader f).bind fun h =>
      match h with
      | none => .ok (some (s, b, .BADFRAME))
      | some t =>
        if t = 3 then
          b.release.bind fun re => (Cursor.compareFrames feq fuel re.1 f).bind fun st =>
            match st with
            | none => .ok none
            | some st => runTests recv feq fuel fs s Builder.init st
        else if t = 2 ∨ t = 0 then (recv s b f).bind fun r => runTests recv feq fuel fs r.1 r.2.1 r.2.2
        else .ok (some (s, b, .BADFRAME))

/-- `CommandTest` after the branch is there, `db/main.cc:263-302`. -/
def commandTest (recv : S → Builder → List Byte → Out (S × Builder × Status)) (feq : List Byte → List Byte → Bool)
    (fuel : Nat) (s : S) (script : List Byte) : Out (Option (S × Builder × Status)) :=
  (splitTests fuel script).bind fun x =>
    match x with
    | none => .ok none
    | some tests => runTests recv feq fuel tests s Builder.init .OK

end Ron.Script
