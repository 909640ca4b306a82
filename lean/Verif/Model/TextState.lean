import Verif.Model.Chains
import Verif.Model.TextMerge
/-!
The state of an object from its log, as text: `rdt/rdt.hpp:197-221`, and the state as of a version, `db/replica.hpp:254-260`.
(`Verif.Model.Recall` has the same code on lists of ops.)
-/
namespace Ron.TextMerge
open Ron

/-- The status of `Next`, `ragel/text-parser.rl:24-91`. -/
def statusOf : Cursor.NextStatus → Status
  | .ok => Status.OK
  | .endOfFrame => Status.ENDOFFRAME
  | .badState => Status.BAD_STATE

/-- `ObjectLogIntoState`, `rdt/rdt.hpp:197-208`. -/
def logIntoState (mx : Builder → List Cursor → Out (Option (Builder × Status))) (n : Nat) (b : Builder)
    (input : List Byte) (cutoff : Uuid) : Out (Option (Builder × Status)) :=
  (Chains.splitLog n cutoff input).bind fun r =>
    match r with
    | none => .ok none
    | some (chains, st) =>
      if st = .ok then
        match chains with
        | [] => .ok (some (b, Status.OK))
        | c :: cs =>
          match c.ref with
          | none => .ub
          | some ref => master mx n (uuid2form ref) b (c :: cs)
      else .ok (some (b, statusOf st))

/-- `ObjectLogToState`, `rdt/rdt.hpp:210-221`: the status and, if it is OK, the frame. -/
def logToState (mx : Builder → List Cursor → Out (Option (Builder × Status))) (n : Nat) (input : List Byte)
    (cutoff : Uuid) : Out (Option (Status × List Byte)) :=
  (logIntoState mx n Builder.init input cutoff).bind fun r =>
    match r with
    | none => .ok none
    | some (b, st) =>
      if st.ok then b.release.bind fun x => .ok (some (Status.OK, x.1)) else .ok (some (st, []))

/-- `GetObjectVersion` once the log is found, `db/replica.hpp:257-259`, with `MergeCursors(ret, inputs)`,
`rdt/rdt.hpp:98-106`. -/
def logVersion (mx : Builder → List Cursor → Out (Option (Builder × Status))) (n : Nat) (input : List Byte)
    (version : Uuid) : Out (Option (Status × List Byte)) :=
  (Chains.splitLog n version input).bind fun r =>
    match r with
    | none => .ok none
    | some (chains, st) =>
      if st = .ok then
        (getForm Uuid.NIL chains).bind fun f =>
          match f with
          | none => .ok (some (Status.BADARGS, []))
          | some f => mergeCursors mx n f chains
      else .ok (some (statusOf st, []))

end Ron.TextMerge
