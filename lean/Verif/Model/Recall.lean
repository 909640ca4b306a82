import Verif.Model.Rdt
/-!
The state of an object as of a version: `GetObjectVersion`, `db/replica.hpp:254-260`, and
`ObjectLogToState`, `rdt/rdt.hpp:197-221`, from the log that was found. Frames are lists of ops here;
that `SplitLogIntoChains` does this to text, unless the version is inside of a span, is C48.
-/
namespace Ron.Recall
open Rdt

/-- An op before chains, `rdt/rdt.hpp:185`: it is in the first one if the next op refers to it. -/
def link (o : AOp) : List (List AOp) → List (List AOp)
  | (n :: c) :: cs => if n.ref = o.id then (o :: n :: c) :: cs else [o] :: (n :: c) :: cs
  | cs => [o] :: cs

/-- The loops of `SplitLogIntoChains`, `rdt/rdt.hpp:179-193`: a chain goes on while the next op refers
to the one before it; the op `cutoff` is the last one. -/
def chainsFrom (cutoff : Uuid) : List AOp → List (List AOp)
  | [] => []
  | o :: os => if o.id = cutoff then [[o]] else link o (chainsFrom cutoff os)

/-- `SplitLogIntoChains`, `rdt/rdt.hpp:168-195`. The id before the first one is NIL, so the cutoff NIL
stops at once. -/
def split (cutoff : Uuid) (log : List AOp) : List (List AOp) :=
  if cutoff = Uuid.NIL then [] else chainsFrom cutoff log

/-- `GetObjectVersion` once the log is found, `db/replica.hpp:257-259`, with
`MergeCursors(ret, inputs)`, `rdt/rdt.hpp:98-106`. -/
def version (v : View) (cutoff : Uuid) (log : List AOp) : Option (Status × List AOp) :=
  match getForm Uuid.NIL (split cutoff log) with
  | none => some (Status.BADARGS, [])
  | some f => mergeCursors v f (split cutoff log)

/-- `ObjectLogToState`, `rdt/rdt.hpp:197-221`: the type is the reference of the first op. -/
def state (v : View) (cutoff : Uuid) (log : List AOp) : Option (Status × List AOp) :=
  match split cutoff log with
  | (o :: os) :: cs => mergeCursors v (uuid2form o.ref) ((o :: os) :: cs)
  | _ => some (Status.OK, [])

end Ron.Recall
