import Verif.Model.Lifecycle
import Verif.Spec.Store
/-!
What is done to a replica.
-/
namespace Ron.Spec
open Ron

/-- A call of the API of an open replica, with the reading of the wall clock where it is used.
`reopen`: the replica is closed, and opened again. -/
inductive HostCall where
  | setActive (wall : Word) (id : Uuid)
  | create (wall yarn : Word) (transcendent : Bool)
  | fork (wall new orig : Word)
  | drop (id : Uuid)
  | receive (wall yarn : Word) (cur : ACur)
  | reopen

/-- The outcome of a call. -/
def hostCall (mg : Reducer) (hs : Hashing) (h : Host) : HostCall → Option (Status × Host)
  | .setActive w id => h.setActive w id
  | .create w y t => h.createBranch mg hs w y t
  | .fork w n o => h.forkBranch mg hs w n o
  | .drop id => some (h.dropStore id)
  | .receive w y c => h.receive mg hs w y c
  | .reopen => Host.opened mg h.close

/-- The stores that a call may modify. -/
def HostCall.touches : HostCall → Uuid → Prop
  | .setActive _ _, i => i = Uuid.NIL
  | .create _ y _, i => i = Host.branchId y
  | .fork _ n _, i => i = Host.branchId n
  | .drop id, i => i = id
  | .receive _ y _, i => i = Host.branchId y
  | .reopen, _ => False

/-- A replica that was created and used; the calls satisfy `P`, their outcome may be any. -/
inductive Lived (mg : Reducer) (hs : Hashing) (P : Host → HostCall → Prop) : Host → Prop where
  | created {wall : Word} {st st' : Status} {db : Db} {h : Host} :
    Host.createReplica mg hs wall = some (st, db) → Host.opened mg db = some (st', h) → Lived mg hs P h
  | used {h h' : Host} {c : HostCall} {st : Status} : Lived mg hs P h → P h c →
    hostCall mg hs h c = some (st, h') → Lived mg hs P h'

/-- The id in the newest record at the zero key: the tip that was recorded. -/
def tipOf (s : MemStore) : Option Uuid := (stored Key.ZERO s).getLast?.bind fun f => f.head?.map AOp.id

/-- The stamp that a new yarn begins with is within its yarn and earlier than `NEVER`. -/
def Startable (h : Host) (wall yarn : Word) : Prop :=
  (yarn ≠ 0#64 ∨ h.active = Uuid.NIL) ∧ (clockNow h.now wall yarn).1.toNat < NEVER.toNat

/-- The calls that leave the replica in order. A branch is created with a stamp of its own; before
ops of other yarns are received, the replica has been reopened since the branch was created. -/
def Careful (h : Host) : HostCall → Prop
  | .create w y t => t = true ∨ Startable h w y
  | .fork w n _ => Startable h w n
  | .receive _ y c => ∀ s, h.find (Host.branchId y) = some s → s.tip ≠ Uuid.NIL ∨
      ∀ o ∈ c.ops, o.id.origin = s.id.origin ∧ o.id.origin.payload ≠ 0
  | _ => True

end Ron.Spec
