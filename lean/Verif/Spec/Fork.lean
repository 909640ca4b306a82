import Verif.Spec.Lineage
import Verif.Spec.Lifecycle
/-!
Histories of the branches of a replica.
-/
namespace Ron.Spec
open Ron Host

/-- The event that begins a yarn. -/
def Chain.yarn (id : Uuid) : Chain := ⟨⟨id, formUuid Form.YARN, [], .raw⟩, [], id, formUuid Form.YARN⟩

/-- A branch and its history: the store holds the history; the tip that is recorded is an event of the history, so is
the cached one unless there is none. -/
structure Kept (s : OpenStore) (H : List Chain) : Prop where
  lineage : Lineage H
  holds : ∃ note, Carries false H note s.data
  recorded : ∃ i, tipOf s.data = some i ∧ Known H i
  cached : s.tip = Uuid.NIL ∨ Known H s.tip

/-- A yarn begins with a stamp of its own, earlier than `NEVER`. -/
def Begins (h : Host) (wall yarn : Word) : Prop :=
  yarn.payload ≠ 0 ∧ (clockNow h.now wall yarn).1.toNat < NEVER.toNat

/-- Calls that begin yarns with stamps of their own and receive one chain at a time. -/
def Chainwise (h : Host) : HostCall → Prop
  | .create w y t => y.payload ≠ 0 ∧ (t = true ∨ Begins h w y)
  | .fork w n _ => Begins h w n
  | .receive _ _ c => ∃ o os, c = ⟨o :: os, Status.ENDOFFRAME, true⟩ ∧ Proper o os
  | _ => True

/-- A branch receives a frame of many chains, all of which but the last create objects; if the tip of the branch is cached,
they are of the yarn of the tip. -/
def Bundled (h : Host) : HostCall → Prop
  | .receive _ y c => ∃ l, l ≠ [] ∧ c = ⟨opsOf l, Status.ENDOFFRAME, true⟩ ∧ (∀ p ∈ l, Proper p.1 p.2) ∧ Parted l ∧
      (∀ p ∈ l.dropLast, p.1.ref.version = Uuid.vNAME) ∧
      ∀ s, h.find (branchId y) = some s → s.tip = Uuid.NIL ∨ ∀ p ∈ l, p.1.id.origin = s.tip.origin
  | _ => False

/-- The object can be read and is not empty. What is read of a maximum was stored (the code may read past the end). -/
def Legible (v : Rdt.View) (s : MemStore) (k : Key) : Prop :=
  ∃ f, Engine.read (Rdt.mergeCursors v) s k = some (Status.OK, f) ∧ f ≠ [] ∧
    (k.form = Form.MAX → ∀ o ∈ f, ∃ g ∈ stored k s, ∃ x ∈ g, x.body = o.body)

/-- The same, or frames of many chains; a branch is forked only if its arrays and maxima can be read and it has nothing of the yarn of the fork. -/
def Sparing (v : Rdt.View) (h : Host) (c : HostCall) : Prop := (Chainwise h c ∨ Bundled h c) ∧
  ∀ w n o, c = .fork w n o → ∀ s, h.find (branchId o) = some s → ∀ r ∈ s.data,
    (r.1.form = Form.RGA ∨ r.1.form = Form.MAX → Legible v s.data r.1) ∧ ∀ x ∈ r.2, x.id.origin ≠ (branchId n).origin

end Ron.Spec
