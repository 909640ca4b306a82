import Verif.Spec.Filing
import Verif.Spec.Merge
/-!
States and logs: the state of an object is made of the ops of its log, all of them; replicas that
have the same events have the same objects.
-/
namespace Ron.Spec
open Ron

/-- Types whose ops are kept in the order of their ids. -/
def IdForm (f : Form) : Prop := f = Form.LWW ∨ f = Form.MX ∨ f = Form.YARN

/-- Types whose state keeps every op. -/
def StateForm (f : Form) : Prop := IdForm f ∨ f = Form.RGA

/-- The ids in the logs are those of plain events, with a stamp that is not zero, and an id stands for
one op. -/
structure Tidy (s : MemStore) : Prop where
  plain : ∀ k b, k.form = Form.LOG → HeldIn k s b →
    b.1.value.toNat < 2 ^ 60 ∧ b.1.origin.toNat / 2 ^ 60 = 2 ∧ b.1.value ≠ 0#64
  one : ∀ k k' b b', k.form = Form.LOG → k'.form = Form.LOG → HeldIn k s b → HeldIn k' s b' →
    b.1 = b'.1 → b = b'

/-- No op of a log is missing from the state of the object. -/
def StatesWhole (s : MemStore) : Prop := ∀ obj rdt, Created s obj rdt → StateForm (uuid2form rdt) →
  ∀ b, HeldIn (Key.mk' obj Form.LOG) s b → HeldIn (Key.ofUuids obj rdt) s b

/-- The records of these types are in the order of ids. -/
def RecordsSorted (s : MemStore) : Prop := ∀ k f, (k, f) ∈ s → IdForm k.form → IdSorted f

/-- What is needed of the reducers: a merge of non-empty frames that succeeds loses nothing; frames in
the order of ids can be merged, and stay so. -/
structure Saves (mg : Reducer) : Prop where
  ids : ∀ {f fs st out}, StateForm f → mg f fs = some (st, out) → st.ok = true → (∀ i ∈ fs, i ≠ []) →
    (IdForm f → ∀ i ∈ fs, IdSorted i) → ∀ i ∈ fs, ∀ o ∈ i, ∃ x ∈ out, x.id = o.id
  order : ∀ {f fs}, IdForm f → (∀ i ∈ fs, IdSorted i) → ∃ out, mg f fs = some (Status.OK, out) ∧ IdSorted out

/-- The ops of the log of an object as a list, each once, without punctuation. -/
def LogOps (s : MemStore) (obj : Uuid) (ops : List AOp) : Prop :=
  (ops.map AOp.id).Nodup ∧ ∀ o, o ∈ ops ↔ o.term = .raw ∧ HeldIn (Key.mk' obj Form.LOG) s o.body

end Ron.Spec
