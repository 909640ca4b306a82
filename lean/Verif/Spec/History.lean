import Verif.Model.Store
/-!
The history kept in a store: the ops in its log records.
-/
namespace Ron.Spec
open Ron

/-- An op: its id, reference and values. -/
abbrev Body := Uuid × Uuid × List AVal

/-- Some record holds the op. -/
def Held (s : MemStore) (b : Body) : Prop := ∃ r ∈ s, ∃ o ∈ r.2, o.body = b

/-- Some log record holds the op. -/
def Logged (s : MemStore) (b : Body) : Prop := ∃ r ∈ s, r.1.form = Form.LOG ∧ ∃ o ∈ r.2, o.body = b

/-- The id of a logged op. -/
def LoggedId (s : MemStore) (i : Uuid) : Prop := ∃ b, Logged s b ∧ b.1 = i

/-- The op refers to a known type, or to an earlier event in the log. -/
def Caused (s : MemStore) (b : Body) : Prop :=
  (b.2.1.version = Uuid.vNAME ∧ uuid2form b.2.1 ≠ Form.ZERO) ∨
  (b.2.1.version = Uuid.vTIME ∧ Uuid.lt b.2.1 b.1 = true ∧ LoggedId s b.2.1)

/-- The history is causally closed: every logged op has its cause in the log. The index of events
(ops referring to `meta`) covers logged events only. -/
structure Closed (metaName : Uuid) (s : MemStore) : Prop where
  causes : ∀ b, Logged s b → Caused s b
  index : ∀ b, Held s b → b.2.1 = metaName → LoggedId s b.1

/-- What is needed of the reducers: no new ops; logs lose nothing and do not fail. -/
structure Honest (mg : Reducer) : Prop where
  noNew : ∀ {f fs st out}, mg f fs = some (st, out) → st.ok = true →
    ∀ o ∈ out, ∃ i ∈ fs, ∃ x ∈ i, x.body = o.body
  log : ∀ {fs st out}, mg Form.LOG fs = some (st, out) → st.ok = true ∧
    ∀ i ∈ fs, ∀ x ∈ i, ∃ o ∈ out, o.body = x.body

/-- Less is needed for the history: merging a single frame of a `max` may make up an op, of those in
`new`; these are not index entries. -/
structure Makes (metaName : Uuid) (new : Body → Prop) (mg : Reducer) : Prop where
  noNew : ∀ {f fs st out}, mg f fs = some (st, out) → st.ok = true →
    ∀ o ∈ out, (∃ i ∈ fs, ∃ x ∈ i, x.body = o.body) ∨ (f = Form.MAX ∧ new o.body)
  two : ∀ {f fs st out}, mg f fs = some (st, out) → st.ok = true → 2 ≤ fs.length → (∀ i ∈ fs, i ≠ []) →
    ∀ o ∈ out, ∃ i ∈ fs, ∃ x ∈ i, x.body = o.body
  log : ∀ {fs st out}, mg Form.LOG fs = some (st, out) → st.ok = true ∧
    ∀ i ∈ fs, ∀ x ∈ i, ∃ o ∈ out, o.body = x.body
  plain : ∀ b, new b → b.2.1 ≠ metaName

theorem Honest.makes {metaName : Uuid} {mg : Reducer} (h : Honest mg) : Makes metaName (fun _ => False) mg :=
  ⟨fun e k o ho => Or.inl (h.noNew e k o ho), fun e k _ _ o ho => h.noNew e k o ho, h.log, fun _ h => h.elim⟩

end Ron.Spec
