import Verif.Model.Handle
/-!
C124: handles of stores.
-/
namespace Ron.Props
open Ron.Handle

/-- C124: a store that was created or opened can be written and read; a method that fails leaves the handle as it was, so
that it can be tried again; a closed store answers `BAD_STATE` to whatever but `Create` and `Open`. -/
structure C124_claim : Prop where
  used : ∀ h d c r, (∃ id, c = .create id ∨ c = .open_ id) → call h d c = some r → r.1 = Status.OK →
    ∃ x, access r.2.1 r.2.2 = some (Status.OK, x)
  kept : ∀ h d c r, call h d c = some r → r.1.ok = false → r.2.1 = h
  refused : ∀ d c, c = .access ∨ c = .batch ∨ c = .close ∨ c = .drop → call closed d c = some (Status.BAD_STATE, closed, d)

/-- C124 is violated: `Open` sets no handle of a family, the first `Write` or `Read` after it uses a null one. -/
theorem C124_used_violated : ¬ ∀ h d c r, (∃ id, c = .create id ∨ c = .open_ id) → call h d c = some r → r.1 = Status.OK →
    ∃ x, access r.2.1 r.2.2 = some (Status.OK, x) := by
  intro h
  obtain ⟨x, e⟩ := h closed (some []) (.open_ Uuid.NIL) _ ⟨_, .inr rfl⟩ rfl (by decide)
  exact absurd e (by
    show access (open_ closed (some []) Uuid.NIL).2.1 (open_ closed (some []) Uuid.NIL).2.2 ≠ _
    rw [show access (open_ closed (some []) Uuid.NIL).2.1 (open_ closed (some []) Uuid.NIL).2.2 = none by decide]
    exact fun e => nomatch e)

/-- C124 is violated: `Open` of a branch fails and leaves the handle open. -/
theorem C124_kept_violated : ¬ ∀ h d c r, call h d c = some r → r.1.ok = false → r.2.1 = h := fun h =>
  absurd (h closed (some []) (.open_ ⟨1#64, 1#64⟩) _ rfl (by decide)) (by decide)

/-- C124 is violated: a batch is written, or the store is dropped, through a null pointer if the store is closed. -/
theorem C124_refused_violated : ¬ ∀ d c, c = .access ∨ c = .batch ∨ c = .close ∨ c = .drop →
    call closed d c = some (Status.BAD_STATE, closed, d) := fun h =>
  absurd (h none .batch (.inr (.inl rfl))) (fun e => nomatch e)

theorem C124_violated : ¬ C124_claim := fun h => C124_used_violated h.used

/-- `Create`, `Write` of a record, `Read` and `Close`. -/
def tame : Call → Bool
  | .create _ | .access | .close => true
  | _ => false

/-- The calls are made one after another; after a `Create` that fails no more calls are made. -/
def Defined (h : Handle) (d : Disk) : List Call → Prop
  | [] => True
  | c :: cs => ∃ r, call h d c = some r ∧ ((∃ id, c = .create id) ∧ r.1.ok = false ∨ Defined r.2.1 r.2.2 cs)

/-- A handle is open if and only if it has a family. -/
def Whole (h : Handle) : Prop := h.db = true ↔ h.cf ≠ none

theorem create_whole {h : Handle} {d : Disk} {id : Uuid} (hk : (create h d id).1.ok = true) : 
    (create h d id).2.1.db = true ∧ (create h d id).2.1.cf = some id := by
  unfold create at hk ⊢
  split at hk
  · exact absurd (show Status.DB_FAIL.ok = true from hk) (by decide)
  · rename_i h1
    rw [if_neg h1]
    simp only at hk ⊢
    split at hk
    · rename_i e
      rw [if_pos e, e]
      exact ⟨rfl, rfl⟩
    · rename_i e
      rw [if_neg e]
      split at hk
      · exact absurd (show Status.DB_FAIL.ok = true from hk) (by decide)
      · rename_i e2
        rw [if_neg e2]
        exact ⟨rfl, rfl⟩

/-- C124: nothing undefined comes of `Create`, `Write` of a record, `Read` and `Close` in any order, if no more calls are
made after a `Create` that fails. Missing from the claim: `Open`, `Drop` and batches. -/
theorem C124_defined_partial : ∀ (cs : List Call) (h : Handle) (d : Disk), Whole h → (∀ c ∈ cs, tame c = true) → Defined h d cs
  | [], _, _, _, _ => trivial
  | c :: cs, h, d, hw, ht => by
    have ht' : ∀ c ∈ cs, tame c = true := fun c hc => ht c (List.mem_cons_of_mem _ hc)
    have h0 := ht c List.mem_cons_self
    cases c with
    | create id =>
      refine ⟨_, rfl, ?_⟩
      by_cases hk : (create h d id).1.ok = true
      · obtain ⟨k1, k2⟩ := create_whole hk
        refine .inr (C124_defined_partial cs _ _ ⟨fun _ => ?_, fun _ => k1⟩ ht')
        show (create h d id).2.1.cf ≠ none
        rw [k2]
        exact fun e => nomatch e
      · exact .inl ⟨⟨id, rfl⟩, Bool.eq_false_iff.2 hk⟩
    | access =>
      show ∃ r, access h d = some r ∧ _
      unfold access
      cases hd : h.db with
      | false => exact ⟨_, rfl, .inr (C124_defined_partial cs h d hw ht')⟩
      | true =>
        rw [if_neg (by decide), if_neg (hw.1 hd)]
        exact ⟨_, rfl, .inr (C124_defined_partial cs h d hw ht')⟩
    | close =>
      refine ⟨_, rfl, .inr ?_⟩
      show Defined (close h d).2.1 (close h d).2.2 cs
      unfold close
      split
      · exact C124_defined_partial cs h d hw ht'
      · exact C124_defined_partial cs closed d ⟨(fun h => nomatch h), fun h => absurd rfl h⟩ ht'
    | open_ id => cases h0
    | batch => cases h0
    | drop => cases h0

/-- C124: the calls that are undefined are these: `Write` of a record or `Read` through a handle that is open and has no
family; a batch through a closed one; `Drop` through one that is closed or has no family. -/
theorem C124_undefined (h : Handle) (d : Disk) (c : Call) : call h d c = none ↔
    (c = .access ∧ h.db = true ∧ h.cf = none) ∨ (c = .batch ∧ h.db = false) ∨ (c = .drop ∧ (h.db = false ∨ h.cf = none)) := by
  obtain ⟨b, f⟩ := h
  cases c with
  | create id => exact ⟨(fun e => nomatch e), fun e => by rcases e with ⟨e, _⟩ | ⟨e, _⟩ | ⟨e, _⟩ <;> cases e⟩
  | open_ id => exact ⟨(fun e => nomatch e), fun e => by rcases e with ⟨e, _⟩ | ⟨e, _⟩ | ⟨e, _⟩ <;> cases e⟩
  | close => exact ⟨(fun e => nomatch e), fun e => by rcases e with ⟨e, _⟩ | ⟨e, _⟩ | ⟨e, _⟩ <;> cases e⟩
  | access => cases b <;> cases f <;> simp [call, access]
  | batch => cases b <;> simp [call, batch]
  | drop =>
    cases b <;> cases f <;> simp [call, drop]
    split <;> exact fun e => nomatch e

/-- C124: a method other than `Open` keeps a handle whole, unless it is a `Create` that fails; and through a whole handle
that is open all calls are defined. -/
theorem C124_whole_partial (h : Handle) (d : Disk) (c : Call) (hw : Whole h) :
    (h.db = true → call h d c ≠ none) ∧
      ∀ r, call h d c = some r → (∀ id, c ≠ .open_ id) → ((∃ id, c = .create id) → r.1.ok = true) → Whole r.2.1 := by
  refine ⟨fun ho e => ?_, fun r e hn hc => ?_⟩
  · rcases (C124_undefined h d c).1 e with ⟨_, _, e⟩ | ⟨_, e⟩ | ⟨_, e | e⟩
    · exact hw.1 ho e
    · exact absurd (ho.symm.trans e) (by decide)
    · exact absurd (ho.symm.trans e) (by decide)
    · exact hw.1 ho e
  · have wc : Whole closed := ⟨(fun h => nomatch h), fun h => absurd rfl h⟩
    have wcl : ∀ d, Whole (close h d).2.1 := fun d => by
      unfold close
      split
      · exact hw
      · exact wc
    cases c with
    | create id =>
      obtain rfl : create h d id = r := Option.some.inj e
      obtain ⟨k1, k2⟩ := create_whole (hc ⟨id, rfl⟩)
      exact ⟨fun _ => (by rw [k2]; exact (fun e => nomatch e)), fun _ => k1⟩
    | open_ id => exact absurd rfl (hn id)
    | close =>
      obtain rfl : close h d = r := Option.some.inj e
      exact wcl d
    | access =>
      have e : access h d = some r := e
      unfold access at e
      split at e
      · cases e; exact hw
      · split at e
        · cases e
        · cases e; exact hw
    | batch =>
      have e : batch h d = some r := e
      unfold batch at e
      split at e
      · cases e
      · cases e; exact hw
    | drop =>
      have e : drop h d = some r := e
      unfold drop at e
      split at e
      · split at e
        · cases e; exact hw
        · cases e; exact wcl _
      · cases e

/-- C124: a store that was created can be used. Missing from the claim: one that was opened. -/
theorem C124_created_partial (h : Handle) (d : Disk) (id : Uuid) (hk : (create h d id).1.ok = true) :
    ∃ x, access (create h d id).2.1 (create h d id).2.2 = some (Status.OK, x) := by
  obtain ⟨k1, k2⟩ := create_whole hk
  unfold access
  rw [k1, k2, if_neg (by decide), if_neg (fun e => nomatch e)]
  exact ⟨_, rfl⟩

/-- C124: a closed store answers `BAD_STATE` to `Write` of a record, `Read` and `Close`. Missing from the claim: `Drop` and
batches. -/
theorem C124_closed_partial (h : Handle) (d : Disk) : 
    access closed d = some (Status.BAD_STATE, closed, d) ∧ close closed d = (Status.BAD_STATE, closed, d) ∧
      (h.db = true → close h d = (Status.OK, closed, d)) :=
  ⟨rfl, rfl, fun e => by unfold close; rw [e, if_neg (by decide)]⟩

/-- C124: `Drop` of a branch takes its family away, no other one, and closes the handle. -/
theorem C124_drop (id : Uuid) (fs : List Uuid) (hid : id ≠ Uuid.NIL) :
    drop ⟨true, some id⟩ (some fs) = some (Status.OK, closed, some (fs.filter fun x => decide (x ≠ id))) ∧
      id ∉ (fs.filter fun x => decide (x ≠ id)) ∧ ∀ x, x ≠ id → (x ∈ (fs.filter fun x => decide (x ≠ id)) ↔ x ∈ fs) := by
  refine ⟨?_, fun h => ?_, fun x hx => ⟨fun h => (List.mem_filter.1 h).1, fun h => List.mem_filter.2 ⟨h, decide_eq_true hx⟩⟩⟩
  · unfold drop
    simp only
    rw [if_neg hid]
    rfl
  · exact absurd rfl (of_decide_eq_true (List.mem_filter.1 h).2)

/-- C124: a `Create` of a branch that returns `OK` makes a family that was not there, and leaves the others alone. -/
theorem C124_new (h : Handle) (d : Disk) (id : Uuid) (hid : id ≠ Uuid.NIL) (hk : (create h d id).1.ok = true) :
    id ∉ d.getD [] ∧ (create h d id).2.2 = some (id :: d.getD []) := by
  unfold create at hk ⊢
  split at hk
  · exact absurd (show Status.DB_FAIL.ok = true from hk) (by decide)
  · rename_i h1
    rw [if_neg h1]
    simp only [if_neg hid] at hk ⊢
    split at hk
    · exact absurd (show Status.DB_FAIL.ok = true from hk) (by decide)
    · rename_i e2
      rw [if_neg e2]
      exact ⟨e2, rfl⟩

/-- `db/rocks_store.hpp:62-67`: "If already open, or if ./.swarmdb already exists, creates a new column family in the
database." Through a handle that is open it does. -/
theorem C124_open_creates (h : Handle) (fs : List Uuid) (id : Uuid) (ho : h.db = true) (hid : id ≠ Uuid.NIL) (hn : id ∉ fs) :
    create h (some fs) id = (Status.OK, ⟨true, some id⟩, some (id :: fs)) := by
  unfold create
  rw [if_neg (fun e => by rw [ho] at e; exact absurd e.1 (by decide))]
  simp only [Option.getD_some, if_neg hid, if_neg hn]

/-- Through a closed one it does not, if the database has a branch already. -/
theorem C124_exists_violated : ¬ ∀ (fs : List Uuid) (id : Uuid), id ≠ Uuid.NIL → id ∉ fs →
    (create closed (some fs) id).1 = Status.OK := fun h =>
  absurd (h [⟨1#64, 1#64⟩] ⟨2#64, 1#64⟩ (by decide) (by decide)) (by decide)

/-- `Open` of a store that is open is refused, and leaves it as it was. -/
theorem C124_open_twice (h : Handle) (d : Disk) (id : Uuid) (ho : h.db = true) :
    open_ h d id = (Status.BAD_STATE, h, d) := by
  unfold open_
  rw [if_pos ho]

/-- A family is created twice, the second time through a handle made of a database (`db/rocks_store.hpp:42`): that `Create`
fails, the handle is open and has no family, the next `Read` is undefined. -/
example : (create closed none ⟨1#64, 1#64⟩).1 = Status.OK ∧
    (create ⟨true, none⟩ (some [⟨1#64, 1#64⟩]) ⟨1#64, 1#64⟩).1 = Status.DB_FAIL ∧
    access (create ⟨true, none⟩ (some [⟨1#64, 1#64⟩]) ⟨1#64, 1#64⟩).2.1 none = none := by decide

/-- Calls that meet the hypotheses of `C124_defined_partial`. -/
example : Whole closed ∧ (∀ c ∈ [Call.access, .create Uuid.NIL, .access, .create ⟨1#64, 1#64⟩, .access, .close, .close],
    tame c = true) := by
  refine ⟨⟨(fun h => nomatch h), fun h => absurd rfl h⟩, by simp [tame]⟩

/-- A handle that is whole and open, as in `C124_whole_partial`. -/
example : Whole ⟨true, some Uuid.NIL⟩ := ⟨(fun _ e => nomatch e), fun _ => rfl⟩

/-- And those of the others. -/
example : (create closed none Uuid.NIL).1.ok = true ∧ (create closed none ⟨1#64, 1#64⟩).1.ok = true ∧
    (⟨2#64, 1#64⟩ : Uuid) ∉ [(⟨1#64, 1#64⟩ : Uuid)] ∧ (⟨1#64, 1#64⟩ : Uuid) ≠ Uuid.NIL ∧
    drop ⟨true, some ⟨1#64, 1#64⟩⟩ (some [⟨1#64, 1#64⟩]) = some (Status.OK, closed, some []) := by decide

end Ron.Props
