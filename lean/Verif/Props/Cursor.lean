import Verif.Lemmas.Cursor
/-!
Property theorems C18 (termination, progress, failure) and C19 (memory safety) of the frame
cursor.
-/
namespace Ron.Props
open Spec Cursor

theorem reach_basic {buf : List Byte} {cur : Cursor} (h : Reach buf cur) : Basic buf cur := by
  induction h with
  | init => exact .init buf
  | next _ hn ih => exact (next_cases ih hn).1

/-- C18: each successful step consumes at least one byte or one unit of a declared span. -/
theorem C18_progress (buf : List Byte) (cur cur' : Cursor) (h : Reach buf cur)
    (hn : next cur = .ok (cur', .ok)) :
    (cur'.beg = cur.beg ∧ cur'.span + 1 = cur.span) ∨ (cur.beg < cur'.beg ∧ cur.span = 0) := by
  rcases (next_cases (reach_basic h) hn).2.1 rfl with ⟨_, h1, h2⟩ | ⟨h1, h2⟩
  · exact .inl ⟨h1, h2⟩
  · exact .inr ⟨h2, h1⟩

/-- C18: the place of the cursor is always in the frame and never moves back. -/
theorem C18_monotone (buf : List Byte) (cur cur' : Cursor) (st : NextStatus)
    (h : Reach buf cur) (hn : next cur = .ok (cur', st)) :
    cur.beg ≤ cur'.beg ∧ cur'.beg ≤ buf.length ∧ cur'.buf = buf := by
  obtain ⟨b, h1, h2⟩ := next_cases (reach_basic h) hn
  refine ⟨?_, b.beg, b.buf⟩
  by_cases e : st = .ok
  · rcases h1 e with ⟨_, h3, _⟩ | ⟨_, h3⟩ <;> omega
  · exact (h2 e).2.2.1

/-- C18: iterating a frame ends, after at most `2^32` ops per byte. -/
theorem C18_terminates (buf : List Byte) (fuel : Nat) (h : buf.length * 2 ^ 32 < fuel) :
    iterate fuel (init buf) ≠ .ok none := by
  apply iterate_ends fuel _ (.init buf)
  have e : (init buf).steps = (buf.length - 0) * 2 ^ 32 + 0 := by
    unfold steps init; with_reducible rfl
  rw [e, Nat.sub_zero, Nat.add_zero]; exact h

example : okAnd (iterate 10 (init (lit "@1+A :0 'a';\n 12;"))) (fun x =>
    match x with
    | some (ops, st) => decide (ops.length = 2) && decide (st = .endOfFrame)
    | none => false) = true := by decide +kernel

/-- C18, the last part, as claimed: after the first failure no op is returned. -/
def C18_claim : Prop := ∀ (buf : List Byte) (cur cur1 cur2 : Cursor) (st1 st2 : NextStatus),
  Reach buf cur → next cur = .ok (cur1, st1) → st1 ≠ .ok → next cur1 = .ok (cur2, st2) → st2 ≠ .ok

/-- C18 is violated: the unterminated op `(5)` is a syntax error that leaves a span pending,
and the following call returns an op. -/
theorem C18_violated : ¬ C18_claim := by
  intro h
  obtain ⟨c1, h1, h1'⟩ := of_next (cur := init (lit "(5)")) (st := .badState)
    (P := fun c => okAnd (next c) fun x => decide (x.2 = .ok) && true) (by decide +kernel)
  obtain ⟨c2, h2, _⟩ := of_next (P := fun _ => true) h1'
  exact h _ _ c1 c2 _ _ .init h1 (by decide) h2 rfl

/-- C18, the last part, partial. Missing from the claim: a failure that leaves a span pending
(`span ≠ 0`). Without one, a failed cursor fails on every further call. -/
theorem C18_sticky_partial (buf : List Byte) (cur cur1 : Cursor) (st1 : NextStatus)
    (h : Reach buf cur) (h1 : next cur = .ok (cur1, st1)) (hf : st1 ≠ .ok) (hs : cur1.span = 0)
    (cur2 : Cursor) (hr : Later cur1 cur2) (cur3 : Cursor) (st3 : NextStatus)
    (h3 : next cur2 = .ok (cur3, st3)) : st3 ≠ .ok := by
  have hd := ((next_cases (reach_basic h) h1).2.2 hf).2.2.2 hs
  have : Dead cur2 := by
    clear h3
    induction hr with
    | refl => exact hd
    | next _ hn ih => exact (ih.next hn).2
  exact (this.next h3).1

/-- C18: the exact condition under which a failed cursor goes on: the next call after a
failure, if it does not abort, returns an op if and only if a span was left pending. -/
theorem C18_sticky_iff (buf : List Byte) (cur cur1 cur2 : Cursor) (st1 st2 : NextStatus)
    (h : Reach buf cur) (h1 : next cur = .ok (cur1, st1)) (hf : st1 ≠ .ok)
    (h2 : next cur1 = .ok (cur2, st2)) : st2 = .ok ↔ cur1.span ≠ 0 := by
  constructor
  · intro e hs
    exact C18_sticky_partial buf cur cur1 st1 h h1 hf hs cur1 .refl cur2 st2 h2 e
  · intro hs
    exact (next_span hs h2).1

example : ∃ c1, next (init (lit "@1 @2;")) = .ok (c1, .badState) ∧ c1.span = 0 :=
  (of_next (P := fun c => decide (c.span = 0)) (by decide +kernel)).imp fun _ h =>
    ⟨h.1, of_decide_eq_true h.2⟩

/-! ### C19 -/

theorem reach_safe {buf : List Byte} {cur : Cursor} (hn : buf.length < 10 ^ 9 - 1)
    (h : Reach buf cur) : Safe buf cur := by
  induction h with
  | init => exact .init buf
  | @next cur cur' st _ hs ih =>
    rcases next_safe hn ih with ⟨e, _⟩ | ⟨c, s, e, hc, _⟩
    · rw [hs] at e; cases e
    · rw [hs] at e; cases e; exact hc

/-- C19 as claimed: whatever the frame, `Next` makes no bad access, the positions recorded
for the atoms of an accepted op are sound, and every atom of it can be read. -/
def C19_claim : Prop := ∀ (buf : List Byte) (cur : Cursor), Reach buf cur →
  next cur ≠ .ub ∧ ∀ cur', next cur = .ok (cur', .ok) →
    (∀ a ∈ cur'.op, AtomOk buf a) ∧ ∀ i, i < cur'.op.length → ∃ v, atomVal cur' i = .ok v

/-- C19, partial: the claim for frames below `10^9 - 1` bytes (missing: longer frames, see
`C19_violated`). `Next` makes no bad access: no read outside of the frame, no overflow of
the message buffer. Asserts fail only on a frame with a word of more than ten characters. -/
theorem C19_no_bad_access_partial (buf : List Byte) (hn : buf.length < 10 ^ 9 - 1) (cur : Cursor)
    (h : Reach buf cur) : next cur ≠ .ub ∧ (next cur = .abort → LongWord buf) := by
  rcases next_safe hn (reach_safe hn h) with ⟨e, hl⟩ | ⟨c, s, e, _⟩
  · rw [e]; exact ⟨by simp, fun _ => hl⟩
  · rw [e]; exact ⟨by simp, by simp⟩

/-- C19, partial (frames below `10^9 - 1` bytes): an accepted op has an id, a reference and
values whose positions are sound: in the frame, in order, on an integer literal, or between
the quotes of a string. -/
theorem C19_atoms_partial (buf : List Byte) (hn : buf.length < 10 ^ 9 - 1) (cur cur' : Cursor)
    (h : Reach buf cur) (hs : next cur = .ok (cur', .ok)) :
    2 ≤ cur'.op.length ∧ (∀ a ∈ cur'.op, AtomOk buf a) ∧
      (∃ u, cur'.id = some u ∧ Atom.type u = Atom.tUUID) ∧
      (∃ u, cur'.ref = some u ∧ Atom.type u = Atom.tUUID) := by
  rcases next_safe hn (reach_safe hn h) with ⟨e, _⟩ | ⟨c, s, e, _, ho⟩
  · rw [hs] at e; cases e
  · rw [hs] at e; cases e
    have := ho rfl
    obtain ⟨i, r, vals, e, hi, hr, _⟩ := ho rfl
    refine ⟨by rw [e]; simp, this.all, ⟨i, by unfold Cursor.id; rw [e]; rfl, hi⟩, ⟨r, by unfold ref; rw [e]; rfl, hr⟩⟩

/-- C19, partial (frames below `10^9 - 1` bytes): reading any atom of an accepted op neither
aborts nor leaves the frame. -/
theorem C19_reads_partial (buf : List Byte) (hn : buf.length < 10 ^ 9 - 1) (cur cur' : Cursor)
    (h : Reach buf cur) (hs : next cur = .ok (cur', .ok)) (i : Nat) (hi : i < cur'.op.length) :
    ∃ v, atomVal cur' i = .ok v := by
  have hb : cur'.buf = buf := (C18_monotone buf cur cur' .ok h hs).2.2
  have hok := (C19_atoms_partial buf hn cur cur' h hs).2.1 (cur'.op[i]) (List.getElem_mem hi)
  exact atomVal_ok hb hok (List.getElem?_eq_getElem hi)

example : ∃ c, next (init (lit "@1+A :0 'a\\n' -12 1.5 >x+y;")) = .ok (c, .ok) ∧
    (c.op.drop 2).map Atom.type = [2, 1, 3, 0] :=
  (of_next (P := fun c => decide ((c.op.drop 2).map Atom.type = [2, 1, 3, 0]))
    (by decide +kernel)).imp fun _ h => ⟨h.1, of_decide_eq_true h.2⟩

/-- C19 is violated by frames of over `2^30` bytes: positions are stored in 30 bits next to
the type of the atom. A string of 40 characters placed there becomes a float at the start
of the frame, and reading it overflows the 32-byte buffer of the conversion. -/
theorem C19_violated : ¬ C19_claim := by
  intro h
  obtain ⟨c, h1, h2⟩ := bigFrame_ub _ rfl
  obtain ⟨_, h3⟩ := h _ _ .init
  obtain ⟨v, hv⟩ := (h3 c h1).2 2 h2.1
  rw [h2.2] at hv
  cases hv

end Ron.Props
