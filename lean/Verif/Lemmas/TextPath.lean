import Verif.Lemmas.Cursor
import Verif.Spec.Split
/-!
The path of the frame automaton over the text consumed.
-/
namespace Ron
open Spec

/-- The state of the frame automaton after a text. -/
def walk : Nat → List Byte → Option Nat
  | s, [] => some s
  | s, c :: rest =>
    match stepIn TextTable.rows s c with
    | none => none
    | some (_, t) => walk t rest

theorem walk_append (s : Nat) (u v : List Byte) :
    walk s (u ++ v) = (walk s u).bind fun t => walk t v := by
  induction u generalizing s with
  | nil => rfl
  | cons c u ih =>
    simp only [List.cons_append, walk]
    cases stepIn TextTable.rows s c with
    | none => rfl
    | some x => exact ih _

/-- No transition leads to the error state or to a state out of the table. -/
theorem step_target {s : Nat} {c : Byte} {as : List Act} {t : Nat}
    (h : stepIn TextTable.rows s c = some (as, t)) : t ≠ 0 ∧ t < 76 := by
  have hP : allRows TextTable.rows 76 (fun _ x => decide (x.2.2.2 ≠ 0 ∧ x.2.2.2 < 76)) = true := by
    decide +kernel
  obtain ⟨lo, hi, _, _, h'⟩ := TextTable.step hP h
  exact of_decide_eq_true h'

/-- After a dot and a line feed there are no transitions. -/
theorem walk_term {s t : Nat} {v : List Byte} (h : walk s (frameTerm ++ v) = some t) : v = [] := by
  have hP : ((List.range 76).all fun s =>
      match walk s frameTerm with
      | none => true
      | some t => (TextTable.rows t).isEmpty) = true := by decide +kernel
  rw [walk_append, Option.bind_eq_some_iff] at h
  obtain ⟨t', h1, h2⟩ := h
  by_cases hs : s < 76
  · have := (List.all_eq_true.1 hP) s (List.mem_range.2 hs)
    rw [h1] at this
    simp only [List.isEmpty_iff] at this
    cases v with
    | nil => rfl
    | cons c v =>
      simp only [walk, stepIn, this, List.find?_nil, Option.map_none] at h2
      cases h2
  · simp only [frameTerm, walk, stepIn, TextTable.rows_out s (by omega), List.find?_nil,
      Option.map_none] at h1
    cases h1

theorem walk_one {s t : Nat} {d : List Byte} (h : walk s d = some t) : OneTerm d := by
  intro u v e
  rw [e, List.append_assoc, walk_append, Option.bind_eq_some_iff] at h
  obtain ⟨_, _, h2⟩ := h
  exact walk_term h2

namespace TextParser

theorem run_walk {buf : List Byte} : ∀ (rest : List Byte) (s : Nat) (r : Regs) (s' : Nat)
    (r' : Regs), run buf rest s r = .ok (s', r') → s' ≠ 0 →
    walk s (rest.take (r'.p - r.p)) = some s' := by
  intro rest
  induction rest with
  | nil =>
    intro s r s' r' h _
    simp only [run, Out.ok.injEq, Prod.mk.injEq] at h
    obtain ⟨rfl, rfl⟩ := h
    simp [walk]
  | cons c rest ih =>
    intro s r s' r' h h0
    simp only [run] at h
    cases hst : stepIn TextTable.rows s c with
    | none =>
      rw [hst] at h
      simp only [Out.ok.injEq, Prod.mk.injEq] at h
      exact absurd h.1.symm h0
    | some x =>
      obtain ⟨as, t⟩ := x
      rw [hst] at h
      simp only at h
      cases he : acts buf c r as with
      | cont r1 =>
        have hp := (acts_fields (.inl he)).p
        rw [he] at h
        simp only at h
        have h1 := (run_progress _ _ _ _ _ h).1
        have := ih _ _ _ _ h h0
        simp only at this h1
        rw [show r'.p - r.p = (r'.p - (r1.p + 1)) + 1 by omega, List.take_succ_cons]
        simp only [walk, hst]
        exact this
      | brk r1 =>
        have hp := (acts_fields (.inr he)).p
        rw [he] at h
        simp only [Out.ok.injEq, Prod.mk.injEq] at h
        obtain ⟨rfl, rfl⟩ := h
        simp only
        rw [show r1.p + 1 - r.p = 0 + 1 by omega, List.take_succ_cons, List.take_zero]
        simp only [walk, hst]
      | abort => rw [he] at h; simp at h
      | ub => rw [he] at h; simp at h

end TextParser

namespace Cursor

/-- A cursor's automaton state is the one its consumed text leads to. -/
def OnPath (buf : List Byte) (cur : Cursor) : Prop :=
  cur.cs ≠ 0 → walk TextTable.start (buf.take cur.beg) = some cur.cs

theorem parseFrom_path {buf : List Byte} {cur cur' : Cursor} {s : Nat} {st : NextStatus}
    (b : Basic buf cur) (hw : walk TextTable.start (buf.take cur.beg) = some s)
    (h : parseFrom cur s = .ok (cur', st)) :
    OnPath buf cur' ∧ (st = .endOfFrame → ∃ t, walk TextTable.start (buf.take cur'.beg) = some t) := by
  unfold parseFrom at h
  split at h
  · simp only [Out.ok.injEq, Prod.mk.injEq] at h
    obtain ⟨rfl, rfl⟩ := h
    exact ⟨fun e => absurd rfl e, fun _ => ⟨_, hw⟩⟩
  · cases hr : TextParser.run cur.buf (cur.buf.drop cur.beg) s (startRegs cur) with
    | ok x =>
      obtain ⟨s', r'⟩ := x
      rw [hr] at h
      simp only [Out.bind] at h
      obtain ⟨_, e2, _, _, _, e6⟩ := finish_cases h
      obtain ⟨p1, p2, _⟩ := TextParser.run_progress _ _ _ _ _ hr
      have hp0 : (startRegs cur).p = cur.beg := rfl
      rw [hp0] at p1 p2
      have key : s' ≠ 0 → walk TextTable.start (buf.take cur'.beg) = some s' := by
        intro h0
        have hw' := TextParser.run_walk _ _ _ _ _ hr h0
        rw [hp0, b.buf] at hw'
        rw [e2, show r'.p = cur.beg + (r'.p - cur.beg) by omega, List.take_add, walk_append, hw]
        exact hw'
      constructor
      · intro h0
        rcases e6 with ⟨_, _, e⟩ | ⟨_, e⟩
        · rw [e]; exact key (by rw [← e]; exact h0)
        · exact absurd e h0
      · intro he
        subst he
        unfold finish at h
        simp only at h
        split at h
        · cases hc : chr2term r'.term with
          | ok t => rw [hc] at h; simp [Out.bind] at h
          | abort => rw [hc] at h; simp [Out.bind] at h
          | ub => rw [hc] at h; simp [Out.bind] at h
        · split at h
          · rename_i hf
            exact ⟨s', key (by intro e; rw [e] at hf; exact absurd hf (by decide))⟩
          · split at h <;> simp at h
    | abort => rw [hr] at h; simp [Out.bind] at h
    | ub => rw [hr] at h; simp [Out.bind] at h

theorem next_path {buf : List Byte} {cur cur' : Cursor} {st : NextStatus}
    (b : Basic buf cur) (hp : OnPath buf cur) (h : next cur = .ok (cur', st)) :
    OnPath buf cur' ∧ (st = .endOfFrame → ∃ t, walk TextTable.start (buf.take cur'.beg) = some t) := by
  by_cases hs : cur.span = 0
  · unfold next at h
    rw [if_neg (by simp [hs])] at h
    split at h
    · split at h
      · rename_i hcs hb
        simp only [Out.ok.injEq, Prod.mk.injEq] at h
        obtain ⟨rfl, rfl⟩ := h
        exact ⟨hp, fun e => by cases e⟩
      · rename_i hb
        have hb : cur.beg = 0 := by omega
        exact parseFrom_path b (by rw [hb]; rfl) h
    · rename_i hcs
      split at h
      · simp only [Out.ok.injEq, Prod.mk.injEq] at h
        obtain ⟨rfl, rfl⟩ := h
        exact ⟨fun e => absurd rfl e, fun _ => ⟨_, hp hcs⟩⟩
      · exact parseFrom_path b (hp hcs) h
  · obtain ⟨h1, h2, h3, h4, _⟩ := next_span hs h
    refine ⟨fun e => ?_, fun e => by rw [h1] at e; cases e⟩
    rw [h3, h4]; exact hp (h4 ▸ e)

theorem reach_path {buf : List Byte} {cur : Cursor} (h : Reach buf cur) :
    Basic buf cur ∧ OnPath buf cur := by
  induction h with
  | init => exact ⟨.init buf, fun e => absurd rfl e⟩
  | next _ hn ih => exact ⟨(next_cases ih.1 hn).1, (next_path ih.1 ih.2 hn).1⟩

theorem accepted_walk {buf : List Byte} (h : Accepted buf) :
    ∃ t, walk TextTable.start buf = some t := by
  obtain ⟨cur, cur', hr, hn, hb⟩ := h
  have hp := reach_path hr
  obtain ⟨t, ht⟩ := (next_path hp.1 hp.2 hn).2 rfl
  rw [hb, List.take_length] at ht
  exact ⟨t, ht⟩

end Cursor
end Ron
