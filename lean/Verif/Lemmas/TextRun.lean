import Verif.Lemmas.TextInv
/-!
The run of the automaton: marks after a transition, the invariant, and its consequences.
-/
namespace Ron
open Spec Act

attribute [local irreducible] Atom.type Atom.rBegin Atom.rEnd Atom.cp Atom.cpSize Atom.setCp
  Atom.setCpSize Atom.consume Atom.ofRange Atom.rawValid Uuid.inc

namespace TextParser

/-- The register changes that matter for the invariant, by action. -/
structure Fields (c : Byte) (r : Regs) (a : Act) (r' : Regs) : Prop where
  p : r'.p = r.p
  wordb : r'.wordb = if a = .begin_value ∨ a = .begin_origin then r.p else r.wordb
  intb : r'.intb = if a = .begin_int then r.p else r.intb
  strb : r'.strb = if a = .begin_string then r.p else r.strb
  lineb : r'.lineb = r.lineb ∨ r'.lineb = r.p
  line : r'.line = if a = .newline ∧ c.toNat = 10 then (r.line + 1) % 2 ^ 32 else r.line
  term : r'.term = if a = .op_term then c.toNat else r.term
  ready : a = .begin_uuid → Ready r'

theorem act_fields {buf : List Byte} {c : Byte} {r r' : Regs} {a : Act}
    (h : act buf c r a = .cont r' ∨ act buf c r a = .brk r') : Fields c r a r' := by
  have aux : ∀ r'', r'' = r' → r''.p = r.p → r''.wordb = r.wordb → r''.intb = r.intb →
      r''.strb = r.strb → r''.lineb = r.lineb → r''.line = r.line → r''.term = r.term →
      a ≠ .begin_value → a ≠ .begin_origin → a ≠ .begin_int → a ≠ .begin_string →
      a ≠ .newline → a ≠ .op_term → a ≠ .begin_uuid → Fields c r a r' := by
    intro r'' e h1 h2 h3 h4 h5 h6 h7 n1 n2 n3 n4 n5 n6 n7
    subst e
    exact ⟨h1, by simp [h2, n1, n2], by simp [h3, n3], by simp [h4, n4], .inl h5,
      by simp [h6, n5], by simp [h7, n6], fun h => absurd h n7⟩
  have spec : ∀ i, setSpec r i = .cont r' ∨ setSpec r i = .brk r' →
      ∃ o, r' = { r with op := o } := by
    intro i hh
    unfold setSpec at hh
    split at hh <;> simp only [Res.cont.injEq, reduceCtorEq, or_false, or_self] at hh
    exact ⟨_, hh.symm⟩
  have push : pushUuid r = .cont r' ∨ pushUuid r = .brk r' → ∃ o, r' = { r with op := o } := by
    intro hh
    unfold pushUuid at hh
    split at hh
    · simp only [Res.brk.injEq, reduceCtorEq, false_or] at hh
      exact ⟨r.op, hh.symm⟩
    · split at hh <;> simp only [Res.cont.injEq, reduceCtorEq, or_false, or_self] at hh
      exact ⟨_, hh.symm⟩
  cases a
  case end_id =>
    obtain ⟨o, e⟩ := spec 0 h
    exact aux _ e.symm rfl rfl rfl rfl rfl rfl rfl (by decide) (by decide) (by decide)
      (by decide) (by decide) (by decide) (by decide)
  case end_ref =>
    obtain ⟨o, e⟩ := spec 1 h
    exact aux _ e.symm rfl rfl rfl rfl rfl rfl rfl (by decide) (by decide) (by decide)
      (by decide) (by decide) (by decide) (by decide)
  case end_quoted_uuid =>
    obtain ⟨o, e⟩ := push h
    exact aux _ e.symm rfl rfl rfl rfl rfl rfl rfl (by decide) (by decide) (by decide)
      (by decide) (by decide) (by decide) (by decide)
  case end_bare_uuid =>
    simp only [act] at h
    split at h
    · obtain ⟨o, e⟩ := push h
      exact aux _ e.symm rfl rfl rfl rfl rfl rfl rfl (by decide) (by decide) (by decide)
        (by decide) (by decide) (by decide) (by decide)
    · simp only [Res.cont.injEq, reduceCtorEq, or_false] at h
      exact aux _ h rfl rfl rfl rfl rfl rfl rfl (by decide) (by decide) (by decide)
        (by decide) (by decide) (by decide) (by decide)
  case op_term =>
    simp only [act] at h
    have e : r' = { r with term := c.toNat } := by
      split at h
      · simp only [Res.brk.injEq, reduceCtorEq, false_or] at h; exact h.symm
      · simp only [Res.cont.injEq, reduceCtorEq, or_false] at h; exact h.symm
    subst e
    exact ⟨rfl, by simp, by simp, by simp, .inl rfl, by simp, by simp, by simp⟩
  case newline =>
    simp only [act] at h
    split at h
    · rename_i h10
      simp only [Res.cont.injEq, reduceCtorEq, or_false] at h
      subst h
      exact ⟨rfl, by simp, by simp, by simp, .inr rfl, by simp [h10], by simp, by simp⟩
    · rename_i h10
      simp only [Res.cont.injEq, reduceCtorEq, or_false] at h
      subst h
      exact ⟨rfl, by simp, by simp, by simp, .inl rfl, by simp [h10], by simp, by simp⟩
  case begin_uuid =>
    simp only [act, Res.cont.injEq, reduceCtorEq, or_false] at h
    subst h
    exact ⟨rfl, by simp, by simp, by simp, .inl rfl, by simp, by simp,
      fun _ => ⟨show isB64 (ch '0') = true by decide, show isSep (ch '$') = true by decide⟩⟩
  case end_spread =>
    have e : ∃ o x, r' = { r with op := o, span := x } := by
      simp only [act] at h
      split at h
      · simp at h
      · split at h
        · split at h <;> simp only [Res.cont.injEq, reduceCtorEq, or_false, or_self] at h
          exact ⟨_, _, h.symm⟩
        · simp only [Res.cont.injEq, reduceCtorEq, or_false] at h
          exact ⟨_, _, h.symm⟩
    obtain ⟨o, x, e⟩ := e
    exact aux _ e.symm rfl rfl rfl rfl rfl rfl rfl (by decide) (by decide) (by decide)
      (by decide) (by decide) (by decide) (by decide)
  case span_size_digit =>
    have e : ∃ x, r' = { r with span := x } := by
      simp only [act, Res.cont.injEq, reduceCtorEq, or_false] at h
      exact ⟨_, h.symm⟩
    obtain ⟨x, e⟩ := e
    exact aux _ e.symm rfl rfl rfl rfl rfl rfl rfl (by decide) (by decide) (by decide)
      (by decide) (by decide) (by decide) (by decide)
  case end_span_size =>
    have e : ∃ x, r' = { r with span := x } := by
      simp only [act, Res.cont.injEq, reduceCtorEq, or_false] at h
      exact ⟨_, h.symm⟩
    obtain ⟨x, e⟩ := e
    exact aux _ e.symm rfl rfl rfl rfl rfl rfl rfl (by decide) (by decide) (by decide)
      (by decide) (by decide) (by decide) (by decide)
  case end_cp =>
    have e : ∃ x, r' = { r with cpSize := x } := by
      simp only [act, Res.cont.injEq, reduceCtorEq, or_false] at h
      exact ⟨_, h.symm⟩
    obtain ⟨x, e⟩ := e
    exact aux _ e.symm rfl rfl rfl rfl rfl rfl rfl (by decide) (by decide) (by decide)
      (by decide) (by decide) (by decide) (by decide)
  case variety =>
    have e : ∃ x, r' = { r with variety := x } := by
      simp only [act] at h
      split at h
      · simp at h
      · split at h <;> simp only [Res.cont.injEq, reduceCtorEq, or_false, or_self] at h
        exact ⟨_, h.symm⟩
    obtain ⟨x, e⟩ := e
    exact aux _ e.symm rfl rfl rfl rfl rfl rfl rfl (by decide) (by decide) (by decide)
      (by decide) (by decide) (by decide) (by decide)
  case end_int =>
    have e : ∃ o u, r' = { r with op := o, uuidSet := u } := by
      simp only [act] at h
      split at h
      · simp at h
      · split at h <;> simp only [Res.cont.injEq, Res.brk.injEq, reduceCtorEq, or_false,
          false_or] at h
        · exact ⟨r.op, r.uuidSet, h.symm⟩
        · exact ⟨_, _, h.symm⟩
    obtain ⟨o, u, e⟩ := e
    exact aux _ e.symm rfl rfl rfl rfl rfl rfl rfl (by decide) (by decide) (by decide)
      (by decide) (by decide) (by decide) (by decide)
  case end_float =>
    have e : ∃ o, r' = { r with op := o } := by
      simp only [act] at h
      split at h
      · simp at h
      · split at h <;> simp only [Res.cont.injEq, Res.brk.injEq, reduceCtorEq, or_false,
          false_or] at h
        · exact ⟨r.op, h.symm⟩
        · exact ⟨_, h.symm⟩
    obtain ⟨o, e⟩ := e
    exact aux _ e.symm rfl rfl rfl rfl rfl rfl rfl (by decide) (by decide) (by decide)
      (by decide) (by decide) (by decide) (by decide)
  case end_string =>
    have e : ∃ o, r' = { r with op := o } := by
      simp only [act] at h
      split at h
      · simp at h
      · simp only [Res.cont.injEq, reduceCtorEq, or_false] at h
        exact ⟨_, h.symm⟩
    obtain ⟨o, e⟩ := e
    exact aux _ e.symm rfl rfl rfl rfl rfl rfl rfl (by decide) (by decide) (by decide)
      (by decide) (by decide) (by decide) (by decide)
  case string_uesc =>
    simp only [act] at h
    split at h
    · simp at h
    · simp only [Res.cont.injEq, reduceCtorEq, or_false] at h
      exact aux _ h rfl rfl rfl rfl rfl rfl rfl (by decide) (by decide) (by decide)
        (by decide) (by decide) (by decide) (by decide)
  case end_value =>
    have e : ∃ x, r' = { r with value := x } := by
      simp only [act] at h
      split at h
      · simp at h
      · simp only [Res.cont.injEq, reduceCtorEq, or_false] at h
        exact ⟨_, h.symm⟩
    obtain ⟨x, e⟩ := e
    exact aux _ e.symm rfl rfl rfl rfl rfl rfl rfl (by decide) (by decide) (by decide)
      (by decide) (by decide) (by decide) (by decide)
  case end_origin =>
    have e : ∃ x, r' = { r with origin := x } := by
      simp only [act] at h
      split at h
      · simp at h
      · simp only [Res.cont.injEq, reduceCtorEq, or_false] at h
        exact ⟨_, h.symm⟩
    obtain ⟨x, e⟩ := e
    exact aux _ e.symm rfl rfl rfl rfl rfl rfl rfl (by decide) (by decide) (by decide)
      (by decide) (by decide) (by decide) (by decide)
  all_goals
    simp only [act, Res.cont.injEq, reduceCtorEq, or_false, or_self] at h <;>
    (subst h; exact ⟨rfl, by simp, by simp, by simp, .inl rfl, by simp, by simp, by simp⟩)

/-- The same for a list of actions. -/
structure FieldsL (c : Byte) (r : Regs) (as : List Act) (r' : Regs) : Prop where
  p : r'.p = r.p
  lineb : r'.lineb = r.lineb ∨ r'.lineb = r.p
  term : Act.op_term ∉ as → r'.term = r.term

theorem acts_fields {buf : List Byte} {c : Byte} : ∀ {as : List Act} {r r' : Regs},
    acts buf c r as = .cont r' ∨ acts buf c r as = .brk r' → FieldsL c r as r' := by
  intro as
  induction as with
  | nil =>
    intro r r' h
    simp only [acts, Res.cont.injEq, reduceCtorEq, or_false] at h
    subst h; exact ⟨rfl, .inl rfl, fun _ => rfl⟩
  | cons a as ih =>
    intro r r' h
    simp only [acts] at h
    cases he : act buf c r a with
    | cont r1 =>
      rw [he] at h
      have f1 := act_fields (.inl he)
      have f2 := ih h
      refine ⟨f2.p.trans f1.p, ?_, fun hn => ?_⟩
      · rcases f2.lineb with e | e
        · rcases f1.lineb with e' | e'
          · left; omega
          · right; omega
        · right; have := f1.p; omega
      · simp only [List.mem_cons, not_or] at hn
        rw [f2.term hn.2, f1.term, if_neg (fun e => hn.1 e.symm)]
    | brk r1 =>
      rw [he] at h
      simp only [Res.brk.injEq, reduceCtorEq, false_or] at h
      subst h
      have f1 := act_fields (.inr he)
      refine ⟨f1.p, f1.lineb, fun hn => ?_⟩
      simp only [List.mem_cons, not_or] at hn
      rw [f1.term, if_neg (fun e => hn.1 e.symm)]
    | abort => rw [he] at h; simp at h
    | ub => rw [he] at h; simp at h

/-- After a whole action list has run: the marks that were set, and what the last
action left. -/
structure MarksL (r : Regs) (as : List Act) (r' : Regs) : Prop where
  wordb : r'.wordb = if Act.begin_value ∈ as ∨ Act.begin_origin ∈ as then r.p else r.wordb
  intb : r'.intb = if Act.begin_int ∈ as then r.p else r.intb
  strb : r'.strb = if Act.begin_string ∈ as then r.p else r.strb

theorem acts_marks {buf : List Byte} {c : Byte} : ∀ {as : List Act} {r r' : Regs},
    acts buf c r as = .cont r' → MarksL r as r' := by
  intro as
  induction as with
  | nil =>
    intro r r' h
    simp only [acts, Res.cont.injEq] at h
    subst h; exact ⟨by simp, by simp, by simp⟩
  | cons a as ih =>
    intro r r' h
    simp only [acts] at h
    cases he : act buf c r a with
    | cont r1 =>
      rw [he] at h
      have f1 := act_fields (.inl he)
      have f2 := ih h
      have hp := f1.p
      have e1 := f1.wordb; have e2 := f1.intb; have e3 := f1.strb
      refine ⟨?_, ?_, ?_⟩
      · rw [f2.wordb, hp, e1]
        simp only [List.mem_cons, @eq_comm _ Act.begin_value a, @eq_comm _ Act.begin_origin a]
        by_cases h1 : a = .begin_value <;> by_cases h2 : a = .begin_origin <;>
          by_cases h3 : Act.begin_value ∈ as <;> by_cases h4 : Act.begin_origin ∈ as <;>
          simp [h1, h2, h3, h4]
      · rw [f2.intb, hp, e2]
        simp only [List.mem_cons, @eq_comm _ Act.begin_int a]
        by_cases h1 : a = .begin_int <;> by_cases h3 : Act.begin_int ∈ as <;> simp [h1, h3]
      · rw [f2.strb, hp, e3]
        simp only [List.mem_cons, @eq_comm _ Act.begin_string a]
        by_cases h1 : a = .begin_string <;> by_cases h3 : Act.begin_string ∈ as <;> simp [h1, h3]
    | brk r1 => rw [he] at h; simp at h
    | abort => rw [he] at h; simp at h
    | ub => rw [he] at h; simp at h

/-- Lines counted by an action list that has at most one `newline`. -/
theorem acts_line {buf : List Byte} {c : Byte} : ∀ {as : List Act} {r r' : Regs},
    acts buf c r as = .cont r' ∨ acts buf c r as = .brk r' →
    Act.newline ∉ as → r'.line = r.line := by
  intro as
  induction as with
  | nil =>
    intro r r' h _
    simp only [acts, Res.cont.injEq, reduceCtorEq, or_false] at h
    rw [h]
  | cons a as ih =>
    intro r r' h hn
    simp only [acts] at h
    simp only [List.mem_cons, not_or] at hn
    cases he : act buf c r a with
    | cont r1 =>
      rw [he] at h
      have f1 := act_fields (.inl he)
      rw [ih h hn.2, f1.line, if_neg (fun e => hn.1 e.1.symm)]
    | brk r1 =>
      rw [he] at h
      simp only [Res.brk.injEq, reduceCtorEq, false_or] at h
      subst h
      have f1 := act_fields (.inr he)
      rw [f1.line, if_neg (fun e => hn.1 e.1.symm)]
    | abort => rw [he] at h; simp at h
    | ub => rw [he] at h; simp at h

theorem acts_append {buf : List Byte} {c : Byte} : ∀ {as bs : List Act} {r : Regs},
    acts buf c r (as ++ bs) = match acts buf c r as with
      | .cont r' => acts buf c r' bs
      | .brk r' => .brk r'
      | .abort => .abort
      | .ub => .ub := by
  intro as
  induction as with
  | nil => intro bs r; rfl
  | cons a as ih =>
    intro bs r
    simp only [List.cons_append, acts]
    cases act buf c r a with
    | cont r1 => exact ih
    | brk r1 => rfl
    | abort => rfl
    | ub => rfl

theorem acts_line_le {buf : List Byte} {c : Byte} {as : List Act} {r r' : Regs}
    (h : acts buf c r as = .cont r' ∨ acts buf c r as = .brk r')
    (hl : Act.newline ∈ as → ∃ as', as = as' ++ [Act.newline] ∧ Act.newline ∉ as') :
    r'.line ≤ r.line + 1 := by
  by_cases hm : Act.newline ∈ as
  · obtain ⟨as', rfl, hn⟩ := hl hm
    rw [acts_append] at h
    cases he : acts buf c r as' with
    | cont r1 =>
      have e1 := acts_line (.inl he) hn
      rw [he] at h
      simp only [acts] at h
      cases he2 : act buf c r1 .newline with
      | cont r2 =>
        rw [he2] at h
        simp only [Res.cont.injEq, reduceCtorEq, or_false] at h
        subst h
        rw [(act_fields (.inl he2)).line]
        split
        · rw [e1]; exact Nat.mod_le _ _
        · omega
      | brk r2 =>
        rw [he2] at h
        simp only [Res.brk.injEq, reduceCtorEq, false_or] at h
        subst h
        rw [(act_fields (.inr he2)).line]
        split
        · rw [e1]; exact Nat.mod_le _ _
        · omega
      | abort => rw [he2] at h; simp at h
      | ub => rw [he2] at h; simp at h
    | brk r1 =>
      rw [he] at h
      simp only [Res.brk.injEq, reduceCtorEq, false_or] at h
      subst h
      rw [acts_line (.inr he) hn]; omega
    | abort => rw [he] at h; simp at h
    | ub => rw [he] at h; simp at h
  · rw [acts_line h hm]; omega

/-- UUID registers are set once `begin_uuid` has run. -/
theorem acts_ready {buf : List Byte} {c : Byte} : ∀ {as : List Act} {r r' : Regs},
    acts buf c r as = .cont r' → Act.begin_uuid ∈ as →
    (∀ a ∈ as, ∀ r r', Ready r → act buf c r a = .cont r' → Ready r') → Ready r' := by
  intro as
  induction as with
  | nil => intro r r' _ h; simp at h
  | cons a as ih =>
    intro r r' h hm hk
    simp only [acts] at h
    cases he : act buf c r a with
    | cont r1 =>
      rw [he] at h
      by_cases ha : a = .begin_uuid
      · have h1 := (act_fields (.inl he)).ready ha
        have keep : ∀ (bs : List Act) (r2 r3 : Regs), (∀ b ∈ bs, b ∈ a :: as) → Ready r2 →
            acts buf c r2 bs = .cont r3 → Ready r3 := by
          intro bs
          induction bs with
          | nil => intro r2 r3 _ h2 h3; simp only [acts, Res.cont.injEq] at h3; exact h3 ▸ h2
          | cons b bs ihb =>
            intro r2 r3 hb h2 h3
            simp only [acts] at h3
            cases hb' : act buf c r2 b with
            | cont r4 =>
              rw [hb'] at h3
              exact ihb r4 r3 (fun x hx => hb x (by simp [hx]))
                (hk b (hb b (by simp)) r2 r4 h2 hb') h3
            | brk r4 => rw [hb'] at h3; simp at h3
            | abort => rw [hb'] at h3; simp at h3
            | ub => rw [hb'] at h3; simp at h3
        exact keep as r1 r' (fun x hx => by simp [hx]) h1 h
      · simp only [List.mem_cons] at hm
        rcases hm with hm | hm
        · exact absurd hm.symm ha
        · exact ih h hm (fun b hb => hk b (by simp [hb]))
    | brk r1 => rw [he] at h; simp at h
    | abort => rw [he] at h; simp at h
    | ub => rw [he] at h; simp at h

/-- A list that ends with `end_string` leaves a string on top. -/
theorem acts_last {buf : List Byte} {c : Byte} {as : List Act} {r r' : Regs}
    (hn : buf.length < 2 ^ 30) (hp : r.p ≤ buf.length)
    (h : acts buf c r (as ++ [.end_string]) = .cont r') : LastStr r' := by
  rw [acts_append] at h
  cases he : acts buf c r as with
  | cont r1 =>
    have hp1 := (acts_fields (.inl he)).p
    rw [he] at h
    simp only [acts, act] at h
    split at h
    · rename_i hx
      split at hx
      · simp at hx
      · rename_i hlt
        simp only [Res.cont.injEq] at hx h
        subst h; subst hx
        refine ⟨_, List.getLast?_concat, ?_⟩
        rw [Atom.type_setCpSize, Atom.type_ofRange _ _ _ (by decide) (by omega) (by omega)]
    · simp at h
    · simp at h
    · simp at h
  | brk r1 => rw [he] at h; simp at h
  | abort => rw [he] at h; simp at h
  | ub => rw [he] at h; simp at h

/-- The invariant of the automaton in state `s`: `beg` and `line0` are the place and line at
the start of the current `Next`. -/
structure Inv (buf : List Byte) (beg line0 : Nat) (s : Nat) (r : Regs) : Prop where
  start : beg + pmin s ≤ r.p
  stop : r.p ≤ buf.length
  op : OpOk buf r.op
  val : WordOf buf r.value
  org : WordOf buf r.origin
  lineb : r.lineb ≤ r.p
  line : r.line ≤ line0 + (r.p - beg)
  floatb : r.floatb ≤ r.p
  var : varS s = true → ∃ v, buf[r.p - 1]? = some v ∧ isHex v = true
  word : wordS s = true → r.wordb ≤ r.p ∧ (∀ x ∈ slice buf r.wordb r.p, isB64 x = true) ∧
    Plain buf r.wordb r.p
  uuid : uS s = true → Ready r
  sign : signS s = true → r.intb ≤ r.p ∧ (∃ x, isSign x = true ∧ slice buf r.intb r.p = [x]) ∧
    Plain buf r.intb r.p
  int : intS s = true → r.intb ≤ r.p ∧ (∃ v, IntText (slice buf r.intb r.p) v) ∧ Plain buf r.intb r.p
  quote : openS s = true → buf[r.p - 1]? = some (ch '\'')
  str : strS s = true → 1 ≤ r.strb ∧ r.strb ≤ r.p ∧ buf[r.strb - 1]? = some (ch '\'') ∧
    scanSt (slice buf r.strb r.p) = some false
  esc : escS s = true → 1 ≤ r.strb ∧ r.strb ≤ r.p ∧ buf[r.strb - 1]? = some (ch '\'') ∧
    scanSt (slice buf r.strb r.p) = some true
  spread : s = 8 → LastStr r
  term : r.term = 0 ∨ (s = 74 ∧ (r.p = buf.length ∧ beg < r.p) ∧
    (r.term = 33 ∨ r.term = 44 ∨ r.term = 59 ∨ r.term = 63))
  quo : quoteOf (buf.take r.p) = qS s

/-- What is left when the automaton stops. -/
structure Fin (buf : List Byte) (beg line0 : Nat) (s : Nat) (r : Regs) : Prop where
  start : beg ≤ r.p
  stop : r.p ≤ buf.length
  op : OpOk buf r.op
  lineb : r.lineb ≤ r.p
  line : r.line ≤ line0 + (r.p - beg)
  tgt : s ≤ 75
  term : r.term = 0 ∨ (s = 74 ∧ beg < r.p ∧
    (r.term = 33 ∨ r.term = 44 ∨ r.term = 59 ∨ r.term = 63))
  quo : s ≠ 0 → quoteOf (buf.take r.p) = qS s

theorem state8 : uS 8 = false ∧ intS 8 = false := by decide

theorem strS_not : ∀ s, strS s = true → openS s = false := by
  intro s h
  simp only [strS, List.contains_iff_mem, List.mem_cons, List.not_mem_nil, or_false] at h
  rcases h with h | h | h | h | h | h | h | h | h | h | h | h | h | h | h | h | h | h <;>
    (subst h; decide)

theorem pmin_pos {s : Nat} (h : s ≠ 74) : 1 ≤ pmin s := by
  unfold pmin; split
  · omega
  · split
    · omega
    · split
      · omega
      · omega

theorem varS_pos {s : Nat} (h : varS s = true) : 1 ≤ pmin s := pmin_pos fun e => by
  subst e; exact absurd h (by decide)
theorem openS_pos {s : Nat} (h : openS s = true) : 1 ≤ pmin s := pmin_pos fun e => by
  subst e; exact absurd h (by decide)

/-- The precondition of the actions follows from the invariant. Opening a string is peeled
off first. -/
theorem Inv.pre {buf : List Byte} {beg line0 s : Nat} {r : Regs} (i : Inv buf beg line0 s r)
    (hn : buf.length < 2 ^ 30) {c : Byte} (hc : buf[r.p]? = some c) {as : List Act} {t : Nat}
    (row : Row s c as t) (hb : Act.begin_string ∉ as) : Pre buf c as r := by
  have hop : openS s = false := by
    cases h : openS s with
    | false => rfl
    | true => exact absurd (row.openB h) hb
  refine ⟨hc, hn, fun h => ?_, row.ver, fun h => ?_, fun h => i.uuid (row.uE h), fun h => ?_,
    fun h => ?_, fun h => ?_, fun h => ?_, row.other⟩
  · exact ⟨by have := varS_pos (row.var h); have := i.start; omega, i.var (row.var h)⟩
  · obtain ⟨h1, h2, h3⟩ := row.wordE h
    exact ⟨h2, h3, i.word h1⟩
  · obtain ⟨h1, h2⟩ := row.intE h
    exact ⟨h2, i.int h1⟩
  · have := row.uesc h; have := i.start; omega
  · obtain ⟨h1, h2⟩ := row.strE h
    rcases h2 with h2 | h2
    · rw [hop] at h2; exact absurd h2 (by decide)
    · have he : c = ch '\'' := UInt8.toNat_inj.1 (by rw [h1]; rfl)
      obtain ⟨a, b, d, e⟩ := i.str h2
      exact ⟨hb, he, a, b, d, e⟩
  · obtain ⟨h1, h2, h3⟩ := row.spread h
    subst h1
    have hu := row.uE
    rw [state8.1] at hu
    have hi := row.intE
    rw [state8.2] at hi
    refine ⟨h2, h3, fun h => absurd (hi h).1 (by decide), ?_, ?_, ?_, ?_⟩ <;> intro h <;>
      exact absurd (hu (by simp [h])) (by decide)

theorem Inv.mid {buf : List Byte} {beg line0 s : Nat} {r : Regs} (i : Inv buf beg line0 s r)
    {c : Byte} {as : List Act} {t : Nat} (row : Row s c as t) : Mid buf r as r :=
  ⟨rfl, i.op, i.val, i.org, id, fun _ _ => rfl, fun _ => rfl, fun _ => rfl, i.floatb,
    fun h => i.spread (row.spread h).1⟩

theorem pre_open {buf : List Byte} {beg line0 s : Nat} {r : Regs} (i : Inv buf beg line0 s r)
    (hn : buf.length < 2 ^ 30) {c : Byte} (hc : buf[r.p]? = some c) {as : List Act} {t : Nat}
    (row : Row s c (.begin_string :: as) t) (hb : Act.begin_string ∉ as) :
    Pre buf c as { r with strb := r.p, cpSize := 0 } ∧
      Mid buf { r with strb := r.p, cpSize := 0 } as { r with strb := r.p, cpSize := 0 } := by
  have hop := (row.strB (by simp)).1
  have hpos := openS_pos hop
  have hst := i.start
  refine ⟨⟨hc, hn, fun h => ?_, fun h => row.ver (by simp [h]), fun h => ?_, fun h => ?_,
    fun h => ?_, fun h => ?_, fun h => ?_, fun h => ?_, ?_⟩, ?_⟩
  · have hv := row.var (by simp [h])
    exact ⟨by simp only; omega, i.var hv⟩
  · obtain ⟨h1, h2, h3⟩ := row.wordE (by simpa using h)
    simp only [List.mem_cons, not_or] at h2 h3
    exact ⟨h2.2, h3.2, i.word h1⟩
  · exact i.uuid (row.uE (by simpa using h))
  · obtain ⟨h1, h2⟩ := row.intE (by simp [h])
    simp only [List.mem_cons, not_or] at h2
    exact ⟨h2.2, i.int h1⟩
  · have := row.uesc (by simp [h]); simp only; omega
  · obtain ⟨h1, h2⟩ := row.strE (by simp [h])
    have he : c = ch '\'' := UInt8.toNat_inj.1 (by rw [h1]; rfl)
    refine ⟨hb, he, by simp only; omega, Nat.le_refl _, i.quote hop, ?_⟩
    simp only [slice_self]; rfl
  · obtain ⟨h1, h2, h3⟩ := row.spread (by simp [h])
    subst h1
    exact absurd hop (by decide)
  · have := row.other; simp only [List.mem_cons, not_or] at this; exact ⟨this.1.2, this.2.2⟩
  · exact ⟨rfl, i.op, i.val, i.org, id, fun _ _ => rfl, fun _ => rfl, fun _ => rfl, i.floatb,
      fun h => by
        obtain ⟨h1, _⟩ := row.spread (by simp [h])
        subst h1; exact absurd hop (by decide)⟩

/-- What the registers satisfy after the actions of a transition. -/
structure Post (buf : List Byte) (r r' : Regs) : Prop where
  op : OpOk buf r'.op
  val : WordOf buf r'.value
  org : WordOf buf r'.origin
  ready : Ready r → Ready r'
  floatb : r'.floatb ≤ r.p

theorem Inv.post {buf : List Byte} {beg line0 s : Nat} {r : Regs} (i : Inv buf beg line0 s r)
    (hn : buf.length < 2 ^ 30) {c : Byte} (hc : buf[r.p]? = some c) {as : List Act} {t : Nat}
    (row : Row s c as t) : ResP (LongWord buf) (Post buf r) (acts buf c r as) := by
  have conv : ∀ {as' r0 x}, Ready r = Ready r0 → r0.p = r.p → ResP (LongWord buf) (Mid buf r0 as') x →
      ResP (LongWord buf) (Post buf r) x := by
    intro as' r0 x h1 h2 hx
    cases x with
    | cont r' => exact ⟨hx.op, hx.val, hx.org, fun h => hx.ready (h1 ▸ h), h2 ▸ hx.floatb⟩
    | brk r' => exact ⟨hx.op, hx.val, hx.org, fun h => hx.ready (h1 ▸ h), h2 ▸ hx.floatb⟩
    | abort => exact hx
    | ub => exact hx
  by_cases hb : Act.begin_string ∈ as
  · obtain ⟨_, as', rfl, hb'⟩ := row.strB hb
    obtain ⟨hpre, hmid⟩ := pre_open i hn hc row hb'
    have := acts_ind (P := Mid buf { r with strb := r.p, cpSize := 0 } as') (buf := buf) (c := c)
      as' _ (fun a ha r => act_mid hpre a ha r) hmid
    simp only [acts, act]
    exact conv (r0 := { r with strb := r.p, cpSize := 0 }) rfl rfl this
  · exact conv rfl rfl (acts_ind (P := Mid buf r as) as r
      (fun a ha r => act_mid (i.pre hn hc row hb) a ha r) (i.mid row))

theorem getElem?_pred {buf : List Byte} {p : Nat} {c : Byte} (h : buf[p]? = some c) :
    buf[p + 1 - 1]? = some c := by simpa using h

/-- A transition keeps the invariant. -/
theorem Inv.step {buf : List Byte} {beg line0 s : Nat} {r : Regs} (i : Inv buf beg line0 s r)
    (hn : buf.length < 2 ^ 30) (ht0 : r.term = 0) {c : Byte} (hc : buf[r.p]? = some c)
    {as : List Act} {t : Nat} (row : Row s c as t) {r' : Regs} (h : acts buf c r as = .cont r')
    (hlast : Act.op_term ∈ as → r.p + 1 = buf.length) :
    Inv buf beg line0 t { r' with p := r'.p + 1 } := by
  have post := i.post hn hc row
  rw [h] at post
  have f := acts_fields (.inl h)
  have mk := acts_marks h
  have hlt := lt_of_get hc
  have hp := f.p
  have hst := i.start
  have hmin := row.min
  refine ⟨?_, ?_, post.op, post.val, post.org, ?_, ?_, ?_, ?_, ?_, ?_, ?_, ?_, ?_, ?_, ?_, ?_, ?_, ?_⟩
  · simp only; omega
  · simp only; omega
  · have := i.lineb
    rcases f.lineb with e | e <;> simp only <;> omega
  · have h1 := acts_line_le (.inl h) row.line
    have h2 := i.line
    simp only; omega
  · have := post.floatb; simp only; omega
  · intro hs
    exact ⟨c, by simp only [hp]; exact getElem?_pred hc, row.varT hs⟩
  · intro hs
    obtain ⟨hc64, hor⟩ := row.wordT hs
    simp only [hp, mk.wordb]
    split
    · refine ⟨by omega, ?_, Plain.empty.snoc (Nat.le_refl _) hc (i.quo.trans (row.quo.out (.inl hs)))⟩
      rw [slice_snoc (Nat.le_refl _) hc, slice_self]
      simpa using hc64
    · rename_i hno
      have hws := hor.resolve_left hno
      obtain ⟨h1, h2, h3⟩ := i.word hws
      refine ⟨by omega, ?_, h3.snoc h1 hc (i.quo.trans (row.quo.out (.inl hs)))⟩
      rw [slice_snoc h1 hc]
      intro x hx
      rw [List.mem_append, List.mem_singleton] at hx
      rcases hx with hx | rfl
      · exact h2 x hx
      · exact hc64
  · intro hs
    rcases row.uT hs with hb | hu
    · have hall := row.ubegin hb
      show Ready r'
      exact acts_ready (buf := buf) (c := c) h hb (fun a ha r1 r2 hr1 he => by
        have := hall a ha
        simp only [List.mem_cons, List.not_mem_nil, or_false] at this
        rcases this with rfl | rfl | rfl | rfl
        · simp only [act, Res.cont.injEq] at he; subst he; exact hr1
        · simp only [act, Res.cont.injEq] at he; subst he; exact hr1
        · exact (act_fields (.inl he)).ready rfl
        · simp only [act, Res.cont.injEq] at he; subst he; exact hr1)
    · exact post.ready (i.uuid hu)
  · intro hs
    obtain ⟨h1, h2⟩ := row.signT hs
    simp only [hp, mk.intb, if_pos h2]
    refine ⟨by omega, ⟨c, h1, ?_⟩,
      Plain.empty.snoc (Nat.le_refl _) hc (i.quo.trans (row.quo.out (.inr (.inr hs))))⟩
    rw [slice_snoc (Nat.le_refl _) hc, slice_self]; rfl
  · intro hs
    obtain ⟨h1, h2⟩ := row.intT hs
    have hq := i.quo.trans (row.quo.out (.inr (.inl hs)))
    simp only [hp, mk.intb]
    split
    · refine ⟨by omega, ?_, Plain.empty.snoc (Nat.le_refl _) hc hq⟩
      rw [slice_snoc (Nat.le_refl _) hc, slice_self]
      exact IntText.single h1
    · rename_i hno
      rcases h2.resolve_left hno with h3 | h3
      · obtain ⟨a, ⟨x, hx, e⟩, b⟩ := i.sign h3
        refine ⟨by omega, ?_, b.snoc a hc hq⟩
        rw [slice_snoc a hc, e]
        exact IntText.signed hx h1
      · obtain ⟨a, ⟨v, hv⟩, b⟩ := i.int h3
        refine ⟨by omega, ?_, b.snoc a hc hq⟩
        rw [slice_snoc a hc]
        exact IntText.snoc hv h1
  · intro hs
    simp only [hp]
    rw [getElem?_pred hc, UInt8.toNat_inj.1 (show c.toNat = (ch '\'').toNat from row.openT hs)]
  · intro hs
    simp only [hp, mk.strb]
    rcases row.strT hs with ⟨h1, h2⟩ | ⟨h1, h2⟩
    · rcases h1 with h1 | h1
      · rw [if_pos (row.openB h1)]
        have := openS_pos h1
        refine ⟨by omega, by omega, i.quote h1, ?_⟩
        rw [slice_snoc (Nat.le_refl _) hc, slice_self]
        exact h2
      · rw [if_neg (fun hb => by
          have := (row.strB hb).1; rw [strS_not s h1] at this; exact absurd this (by decide))]
        obtain ⟨a, b, d, e⟩ := i.str h1
        refine ⟨a, by omega, d, ?_⟩
        rw [slice_snoc b hc, scanSt_snoc, e]; exact h2
    · have hno : openS s = false := by
        simp only [escS, List.contains_iff_mem, List.mem_cons, List.not_mem_nil, or_false] at h1
        rcases h1 with h1 | h1 <;> (subst h1; decide)
      rw [if_neg (fun hb => by
        have := (row.strB hb).1; rw [hno] at this; exact absurd this (by decide))]
      obtain ⟨a, b, d, e⟩ := i.esc h1
      refine ⟨a, by omega, d, ?_⟩
      rw [slice_snoc b hc, scanSt_snoc, e]; exact h2
  · intro hs
    simp only [hp, mk.strb]
    obtain ⟨h92, h1⟩ := row.escT hs
    have h2 : scanStep (some false) c = some true := by simp [scanStep, h92]
    rcases h1 with h1 | h1
    · rw [if_pos (row.openB h1)]
      have := openS_pos h1
      refine ⟨by omega, by omega, i.quote h1, ?_⟩
      rw [slice_snoc (Nat.le_refl _) hc, slice_self]
      exact h2
    · rw [if_neg (fun hb => by
        have := (row.strB hb).1; rw [strS_not s h1] at this; exact absurd this (by decide))]
      obtain ⟨a, b, d, e⟩ := i.str h1
      refine ⟨a, by omega, d, ?_⟩
      rw [slice_snoc b hc, scanSt_snoc, e]; exact h2
  · intro hs
    obtain ⟨as', rfl⟩ := row.spreadT hs
    show LastStr r'
    exact acts_last (r := r) hn (by omega) h
  · by_cases hot : Act.op_term ∈ as
    · right
      obtain ⟨hch, ht, as', rfl, hno⟩ := row.term hot
      refine ⟨ht, ⟨by simp only; have := hlast hot; omega, by simp only; omega⟩, ?_⟩
      have : r'.term = c.toNat := by
        rw [acts_append] at h
        cases he : acts buf c r as' with
        | cont r1 =>
          rw [he] at h
          simp only [acts] at h
          cases he2 : act buf c r1 .op_term with
          | cont r2 =>
            rw [he2] at h; simp only [Res.cont.injEq] at h
            subst h; rw [(act_fields (.inl he2)).term]; rfl
          | brk r2 => rw [he2] at h; simp at h
          | abort => rw [he2] at h; simp at h
          | ub => rw [he2] at h; simp at h
        | brk r1 => rw [he] at h; simp at h
        | abort => rw [he] at h; simp at h
        | ub => rw [he] at h; simp at h
      simp only [this]; exact hch
    · left; simp only [f.term hot]; exact ht0
  · simp only [hp]; rw [quoteOf_succ hc, i.quo]; exact row.quo.step

/-- A break leaves sound registers. -/
theorem Inv.brk {buf : List Byte} {beg line0 s : Nat} {r : Regs} (i : Inv buf beg line0 s r)
    (hn : buf.length < 2 ^ 30) (ht0 : r.term = 0) {c : Byte} (hc : buf[r.p]? = some c)
    {as : List Act} {t : Nat} (row : Row s c as t) {r' : Regs} (h : acts buf c r as = .brk r') :
    Fin buf beg line0 t { r' with p := r'.p + 1 } := by
  have post := i.post hn hc row
  rw [h] at post
  have f := acts_fields (.inr h)
  have hlt := lt_of_get hc
  have hp := f.p
  have hst := i.start
  refine ⟨by simp only; omega, by simp only; omega, post.op, ?_, ?_, row.tgt.2, ?_,
    fun _ => by simp only [hp]; rw [quoteOf_succ hc, i.quo]; exact row.quo.step⟩
  · have := i.lineb
    rcases f.lineb with e | e <;> simp only <;> omega
  · have h1 := acts_line_le (.inr h) row.line
    have h2 := i.line
    simp only; omega
  · by_cases hot : Act.op_term ∈ as
    · obtain ⟨hch, ht, as', rfl, hno⟩ := row.term hot
      rw [acts_append] at h
      cases he : acts buf c r as' with
      | cont r1 =>
        have ft := (acts_fields (.inl he)).term hno
        rw [he] at h
        simp only [acts] at h
        cases he2 : act buf c r1 .op_term with
        | cont r2 => rw [he2] at h; simp at h
        | brk r2 =>
          rw [he2] at h; simp only [Res.brk.injEq] at h
          subst h
          right
          refine ⟨ht, by simp only; omega, ?_⟩
          rw [(act_fields (.inr he2)).term]; simpa using hch
        | abort => rw [he2] at h; simp at h
        | ub => rw [he2] at h; simp at h
      | brk r1 =>
        have ft := (acts_fields (.inr he)).term hno
        rw [he] at h
        simp only [Res.brk.injEq] at h
        subst h
        left; simp only [ft]; exact ht0
      | abort => rw [he] at h; simp at h
      | ub => rw [he] at h; simp at h
    · left; simp only [f.term hot]; exact ht0

theorem acts_term_last {buf : List Byte} {c : Byte} {as : List Act} {r r' : Regs}
    (h : acts buf c r (as ++ [.op_term]) = .cont r') : ¬ r.p + 1 < buf.length := by
  intro hlt
  rw [acts_append] at h
  cases he : acts buf c r as with
  | cont r1 =>
    have hp := (acts_fields (.inl he)).p
    rw [he] at h
    simp only [acts, act] at h
    rw [if_pos (by omega)] at h
    simp at h
  | brk r1 => rw [he] at h; simp at h
  | abort => rw [he] at h; simp at h
  | ub => rw [he] at h; simp at h

/-- The automaton never makes a bad access; when it stops the registers are sound. -/
theorem run_safe {buf : List Byte} {beg line0 : Nat} (hn : buf.length < 2 ^ 30) :
    ∀ (rest : List Byte) (s : Nat) (r : Regs), buf.drop r.p = rest → s ≤ 75 →
    Inv buf beg line0 s r →
    (run buf rest s r = .abort ∧ LongWord buf) ∨
      ∃ s' r', run buf rest s r = .ok (s', r') ∧ Fin buf beg line0 s' r' := by
  intro rest
  induction rest with
  | nil =>
    intro s r hd hs i
    right
    refine ⟨s, r, rfl, by have := i.start; omega, i.stop, i.op, i.lineb, i.line, hs, ?_, fun _ => i.quo⟩
    rcases i.term with e | ⟨e1, e2, e3⟩
    · exact .inl e
    · exact .inr ⟨e1, e2.2, e3⟩
  | cons c rest ih =>
    intro s r hd hs i
    have hc := getElem?_of_drop hd
    have hlt := lt_of_drop hd
    have ht0 : r.term = 0 := by
      rcases i.term with e | ⟨_, e, _⟩
      · exact e
      · omega
    simp only [run]
    cases hst : stepIn TextTable.rows s c with
    | none =>
      right
      exact ⟨0, r, rfl, by have := i.start; omega, i.stop, i.op, i.lineb, i.line, by omega, .inl ht0,
        fun h => absurd rfl h⟩
    | some x =>
      obtain ⟨as, t⟩ := x
      have row := row_of hst
      simp only
      cases he : acts buf c r as with
      | cont r' =>
        have hp := (acts_fields (.inl he)).p
        simp only
        apply ih t _ (by simp only [hp]; exact drop_succ_of hd) row.tgt.2
        apply i.step hn ht0 hc row he
        intro hot
        obtain ⟨_, _, as', rfl, _⟩ := row.term hot
        have := acts_term_last he
        omega
      | brk r' => exact .inr ⟨t, _, rfl, i.brk hn ht0 hc row he⟩
      | abort =>
        have := i.post hn hc row
        rw [he] at this; exact .inl ⟨rfl, this⟩
      | ub =>
        have := i.post hn hc row
        rw [he] at this; exact this.elim

end TextParser
end Ron
