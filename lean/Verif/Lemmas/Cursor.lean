import Verif.Lemmas.TextRun
import Verif.Props.Literals
/-!
The cursor as a whole: safety, progress, failure.
-/
namespace Ron
open Spec

attribute [local irreducible] Atom.type Atom.rBegin Atom.rEnd Atom.cp Atom.cpSize Atom.setCp
  Atom.setCpSize Atom.consume Atom.ofRange Atom.rawValid Uuid.inc

/-! ### progress, without any bound on the frame -/
namespace TextParser

/-- A run moves forward only, by a byte per transition, and sets the terminator only on the
way. -/
theorem run_progress {buf : List Byte} : ∀ (rest : List Byte) (s : Nat) (r : Regs) (s' : Nat)
    (r' : Regs), run buf rest s r = .ok (s', r') →
    r.p ≤ r'.p ∧ r'.p ≤ r.p + rest.length ∧ (r'.p = r.p → s' = (if rest = [] then s else 0) ∧
      r' = r ∧ ∀ c l, rest = c :: l → stepIn TextTable.rows s c = none) := by
  intro rest
  induction rest with
  | nil =>
    intro s r s' r' h
    simp only [run, Out.ok.injEq, Prod.mk.injEq] at h
    obtain ⟨rfl, rfl⟩ := h
    exact ⟨Nat.le_refl _, Nat.le_refl _, fun _ => ⟨by simp, rfl, by simp⟩⟩
  | cons c rest ih =>
    intro s r s' r' h
    simp only [run] at h
    cases hst : stepIn TextTable.rows s c with
    | none =>
      rw [hst] at h
      simp only [Out.ok.injEq, Prod.mk.injEq] at h
      obtain ⟨rfl, rfl⟩ := h
      exact ⟨Nat.le_refl _, by omega, fun _ => ⟨by simp, rfl, by
        intro c' l hcl; simp only [List.cons.injEq] at hcl; rw [← hcl.1]; exact hst⟩⟩
    | some x =>
      obtain ⟨as, t⟩ := x
      rw [hst] at h
      simp only at h
      cases he : acts buf c r as with
      | cont r1 =>
        have hp := (acts_fields (.inl he)).p
        rw [he] at h
        have := ih _ _ _ _ h
        simp only [List.length_cons] at *
        exact ⟨by omega, by omega, fun e => by omega⟩
      | brk r1 =>
        have hp := (acts_fields (.inr he)).p
        rw [he] at h
        simp only [Out.ok.injEq, Prod.mk.injEq] at h
        obtain ⟨rfl, rfl⟩ := h
        simp only [List.length_cons]
        exact ⟨by omega, by omega, fun e => by omega⟩
      | abort => rw [he] at h; simp at h
      | ub => rw [he] at h; simp at h

theorem act_span {buf : List Byte} {c : Byte} {r r' : Regs} {a : Act} (hs : r.span < 2 ^ 32)
    (h : act buf c r a = .cont r' ∨ act buf c r a = .brk r') : r'.span < 2 ^ 32 := by
  have key : r'.span = r.span ∨ ∃ x, r'.span = x % 2 ^ 32 := by
    have spec : ∀ i, setSpec r i = .cont r' ∨ setSpec r i = .brk r' → r'.span = r.span := by
      intro i hh
      unfold setSpec at hh
      split at hh <;> simp only [Res.cont.injEq, reduceCtorEq, or_false, or_self] at hh
      rw [← hh]
    have push : pushUuid r = .cont r' ∨ pushUuid r = .brk r' → r'.span = r.span := by
      intro hh
      unfold pushUuid at hh
      split at hh
      · simp only [Res.brk.injEq, reduceCtorEq, false_or] at hh
        rw [← hh]
      · split at hh <;> simp only [Res.cont.injEq, reduceCtorEq, or_false, or_self] at hh
        rw [← hh]
    cases a
    case end_id => exact .inl (spec 0 h)
    case end_ref => exact .inl (spec 1 h)
    case end_quoted_uuid => exact .inl (push h)
    case span_size_digit =>
      simp only [act, Res.cont.injEq, reduceCtorEq, or_false] at h
      right; exact ⟨_, by rw [← h]⟩
    case end_span_size =>
      simp only [act, Res.cont.injEq, reduceCtorEq, or_false] at h
      right; exact ⟨_, by rw [← h]⟩
    case end_spread =>
      right
      simp only [act] at h
      split at h
      · simp at h
      · split at h
        · split at h <;> simp only [Res.cont.injEq, reduceCtorEq, or_false, or_self] at h
          exact ⟨_, by rw [← h]⟩
        · simp only [Res.cont.injEq, reduceCtorEq, or_false] at h
          exact ⟨_, by rw [← h]⟩
    all_goals
      simp only [act] at h
      left
      first
      | (simp only [Res.cont.injEq, reduceCtorEq, or_false] at h; rw [← h])
      | (simp at h; done)
      | skip
    all_goals
      split at h <;> first
      | (simp only [Res.cont.injEq, Res.brk.injEq, reduceCtorEq, or_false, false_or] at h; rw [← h])
      | exact push h
      | (simp at h; done)
      | skip
    all_goals
      split at h <;> first
      | (simp only [Res.cont.injEq, Res.brk.injEq, reduceCtorEq, or_false, false_or] at h; rw [← h])
      | (simp at h; done)
      | skip
  rcases key with e | ⟨x, e⟩
  · rw [e]; exact hs
  · rw [e]; exact Nat.mod_lt _ (by decide)

theorem acts_span {buf : List Byte} {c : Byte} : ∀ {as : List Act} {r r' : Regs},
    r.span < 2 ^ 32 → acts buf c r as = .cont r' ∨ acts buf c r as = .brk r' →
    r'.span < 2 ^ 32 := by
  intro as
  induction as with
  | nil =>
    intro r r' hs h
    simp only [acts, Res.cont.injEq, reduceCtorEq, or_false] at h
    rw [← h]; exact hs
  | cons a as ih =>
    intro r r' hs h
    simp only [acts] at h
    cases he : act buf c r a with
    | cont r1 => rw [he] at h; exact ih (act_span hs (.inl he)) h
    | brk r1 =>
      rw [he] at h
      simp only [Res.brk.injEq, reduceCtorEq, false_or] at h
      rw [← h]; exact act_span hs (.inr he)
    | abort => rw [he] at h; simp at h
    | ub => rw [he] at h; simp at h

theorem run_span {buf : List Byte} : ∀ (rest : List Byte) (s : Nat) (r : Regs) (s' : Nat)
    (r' : Regs), r.span < 2 ^ 32 → run buf rest s r = .ok (s', r') → r'.span < 2 ^ 32 := by
  intro rest
  induction rest with
  | nil =>
    intro s r s' r' hs h
    simp only [run, Out.ok.injEq, Prod.mk.injEq] at h
    rw [← h.2]; exact hs
  | cons c rest ih =>
    intro s r s' r' hs h
    simp only [run] at h
    cases hst : stepIn TextTable.rows s c with
    | none =>
      rw [hst] at h
      simp only [Out.ok.injEq, Prod.mk.injEq] at h
      rw [← h.2]; exact hs
    | some x =>
      obtain ⟨as, t⟩ := x
      rw [hst] at h
      simp only at h
      cases he : acts buf c r as with
      | cont r1 => rw [he] at h; exact ih t { r1 with p := r1.p + 1 } s' r' (show r1.span < 2 ^ 32 from acts_span hs (.inl he)) h
      | brk r1 =>
        rw [he] at h
        simp only [Out.ok.injEq, Prod.mk.injEq] at h
        rw [← h.2]; exact (show r1.span < 2 ^ 32 from acts_span hs (.inr he))
      | abort => rw [he] at h; simp at h
      | ub => rw [he] at h; simp at h

end TextParser

namespace Cursor

/-- What every reachable cursor satisfies, whatever the size of the frame. -/
structure Basic (buf : List Byte) (cur : Cursor) : Prop where
  beg : cur.beg ≤ buf.length
  buf : cur.buf = buf
  span : cur.span < 2 ^ 32
  zero : cur.beg = 0 → cur.cs = 0

theorem Basic.init (buf : List Byte) : Basic buf (init buf) :=
  ⟨Nat.zero_le _, rfl, show (0 : Nat) < 2 ^ 32 by decide, fun _ => rfl⟩

/-- A cursor that has failed for good. -/
structure Dead (cur : Cursor) : Prop where
  cs : cur.cs = 0
  span : cur.span = 0
  place : cur.beg = 0 → cur.buf = [] ∨
    ∃ c rest, cur.buf = c :: rest ∧ stepIn TextTable.rows TextTable.start c = none

/-- The outcomes of `finish`. -/
theorem finish_cases {cur cur' : Cursor} {s : Nat} {r : TextParser.Regs} {st : NextStatus}
    (h : finish cur s r = .ok (cur', st)) :
    cur'.buf = cur.buf ∧ cur'.beg = r.p ∧ cur'.op = r.op ∧ cur'.line = r.line ∧
      cur'.span = r.span ∧
      ((st = .ok ∧ r.term ≠ 0 ∧ cur'.cs = s) ∨ (st ≠ .ok ∧ cur'.cs = 0)) := by
  unfold finish at h
  simp only at h
  split at h
  · rename_i h1
    cases hc : chr2term r.term with
    | ok t =>
      rw [hc] at h
      simp only [Out.bind, Out.ok.injEq, Prod.mk.injEq] at h
      obtain ⟨rfl, rfl⟩ := h
      exact ⟨rfl, rfl, rfl, rfl, rfl, .inl ⟨rfl, h1.1, rfl⟩⟩
    | abort => rw [hc] at h; simp [Out.bind] at h
    | ub => rw [hc] at h; simp [Out.bind] at h
  · split at h
    · simp only [Out.ok.injEq, Prod.mk.injEq] at h
      obtain ⟨rfl, rfl⟩ := h
      exact ⟨rfl, rfl, rfl, rfl, rfl, .inr ⟨by decide, rfl⟩⟩
    · split at h
      · simp only [Out.ok.injEq, Prod.mk.injEq] at h
        obtain ⟨rfl, rfl⟩ := h
        exact ⟨rfl, rfl, rfl, rfl, rfl, .inr ⟨by decide, rfl⟩⟩
      · simp at h

/-- A parsing step: what it consumed. -/
theorem parseFrom_cases {buf : List Byte} {cur cur' : Cursor} {s : Nat} {st : NextStatus}
    (b : Basic buf cur) (h : parseFrom cur s = .ok (cur', st)) :
    Basic buf cur' ∧ (st = .ok → cur.beg < cur'.beg) ∧
    (st ≠ .ok → cur'.cs = 0 ∧ cur.beg ≤ cur'.beg ∧ (cur'.beg = 0 → buf = [] ∨
      ∃ c rest, buf = c :: rest ∧ stepIn TextTable.rows s c = none)) := by
  unfold parseFrom at h
  split at h
  · rename_i hle
    simp only [Out.ok.injEq, Prod.mk.injEq] at h
    obtain ⟨rfl, rfl⟩ := h
    refine ⟨⟨b.beg, b.buf, b.span, fun _ => rfl⟩, fun e => absurd e (by decide),
      fun _ => ⟨rfl, Nat.le_refl _, fun e => ?_⟩⟩
    left
    simp only at e
    rw [b.buf, e] at hle
    exact List.length_eq_zero_iff.1 (by omega)
  · rename_i hlt
    cases hr : TextParser.run cur.buf (cur.buf.drop cur.beg) s (startRegs cur) with
    | ok x =>
      obtain ⟨s', r'⟩ := x
      rw [hr] at h
      simp only [Out.bind] at h
      obtain ⟨e1, e2, e3, e4, e5, e6⟩ := finish_cases h
      obtain ⟨p1, p2, p3⟩ := TextParser.run_progress _ _ _ _ _ hr
      have hp0 : (startRegs cur).p = cur.beg := rfl
      rw [hp0] at p1 p2 p3
      rw [List.length_drop, b.buf] at p2
      have hsp := TextParser.run_span _ _ _ _ _ (show (startRegs cur).span < 2 ^ 32 from
        show (0 : Nat) < 2 ^ 32 by decide) hr
      have hb := b.beg
      have hok : st = .ok → cur.beg < cur'.beg := by
        intro e
        rcases e6 with ⟨_, ht, _⟩ | ⟨h1, _⟩
        · rcases Nat.lt_or_ge cur.beg r'.p with h' | h'
          · omega
          · have := (p3 (by omega)).2.1
            rw [this] at ht
            exact absurd rfl ht
        · exact absurd e h1
      refine ⟨⟨by omega, e1.trans b.buf, by omega, fun h0 => ?_⟩, hok, fun e => ?_⟩
      · rcases e6 with ⟨h1, _⟩ | ⟨_, h2⟩
        · have := hok h1; omega
        · exact h2
      · rcases e6 with ⟨h1, _⟩ | ⟨_, h2⟩
        · exact absurd h1 e
        · refine ⟨h2, by omega, fun h0 => ?_⟩
          have hz : cur.beg = 0 := by omega
          obtain ⟨q1, q2, q3⟩ := p3 (by omega)
          rw [b.buf, hz, List.drop_zero] at q3
          cases buf with
          | nil => exact .inl rfl
          | cons c rest => exact .inr ⟨c, rest, rfl, q3 c rest rfl⟩
    | abort => rw [hr] at h; simp [Out.bind] at h
    | ub => rw [hr] at h; simp [Out.bind] at h

/-- A step of a pending span. -/
theorem next_span {cur cur' : Cursor} {st : NextStatus} (hs : cur.span ≠ 0)
    (h : next cur = .ok (cur', st)) :
    st = .ok ∧ cur'.buf = cur.buf ∧ cur'.beg = cur.beg ∧ cur'.cs = cur.cs ∧
      cur'.span = cur.span - 1 ∧ cur'.line = cur.line ∧ cur'.term = cur.term := by
  unfold next at h
  rw [if_pos hs] at h
  split at h
  · simp only at h
    split at h
    · simp at h
    · split at h
      · cases hc : nextCodepoint cur.buf _ with
        | ok x =>
          rw [hc] at h
          simp only [Out.bind, Out.ok.injEq, Prod.mk.injEq] at h
          obtain ⟨rfl, rfl⟩ := h
          exact ⟨rfl, rfl, rfl, rfl, rfl, rfl, rfl⟩
        | abort => rw [hc] at h; simp [Out.bind] at h
        | ub => rw [hc] at h; simp [Out.bind] at h
      · simp only [Out.ok.injEq, Prod.mk.injEq] at h
        obtain ⟨rfl, rfl⟩ := h
        exact ⟨rfl, rfl, rfl, rfl, rfl, rfl, rfl⟩
  · simp at h

/-- One call of `Next`, whatever its size. -/
theorem next_cases {buf : List Byte} {cur cur' : Cursor} {st : NextStatus}
    (b : Basic buf cur) (h : next cur = .ok (cur', st)) :
    Basic buf cur' ∧
    (st = .ok → (cur.span ≠ 0 ∧ cur'.beg = cur.beg ∧ cur'.span + 1 = cur.span) ∨
      (cur.span = 0 ∧ cur.beg < cur'.beg)) ∧
    (st ≠ .ok → cur.span = 0 ∧ cur'.cs = 0 ∧ cur.beg ≤ cur'.beg ∧ (cur'.span = 0 → Dead cur')) := by
  by_cases hs : cur.span = 0
  · unfold next at h
    rw [if_neg (by simp [hs])] at h
    have key : ∀ s, (cur.beg = 0 → s = TextTable.start) → parseFrom cur s = .ok (cur', st) →
        Basic buf cur' ∧
        (st = .ok → (cur.span ≠ 0 ∧ cur'.beg = cur.beg ∧ cur'.span + 1 = cur.span) ∨
          (cur.span = 0 ∧ cur.beg < cur'.beg)) ∧
        (st ≠ .ok → cur.span = 0 ∧ cur'.cs = 0 ∧ cur.beg ≤ cur'.beg ∧
          (cur'.span = 0 → Dead cur')) := by
      intro s hs' hp
      obtain ⟨b', h1, h2⟩ := parseFrom_cases b hp
      refine ⟨b', fun e => .inr ⟨hs, h1 e⟩, fun e => ?_⟩
      obtain ⟨h3, h4, h5⟩ := h2 e
      refine ⟨hs, h3, h4, fun h6 => ⟨h3, h6, fun h7 => ?_⟩⟩
      rw [b'.buf, ← hs' (by omega)]
      exact h5 h7
    split at h
    · rename_i hcs
      split at h
      · rename_i hb
        simp only [Out.ok.injEq, Prod.mk.injEq] at h
        obtain ⟨rfl, rfl⟩ := h
        exact ⟨b, fun e => absurd e (by decide), fun _ => ⟨hs, hcs, Nat.le_refl _,
          fun _ => ⟨hcs, hs, fun e => absurd e hb⟩⟩⟩
      · exact key _ (fun _ => rfl) h
    · rename_i hcs
      have hb : cur.beg ≠ 0 := fun e => hcs (b.zero e)
      split at h
      · simp only [Out.ok.injEq, Prod.mk.injEq] at h
        obtain ⟨rfl, rfl⟩ := h
        exact ⟨⟨b.beg, b.buf, b.span, fun _ => rfl⟩, fun e => absurd e (by decide),
          fun _ => ⟨hs, rfl, Nat.le_refl _, fun _ => ⟨rfl, hs, fun e => absurd e hb⟩⟩⟩
      · exact key _ (fun e => absurd e hb) h
  · obtain ⟨h1, h2, h3, h4, h5, _⟩ := next_span hs h
    have := b.span
    refine ⟨⟨by rw [h3]; exact b.beg, h2.trans b.buf, by omega, fun e => ?_⟩,
      fun _ => .inl ⟨hs, h3, by omega⟩, fun e => absurd h1 e⟩
    rw [h4]; exact b.zero (h3 ▸ e)

/-- A dead cursor stays dead. -/
theorem Dead.next {cur cur' : Cursor} {st : NextStatus}
    (d : Dead cur) (h : next cur = .ok (cur', st)) :
    st ≠ .ok ∧ Dead cur' := by
  unfold Cursor.next at h
  rw [if_neg (by simp [d.span]), if_pos d.cs] at h
  split at h
  · simp only [Out.ok.injEq, Prod.mk.injEq] at h
    obtain ⟨rfl, rfl⟩ := h
    exact ⟨by decide, d⟩
  · rename_i hb
    have hb : cur.beg = 0 := by omega
    unfold parseFrom at h
    split at h
    · simp only [Out.ok.injEq, Prod.mk.injEq] at h
      obtain ⟨rfl, rfl⟩ := h
      exact ⟨by decide, rfl, d.span, d.place⟩
    · rename_i hlt
      rcases d.place hb with e | ⟨c, rest, e, hst⟩
      · rw [e] at hlt; simp at hlt
      · rw [hb, List.drop_zero, e] at h
        simp only [TextParser.run, hst, Out.bind] at h
        obtain ⟨e1, e2, e3, e4, e5, e6⟩ := finish_cases h
        have hp0 : (startRegs cur).p = cur.beg := rfl
        have hs0 : (startRegs cur).span = 0 := rfl
        rcases e6 with ⟨_, ht, _⟩ | ⟨h1, h2⟩
        · exact absurd rfl ht
        · exact ⟨h1, h2, e5.trans hs0, fun _ => by rw [e1, e]; exact .inr ⟨c, rest, rfl, hst⟩⟩

theorem measure_lt {n b b' x x' K f : Nat} (h : (n - b) * K + x < f + 1) (hb : b < b')
    (hb' : b' ≤ n) (hx : x' < K) : (n - b') * K + x' < f := by
  have : (n - b' + 1) * K ≤ (n - b) * K := Nat.mul_le_mul_right _ (by omega)
  rw [Nat.add_mul] at this
  omega

theorem measure_eq {n b b' x x' K f : Nat} (h : (n - b) * K + x < f + 1) (hb : b' = b)
    (hx : x' + 1 = x) : (n - b') * K + x' < f := by
  subst hb; omega

/-- The measure that bounds the steps left. -/
def steps (cur : Cursor) : Nat := (cur.buf.length - cur.beg) * 2 ^ 32 + cur.span

theorem iterate_ends {buf : List Byte} : ∀ (fuel : Nat) (cur : Cursor), Basic buf cur →
    cur.steps < fuel → iterate fuel cur ≠ .ok none := by
  intro fuel
  induction fuel with
  | zero => intro cur _ h; omega
  | succ fuel ih =>
    intro cur b hf he
    simp only [iterate] at he
    cases hn : next cur with
    | ok x =>
      obtain ⟨cur', st⟩ := x
      rw [hn] at he
      obtain ⟨b', h1, h2⟩ := next_cases b hn
      simp only [Out.bind] at he
      cases st with
      | ok =>
        simp only at he
        have hlt : cur'.steps < fuel := by
          have e1 := b.buf; have e2 := b'.buf; have l1 := b.beg; have l2 := b'.beg
          have s1 := b'.span
          unfold steps at *
          rw [e1] at hf
          rw [e2]
          rcases h1 rfl with ⟨_, h3, h4⟩ | ⟨h3, h4⟩
          · exact measure_eq hf h3 h4
          · exact measure_lt hf h4 l2 s1
        have := ih cur' b' hlt
        cases hi : iterate fuel cur' with
        | ok y =>
          rw [hi] at he this
          cases y with
          | none => exact this rfl
          | some y => simp at he
        | abort => rw [hi] at he; simp at he
        | ub => rw [hi] at he; simp at he
      | endOfFrame => simp at he
      | badState => simp at he
    | abort => rw [hn] at he; simp [Out.bind] at he
    | ub => rw [hn] at he; simp [Out.bind] at he

/-- Evaluating a check on a result. -/
def okAnd {α : Type} (o : Out α) (P : α → Bool) : Bool :=
  match o with
  | .ok a => P a
  | _ => false

theorem of_okAnd {α : Type} {o : Out α} {P : α → Bool} (h : okAnd o P = true) :
    ∃ a, o = .ok a ∧ P a = true := by
  cases o with
  | ok a => exact ⟨a, rfl, h⟩
  | abort => cases h
  | ub => cases h

/-- The status and a check on the cursor. -/
theorem of_next {cur : Cursor} {st : NextStatus} {P : Cursor → Bool}
    (h : okAnd (next cur) (fun x => decide (x.2 = st) && P x.1) = true) :
    ∃ c, next cur = .ok (c, st) ∧ P c = true := by
  obtain ⟨⟨c, s⟩, h1, h2⟩ := of_okAnd h
  simp only [Bool.and_eq_true, decide_eq_true_eq] at h2
  exact ⟨c, by rw [h1, h2.1], h2.2⟩

/-! ### memory safety -/

theorem type_inc {u : Atom} : Atom.type (Uuid.inc u) = Atom.type u := by
  unfold Uuid.inc Atom.type; with_reducible rfl

theorem type_nil : Atom.type (Uuid.NIL : Uuid) = Atom.tUUID := by unfold Atom.type; decide

/-- What every reachable cursor of a frame satisfies. -/
structure Safe (buf : List Byte) (cur : Cursor) : Prop where
  basic : Basic buf cur
  cs : cur.cs = 0 ∨ cur.cs = 74
  op : (cur.op = [] ∧ cur.span = 0) ∨ OpOk buf cur.op
  line : cur.line ≤ cur.beg + 1
  quo : cur.cs ≠ 0 ∨ cur.beg = 0 → TextParser.quoteOf (buf.take cur.beg) = 0

theorem Safe.init (buf : List Byte) : Safe buf (init buf) :=
  ⟨.init buf, .inl rfl, .inl ⟨rfl, rfl⟩, Nat.le_refl _, fun _ => rfl⟩

theorem Safe.inv {buf : List Byte} {cur : Cursor} (h : Safe buf cur)
    (hq : cur.cs ≠ 0 ∨ cur.beg = 0) :
    TextParser.Inv buf cur.beg cur.line 74 (startRegs cur) := by
  have hop : OpOk buf (startRegs cur).op := by
    have key : ∀ u : Atom, Atom.type u = Atom.tUUID → OpOk buf [Uuid.inc u, u] := fun u hu =>
      ⟨_, _, [], rfl, type_inc.trans hu, hu, by simp⟩
    show OpOk buf [Uuid.inc ((cur.op[0]?).getD Uuid.NIL), (cur.op[0]?).getD Uuid.NIL]
    apply key
    rcases h.op with ⟨e, _⟩ | ⟨i, r, vals, e, hi, _⟩
    · rw [e]; exact type_nil
    · rw [e]; exact hi
  have hf : ∀ {p : Nat → Bool} {q : Prop}, p 74 = false → p 74 = true → q := by
    intro p q h1 h2; rw [h1] at h2; exact absurd h2 (by decide)
  exact ⟨Nat.le_refl _, h.basic.beg, hop, TextParser.wordOf_nil, TextParser.wordOf_nil,
    Nat.le_refl _, Nat.le_add_right _ _, Nat.le_refl _, hf (by decide), hf (by decide),
    hf (by decide), hf (by decide), hf (by decide), hf (by decide), hf (by decide),
    hf (by decide), fun e => absurd e (by decide), .inl rfl, h.quo hq⟩

theorem decLen_le {n : Nat} (h : n < 10 ^ 9) : decLen n ≤ 9 :=
  (decDigits_length n 9 (Nat.lt_trans h (by decide)) (by decide)).2 h

theorem finish_safe {buf : List Byte} {cur : Cursor} {s : Nat} {r : TextParser.Regs}
    (hn : buf.length < 10 ^ 9 - 1) (h : Safe buf cur)
    (f : TextParser.Fin buf cur.beg cur.line s r) :
    ∃ cur' st, finish cur s r = .ok (cur', st) ∧ (cur'.cs = 0 ∨ cur'.cs = 74) := by
  have hl := h.line
  have hb := h.basic.beg
  have hfl := f.line
  have hfs := f.start
  have hfe := f.stop
  unfold finish
  simp only
  split
  · rename_i ht
    rcases f.term with e | ⟨e1, _, e2⟩
    · exact absurd e ht.1
    · have : ∃ t, chr2term r.term = .ok t := by
        rcases e2 with e | e | e | e <;> rw [e]
        · exact ⟨2, rfl⟩
        · exact ⟨1, rfl⟩
        · exact ⟨0, rfl⟩
        · exact ⟨3, rfl⟩
      obtain ⟨t, ht'⟩ := this
      rw [ht']
      exact ⟨_, _, rfl, .inr e1⟩
  · split
    · exact ⟨_, _, rfl, .inl rfl⟩
    · have l1 := decLen_le (n := r.line) (by omega)
      have l2 := decLen_le (n := r.p - r.lineb) (by omega)
      have l3 := decLen_le (n := r.p - cur.beg) (by omega)
      rw [if_pos (by omega)]
      exact ⟨_, _, rfl, .inl rfl⟩

theorem parseFrom_safe {buf : List Byte} {cur : Cursor} (hn : buf.length < 10 ^ 9 - 1)
    (h : Safe buf cur) (hq : cur.cs ≠ 0 ∨ cur.beg = 0) :
    (parseFrom cur 74 = .abort ∧ LongWord buf) ∨
      ∃ cur' st, parseFrom cur 74 = .ok (cur', st) ∧ Safe buf cur' ∧
        (st = .ok → OpOk buf cur'.op) := by
  have hb := h.basic.buf
  by_cases hle : cur.buf.length ≤ cur.beg
  · right
    refine ⟨{ cur with cs := 0 }, .endOfFrame, by unfold parseFrom; rw [if_pos hle],
      ⟨⟨h.basic.beg, hb, h.basic.span, fun _ => rfl⟩, .inl rfl, h.op, h.line,
        fun e => h.quo (.inr (e.resolve_left fun x => x rfl))⟩,
      fun e => absurd e (by decide)⟩
  · have hrun := TextParser.run_safe (buf := buf) (beg := cur.beg) (line0 := cur.line)
      (Nat.lt_trans hn (by decide)) (buf.drop cur.beg) 74 (startRegs cur) rfl (by decide) (h.inv hq)
    have e : parseFrom cur 74 =
        (TextParser.run buf (buf.drop cur.beg) 74 (startRegs cur)).bind fun sr =>
          finish cur sr.1 sr.2 := by
      unfold parseFrom; rw [if_neg hle, hb]
    rcases hrun with ⟨h1, h2⟩ | ⟨s', r', h1, f⟩
    · left; rw [e, h1]; exact ⟨rfl, h2⟩
    · right
      obtain ⟨cur', st, h2, h3⟩ := finish_safe hn h f
      have h4 : parseFrom cur 74 = .ok (cur', st) := by rw [e, h1]; exact h2
      obtain ⟨e1, e2, e3, e4, e5, e6⟩ := finish_cases h2
      obtain ⟨b', _⟩ := parseFrom_cases h.basic h4
      refine ⟨cur', st, h4, ⟨b', h3, .inr (e3 ▸ f.op), ?_, ?_⟩, fun _ => e3 ▸ f.op⟩
      · have := f.line; have := h.line; have := f.start
        omega
      · rintro (h0 | h0)
        · rcases e6 with ⟨_, _, e⟩ | ⟨_, e⟩
          · rw [e2, f.quo (e ▸ h0)]
            rcases h3 with h3 | h3
            · exact absurd h3 h0
            · rw [← e, h3]; rfl
          · exact absurd e h0
        · rw [h0]; rfl

theorem span_op {buf : List Byte} {i r : Atom} {vals : List Atom}
    (h : OpOk buf (i :: r :: vals)) : OpOk buf (Uuid.inc i :: i :: vals) := by
  obtain ⟨i', r', vals', e, hi, hr, hv⟩ := h
  simp only [List.cons.injEq] at e
  obtain ⟨rfl, rfl, rfl⟩ := e
  exact ⟨_, _, _, rfl, type_inc.trans hi, hi, hv⟩

/-- One call of `Next` on a reachable cursor. -/
theorem next_safe {buf : List Byte} {cur : Cursor} (hn : buf.length < 10 ^ 9 - 1)
    (h : Safe buf cur) :
    (next cur = .abort ∧ LongWord buf) ∨
      ∃ cur' st, next cur = .ok (cur', st) ∧ Safe buf cur' ∧ (st = .ok → OpOk buf cur'.op) := by
  by_cases hs : cur.span = 0
  · have hx : ¬ cur.span ≠ 0 := by simp [hs]
    rcases h.cs with hc | hc
    · by_cases hb : cur.beg = 0
      · have e : next cur = parseFrom cur 74 := by
          unfold next; rw [if_neg hx, if_pos hc, if_neg (by simp [hb])]; rfl
        rw [e]; exact parseFrom_safe hn h (.inr hb)
      · have e : next cur = .ok (cur, .badState) := by
          unfold next; rw [if_neg hx, if_pos hc, if_pos hb]
        exact .inr ⟨_, _, e, h, fun e => absurd e (by decide)⟩
    · have e : next cur = parseFrom cur 74 := by
        unfold next; rw [if_neg hx, if_neg (by omega), if_neg (by omega), hc]
      rw [e]; exact parseFrom_safe hn h (.inl (by omega))
  · right
    rcases h.op with ⟨_, e⟩ | hop
    · exact absurd e hs
    · have hop' := hop
      obtain ⟨i, r, vals, e, _, _, _⟩ := hop'
      rw [e] at hop
      have hop2 := span_op hop
      have hne : (Uuid.inc i :: i :: vals).getLast? ≠ none := by simp
      obtain ⟨l, hl⟩ := Option.ne_none_iff_exists'.1 hne
      have mk : ∀ cur' st, next cur = .ok (cur', st) → OpOk buf cur'.op →
          ∃ cur' st, next cur = .ok (cur', st) ∧ Safe buf cur' ∧ (st = .ok → OpOk buf cur'.op) := by
        intro cur' st hn' ho
        obtain ⟨_, _, h3, h4, _, h6, _⟩ := next_span hs hn'
        exact ⟨cur', st, hn', ⟨(next_cases h.basic hn').1, by rw [h4]; exact h.cs, .inr ho,
          by rw [h6, h3]; exact h.line, by rw [h4, h3]; exact h.quo⟩, fun _ => ho⟩
      by_cases ht : Atom.type l = Atom.tSTRING ∧ Atom.cp l ≠ 0
      · obtain ⟨ha, hraw, hset⟩ := hop2.last_string hl ht.1
        obtain ⟨a', b, hc, ht', ha', hr'⟩ := nextCodepoint_safe (Nat.lt_trans hn (by decide)) ht.1 ha hraw
        refine mk { cur with span := cur.span - 1, op := TextParser.setLast (Uuid.inc i :: i :: vals) a' }
          .ok ?_ (hset a' ha' fun _ => hr')
        unfold next
        rw [if_pos hs]
        simp only [e, hl]
        rw [if_pos ht, h.basic.buf, hc]
        rfl
      · refine mk { cur with span := cur.span - 1, op := Uuid.inc i :: i :: vals } .ok ?_ hop2
        unfold next
        rw [if_pos hs]
        simp only [e, hl]
        rw [if_neg ht]

theorem atomData_ok {buf : List Byte} {a : Atom} (h1 : Atom.rBegin a ≤ Atom.rEnd a)
    (h2 : Atom.rEnd a ≤ buf.length) :
    atomData buf a = .ok (slice buf (Atom.rBegin a) (Atom.rEnd a)) := by
  unfold atomData
  rw [if_neg (by omega), if_neg (by omega)]

theorem atomVal_ok {buf : List Byte} {cur : Cursor} {i : Nat} {a : Atom} (hb : cur.buf = buf)
    (h : AtomOk buf a) (ha : cur.op[i]? = some a) : ∃ v, atomVal cur i = .ok v := by
  unfold atomVal
  rw [ha, hb]
  simp only
  split
  · rename_i ht
    obtain ⟨h1, h2, ⟨v, hv⟩, h4⟩ := h.int ht
    rw [atomData_ok h1 h2]
    simp only [Out.bind, (Props.C16_exact _ _ hv h4).1, Out.ofOption]
    exact ⟨_, rfl⟩
  · split
    · rename_i ht
      obtain ⟨h1, h2, h3⟩ := h.float ht
      unfold floatText
      rw [atomData_ok h1 h2]
      have := slice_length (buf := buf) (m := Atom.rBegin a) h2
      simp only [Out.bind]
      rw [if_pos (by omega)]
      exact ⟨_, rfl⟩
    · split
      · rename_i ht
        split
        · exact ⟨_, rfl⟩
        · obtain ⟨b, _, _, h1, h2, _⟩ := h.string ht
          rw [atomData_ok h1 (by omega)]
          exact ⟨_, rfl⟩
      · exact ⟨_, rfl⟩

/-! ### a frame of over `2^30` bytes -/

/-- `k` spaces, then a string of 40 characters. -/
def bigFrame (k : Nat) : List Byte :=
  List.replicate k 32 ++ (39 :: (97 :: (List.replicate 39 97 ++ [39, 59])))

theorem run_spaces {buf tail : List Byte} : ∀ (k : Nat) (r : TextParser.Regs),
    TextParser.run buf (List.replicate k 32 ++ tail) 74 r =
      TextParser.run buf tail 74 { r with p := r.p + k } := by
  intro k
  induction k with
  | zero => intro r; rfl
  | succ k ih =>
    intro r
    have h1 : stepIn TextTable.rows 74 32 = some ([Act.newline], 74) := by decide +kernel
    rw [List.replicate_succ, List.cons_append]
    simp only [TextParser.run, h1, TextParser.acts, TextParser.act]
    rw [if_neg (by decide)]
    simp only
    rw [ih]
    simp only
    congr 2
    omega

theorem run_as {buf tail : List Byte} : ∀ (k : Nat) (r : TextParser.Regs), r.cpSize + k < 2 ^ 32 →
    TextParser.run buf (List.replicate k 97 ++ tail) 2 r =
      TextParser.run buf tail 2 { r with p := r.p + k, cpSize := r.cpSize + k } := by
  intro k
  induction k with
  | zero => intro r _; rfl
  | succ k ih =>
    intro r hk
    have h1 : stepIn TextTable.rows 2 97 = some ([Act.end_cp, Act.string_lead1], 2) := by
      decide +kernel
    rw [List.replicate_succ, List.cons_append]
    simp only [TextParser.run, h1, TextParser.acts, TextParser.act]
    rw [Nat.mod_eq_of_lt (by omega), ih _ (by simp only; omega)]
    simp only
    congr 2 <;> omega

theorem bigFrame_length (k : Nat) : (bigFrame k).length = k + 43 := by
  unfold bigFrame
  simp only [List.length_append, List.length_replicate, List.length_cons, List.length_nil]

/-- The string as recorded by the parser. -/
def bigAtom (k : Nat) : Atom :=
  (Atom.ofRange Atom.tSTRING (k + 1) (k + 41)).setCpSize 40

theorem bigAtom_fields (k : Nat) (hk : k = 2 ^ 30) : Atom.type (bigAtom k) = Atom.tFLOAT ∧
    Atom.rBegin (bigAtom k) = 1 ∧ Atom.rEnd (bigAtom k) = 41 := by
  have : (bigAtom k).origin.toNat = 3 * 2 ^ 62 + (41 * 2 ^ 32 + (2 ^ 30 + 1)) := by
    unfold bigAtom Atom.setCpSize Atom.ofRange
    rw [hk]
    decide +kernel
  unfold Atom.type Atom.rBegin Atom.rEnd
  rw [this]
  decide +kernel

theorem bigFrame_run (k : Nat) : ∃ r, TextParser.run (bigFrame k) (bigFrame k) 74 (startRegs (init (bigFrame k))) =
    .ok (74, r) ∧ r.term = 59 ∧ r.op = [Uuid.inc Uuid.NIL, Uuid.NIL, (bigAtom k)] := by
  have e : TextParser.run (bigFrame k) (bigFrame k) 74 (startRegs (init (bigFrame k))) =
      TextParser.run (bigFrame k) (List.replicate k 32 ++
        (39 :: (97 :: (List.replicate 39 97 ++ [39, 59])))) 74 (startRegs (init (bigFrame k))) := rfl
  have s1 : stepIn TextTable.rows 74 39 = some ([], 1) := by decide +kernel
  have s2 : stepIn TextTable.rows 1 97 = some ([Act.begin_string, Act.string_lead1], 2) := by
    decide +kernel
  have s3 : stepIn TextTable.rows 2 39 = some ([Act.end_cp, Act.end_string], 3) := by
    decide +kernel
  have s4 : stepIn TextTable.rows 3 59 = some ([Act.op_term], 74) := by decide +kernel
  have hp : (startRegs (init (bigFrame k))).p = 0 := rfl
  have ho : (startRegs (init (bigFrame k))).op = [Uuid.inc Uuid.NIL, Uuid.NIL] := rfl
  rw [e, run_spaces]
  simp only [TextParser.run, s1, s2, TextParser.acts, TextParser.act]
  rw [run_as _ _ (by simp only; decide)]
  simp only [TextParser.run, s3, s4, TextParser.acts, TextParser.act, hp, ho, bigFrame_length]
  rw [if_neg (by omega)]
  simp only
  rw [if_neg (by omega)]
  refine ⟨_, rfl, rfl, ?_⟩
  unfold bigAtom
  simp only [Nat.zero_add, List.cons_append, List.nil_append]

theorem next_init (buf : List Byte) : next (init buf) = parseFrom (init buf) 74 := rfl

theorem bigFrame_ub (k : Nat) (hk : k = 2 ^ 30) : ∃ c, next (init (bigFrame k)) = .ok (c, .ok) ∧ 2 < c.op.length ∧
    atomVal c 2 = .ub := by
  obtain ⟨r, h1, h2, h3⟩ := bigFrame_run k
  refine ⟨⟨bigFrame k, r.p, r.op, 0, 74, r.line, r.span⟩, ?_, ?_, ?_⟩
  · rw [next_init]
    unfold parseFrom
    rw [if_neg (by show ¬ (bigFrame k).length ≤ 0; rw [bigFrame_length]; omega)]
    show (TextParser.run (bigFrame k) (bigFrame k) 74 (startRegs (init (bigFrame k)))).bind _ = _
    rw [h1]
    show finish (init (bigFrame k)) 74 r = _
    unfold finish
    simp only
    rw [if_pos (by rw [h2]; decide), h2]
    rfl
  · simp only [h3, List.length_cons]; omega
  · obtain ⟨b1, b2, b3⟩ := bigAtom_fields k hk
    unfold atomVal
    simp only [h3]
    rw [show ([Uuid.inc Uuid.NIL, Uuid.NIL, (bigAtom k)] : List Atom)[2]? = some (bigAtom k) from rfl]
    simp only
    rw [if_neg (by rw [b1]; decide), if_pos b1]
    unfold floatText
    rw [atomData_ok (by omega) (by rw [b3]; show 41 ≤ (bigFrame k).length; rw [bigFrame_length]; omega)]
    have := slice_length (buf := bigFrame k) (m := Atom.rBegin (bigAtom k))
      (p := Atom.rEnd (bigAtom k)) (by rw [b3, bigFrame_length]; omega)
    rw [b2, b3] at this ⊢
    simp only [Out.bind]
    rw [if_neg (by omega)]

end Cursor
end Ron
