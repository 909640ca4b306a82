import Verif.Lemmas.TextLang
import Verif.Lemmas.TextFrameGo
/-!
How the reading of a frame ends: with the end-of-frame status exactly on the texts of the grammar,
unless a literal is too long.
-/
namespace Ron
open Spec Act

attribute [local irreducible] Atom.type Atom.rBegin Atom.rEnd Atom.cp Atom.cpSize Atom.setCp
  Atom.setCpSize Atom.consume Atom.ofRange Atom.rawValid Uuid.inc

namespace TextParser

/-- States inside of a possible float. -/
def floatS (s : Nat) : Bool :=
  [21, 22, 23, 24, 33, 34, 35, 36, 37, 40, 45, 46, 47, 48, 49].contains s

def floatRow (s : Nat) (row : TRow) : Bool :=
  let lo := row.1
  let hi := row.2.1
  let as := row.2.2.1
  let t := row.2.2.2
  let has (a : Act) := as.contains a
  (!floatS t || (((Nat.ble 48 lo && Nat.ble hi 57) || (Nat.beq lo hi && (Nat.beq lo 43 || Nat.beq lo 45 ||
    Nat.beq lo 46 || Nat.beq lo 69 || Nat.beq lo 101))) && (has .begin_float || floatS s))) &&
  (!floatS t || Nat.beq (qS s) 0) &&
  (!has .end_float || (floatS s && !has .begin_float)) &&
  (!has .begin_string || !(has .end_float || has .end_int || has .end_quoted_uuid ||
    has .end_bare_uuid || has .op_term))

theorem floatTable : allRows TextTable.rows 76 floatRow = true := by decide +kernel

/-- The bytes since `floatb` may belong to a number. -/
def FInv (buf : List Byte) (s : Nat) (r : Regs) : Prop :=
  floatS s = true → r.floatb ≤ r.p ∧ (∀ x ∈ slice buf r.floatb r.p, isNumByte x = true) ∧
    Plain buf r.floatb r.p

theorem act_floatb {buf : List Byte} {c : Byte} {r r' : Regs} {a : Act}
    (h : act buf c r a = .cont r') : r'.floatb = if a = .begin_float then r.p else r.floatb := by
  have spec : ∀ i, setSpec r i = .cont r' → r'.floatb = r.floatb := by
    intro i hh
    unfold setSpec at hh
    split at hh <;> simp only [Res.cont.injEq, reduceCtorEq] at hh
    rw [← hh]
  have push : pushUuid r = .cont r' → r'.floatb = r.floatb := by
    intro hh
    unfold pushUuid at hh
    split at hh
    · simp at hh
    · split at hh <;> simp only [Res.cont.injEq, reduceCtorEq] at hh
      rw [← hh]
  cases a
  case end_id => simpa using spec 0 h
  case end_ref => simpa using spec 1 h
  case end_quoted_uuid => simpa using push h
  case end_bare_uuid =>
    simp only [act] at h
    split at h
    · simpa using push h
    · simp only [Res.cont.injEq] at h; rw [← h]; simp
  case end_spread =>
    simp only [act] at h
    split at h
    · simp at h
    · split at h
      · split at h <;> simp only [Res.cont.injEq, reduceCtorEq] at h
        rw [← h]; simp
      · simp only [Res.cont.injEq] at h
        rw [← h]; simp
  case variety =>
    simp only [act] at h
    split at h
    · simp at h
    · split at h <;> simp only [Res.cont.injEq, reduceCtorEq] at h
      rw [← h]; simp
  all_goals
    simp only [act] at h
    first
      | (exact Res.noConfusion h; done)
      | (simp only [Res.cont.injEq] at h; rw [← h]; with_reducible rfl; done)
      | (simp only [Res.cont.injEq] at h; rw [← h]; simp; done)
      | (repeat' split at h
         all_goals first
           | (exact Res.noConfusion h; done)
           | (simp only [Res.cont.injEq] at h; rw [← h]; simp))

theorem acts_floatb {buf : List Byte} {c : Byte} : ∀ {as : List Act} {r r' : Regs},
    acts buf c r as = .cont r' → r'.floatb = if Act.begin_float ∈ as then r.p else r.floatb := by
  intro as
  induction as with
  | nil =>
    intro r r' h
    simp only [acts, Res.cont.injEq] at h
    subst h; simp
  | cons a as ih =>
    intro r r' h
    simp only [acts] at h
    cases he : act buf c r a with
    | cont r1 =>
      rw [he] at h
      have hp := (act_fields (.inl he)).p
      rw [ih h, hp, act_floatb he]
      simp only [List.mem_cons, @eq_comm _ Act.begin_float a]
      by_cases h1 : a = .begin_float <;> by_cases h3 : Act.begin_float ∈ as <;> simp [h1, h3]
    | brk r1 => rw [he] at h; simp at h
    | abort => rw [he] at h; simp at h
    | ub => rw [he] at h; simp at h

structure FRow (s : Nat) (c : Byte) (as : List Act) (t : Nat) : Prop where
  num : floatS t = true → isNumByte c = true ∧ (Act.begin_float ∈ as ∨ floatS s = true)
  out : floatS t = true → qS s = 0
  fin : Act.end_float ∈ as → floatS s = true ∧ Act.begin_float ∉ as
  str : Act.begin_string ∈ as → Act.end_float ∉ as ∧ Act.end_int ∉ as ∧
    Act.end_quoted_uuid ∉ as ∧ Act.end_bare_uuid ∉ as ∧ Act.op_term ∉ as

theorem frow_of {s : Nat} {c : Byte} {as : List Act} {t : Nat}
    (h : stepIn TextTable.rows s c = some (as, t)) : FRow s c as t := by
  obtain ⟨lo, hi, h1, h2, h'⟩ := TextTable.step floatTable h
  simp only [floatRow, Bool.and_eq_true] at h'
  obtain ⟨⟨⟨ha, hq⟩, hb⟩, hc⟩ := h'
  refine ⟨fun h => ?_, fun h => ?_, fun h => ?_, fun h => ?_⟩
  · rw [h] at ha
    simp only [Bool.not_true, Bool.false_or, Bool.and_eq_true] at ha
    obtain ⟨e, f⟩ := ha
    constructor
    · simp only [Bool.or_eq_true, Bool.and_eq_true, Nat.ble_eq, Nat.beq_eq] at e
      simp only [isNumByte, Bool.or_eq_true, Bool.and_eq_true, Nat.ble_eq, Nat.beq_eq]
      omega
    · simpa only [Bool.or_eq_true, List.contains_iff_mem] using f
  · rw [h] at hq
    simpa only [Bool.not_true, Bool.false_or, Nat.beq_eq] using hq
  · rw [List.contains_iff_mem.2 h] at hb
    simp only [Bool.not_true, Bool.false_or, Bool.and_eq_true, Bool.not_eq_true'] at hb
    exact ⟨hb.1, fun h' => by rw [List.contains_iff_mem.2 h'] at hb; simp at hb⟩
  · rw [List.contains_iff_mem.2 h] at hc
    simp only [Bool.not_true, Bool.false_or, Bool.not_eq_true', Bool.or_eq_false_iff] at hc
    obtain ⟨⟨⟨⟨c1, c2⟩, c3⟩, c4⟩, c5⟩ := hc
    have key : ∀ {a}, as.contains a = false → a ∉ as := by
      intro a e h'
      rw [List.contains_iff_mem.2 h'] at e; simp at e
    exact ⟨key c1, key c2, key c3, key c4, key c5⟩

theorem FInv.step {buf : List Byte} {s t : Nat} {c : Byte} {as : List Act} {r r' : Regs}
    (i : FInv buf s r) (row : FRow s c as t) (hc : buf[r.p]? = some c)
    (hq : quoteOf (buf.take r.p) = qS s) (h : acts buf c r as = .cont r') : FInv buf t { r' with p := r'.p + 1 } := by
  intro ht
  obtain ⟨hn, hs⟩ := row.num ht
  rw [row.out ht] at hq
  have hp := (acts_fields (.inl h)).p
  have hf := acts_floatb h
  simp only [hp, hf]
  by_cases hb : Act.begin_float ∈ as
  · simp only [hb, if_true]
    refine ⟨by omega, ?_, Plain.empty.snoc (Nat.le_refl _) hc hq⟩
    rw [slice_snoc (Nat.le_refl _) hc, slice_self]
    simpa using hn
  · simp only [hb, if_false]
    obtain ⟨h1, h2, h3⟩ := i (hs.resolve_left hb)
    refine ⟨by omega, ?_, h3.snoc h1 hc hq⟩
    rw [slice_snoc h1 hc]
    intro x hx
    rcases List.mem_append.1 hx with hx | hx
    · exact h2 x hx
    · simp only [List.mem_singleton] at hx; rw [hx]; exact hn

theorem digit_b64 {c : Byte} (h : IsDigit c) : isB64 c = true := by
  unfold IsDigit at h
  simp only [isB64, Bool.or_eq_true, Bool.and_eq_true, Nat.ble_eq]
  exact .inl (.inl (.inl (.inl h)))

theorem longWord_of_int {buf : List Byte} {b e : Nat} {v : Int} (h : IntText (slice buf b e) v)
    (hp : Plain buf b e) (ha : intAccepted (slice buf b e) = false) : LongWord buf := by
  have inf := hp.infix
  have signed : ∀ (c : Byte) (s : List Byte), isSign c = true → (∀ c ∈ s, IsDigit c) →
      slice buf b e = c :: s → LongWord buf := by
    intro c s hc hd hs
    refine ⟨s, (List.suffix_cons c s).isInfix.trans (hs ▸ inf), ?_, fun x hx => digit_b64 (hd x hx)⟩
    have hl : ¬ (s.length < 18) := fun h => by
      have := (intAccepted_signed c s hc hd).2 (.inl h)
      rw [hs, this] at ha; cases ha
    clear ha
    omega
  generalize hs : slice buf b e = w at h
  cases h with
  | plain _ hn hd =>
    refine ⟨w, hs ▸ inf, ?_, fun x hx => digit_b64 (hd x hx)⟩
    have hl : ¬ (w.length < 19) := fun h => by
      have := (intAccepted_unsigned w hn hd).2 (.inl h)
      rw [hs, this] at ha; cases ha
    clear ha
    omega
  | plus c s hc hn hd => exact signed c s (by simp [isSign, hc]) hd hs
  | minus c s hc hn hd => exact signed c s (by simp [isSign, hc]) hd hs

theorem act_brk {buf : List Byte} {c : Byte} {as : List Act} {r0 r r' : Regs} {a : Act}
    (pre : Pre buf c as r0) (m : Mid buf r0 as r) (ha : a ∈ as)
    (hfl : Act.end_float ∈ as → (∀ x ∈ slice buf r.floatb r.p, isNumByte x = true) ∧
      Plain buf r.floatb r.p)
    (h : act buf c r a = .brk r') :
    (a = .op_term ∧ r'.term = c.toNat) ∨ LongWord buf ∨ LongNumber buf := by
  have push : pushUuid r = .brk r' → LongWord buf := by
    intro hh
    unfold pushUuid at hh
    split at hh
    · rename_i ht
      simp only [tooBig, Bool.or_eq_true, decide_eq_true_eq] at ht
      rcases ht with h | h
      · exact ⟨r.value, m.val.2, h, m.val.1⟩
      · exact ⟨r.origin, m.org.2, h, m.org.1⟩
    · split at hh <;> simp only [reduceCtorEq] at hh
  have spec : ∀ i, setSpec r i ≠ .brk r' := by
    intro i hh
    unfold setSpec at hh
    split at hh <;> simp only [reduceCtorEq] at hh
  cases a
  case end_id => exact absurd h (spec 0)
  case end_ref => exact absurd h (spec 1)
  case end_quoted_uuid => exact .inr (.inl (push h))
  case end_bare_uuid =>
    simp only [act] at h
    split at h
    · exact .inr (.inl (push h))
    · simp only [reduceCtorEq] at h
  case op_term =>
    simp only [act] at h
    split at h
    · simp only [Res.brk.injEq] at h
      rw [← h]; exact .inl ⟨rfl, rfl⟩
    · simp only [reduceCtorEq] at h
  case end_int =>
    simp only [act] at h
    split at h
    · simp only [reduceCtorEq] at h
    · split at h
      · rename_i hacc
        obtain ⟨h1, h2, ⟨v, h3⟩, h4⟩ := pre.int ha
        rw [m.intb h1, m.p] at hacc
        exact .inr (.inl (longWord_of_int h3 h4 (by simpa using hacc)))
      · simp only [reduceCtorEq] at h
  case end_float =>
    simp only [act] at h
    split at h
    · simp only [reduceCtorEq] at h
    · split at h
      · rename_i h1 hl
        right; right
        refine ⟨slice buf r.floatb r.p, (hfl ha).2.infix, ?_, (hfl ha).1⟩
        have := lt_of_get pre.at_p
        have := m.p
        simp only [slice, List.length_take, List.length_drop]
        omega
      · simp only [reduceCtorEq] at h
  case end_spread =>
    simp only [act] at h
    split at h
    · simp only [reduceCtorEq] at h
    · split at h
      · split at h <;> simp only [reduceCtorEq] at h
      · simp only [reduceCtorEq] at h
  case variety =>
    simp only [act] at h
    split at h
    · simp only [reduceCtorEq] at h
    · split at h <;> simp only [reduceCtorEq] at h
  all_goals
    simp only [act] at h
    first
      | (simp only [reduceCtorEq] at h; done)
      | (split at h <;> simp only [reduceCtorEq] at h; done)

theorem act_brk_mem {buf : List Byte} {c : Byte} {r r' : Regs} {a : Act}
    (h : act buf c r a = .brk r') : a = .op_term ∨ a = .end_int ∨ a = .end_float ∨
      a = .end_quoted_uuid ∨ a = .end_bare_uuid := by
  have spec : ∀ i, setSpec r i ≠ .brk r' := by
    intro i hh
    unfold setSpec at hh
    split at hh <;> simp only [reduceCtorEq] at hh
  cases a
  case end_id => exact absurd h (spec 0)
  case end_ref => exact absurd h (spec 1)
  case end_quoted_uuid => simp
  case end_bare_uuid => simp
  case op_term => simp
  case end_int => simp
  case end_float => simp
  case end_spread =>
    simp only [act] at h
    split at h
    · simp only [reduceCtorEq] at h
    · split at h
      · split at h <;> simp only [reduceCtorEq] at h
      · simp only [reduceCtorEq] at h
  case variety =>
    simp only [act] at h
    split at h
    · simp only [reduceCtorEq] at h
    · split at h <;> simp only [reduceCtorEq] at h
  all_goals
    simp only [act] at h
    first
      | (simp only [reduceCtorEq] at h; done)
      | (split at h <;> simp only [reduceCtorEq] at h; done)

theorem acts_brk_act {buf : List Byte} {c : Byte} : ∀ (l : List Act) (r r' : Regs),
    acts buf c r l = .brk r' → ∃ a ∈ l, ∃ r1 r2, act buf c r1 a = .brk r2 := by
  intro l
  induction l with
  | nil => intro r r' h; simp only [acts, reduceCtorEq] at h
  | cons a l ih =>
    intro r r' h
    simp only [acts] at h
    cases he : act buf c r a with
    | cont r1 =>
      rw [he] at h
      obtain ⟨b, hb, h'⟩ := ih r1 r' h
      exact ⟨b, by simp [hb], h'⟩
    | brk r1 => exact ⟨a, by simp, r, r1, he⟩
    | abort => rw [he] at h; simp only [reduceCtorEq] at h
    | ub => rw [he] at h; simp only [reduceCtorEq] at h

theorem acts_brk {buf : List Byte} {c : Byte} {as : List Act} {r0 : Regs}
    (pre : Pre buf c as r0)
    (hfl : Act.end_float ∈ as → Act.begin_float ∉ as ∧
      (∀ x ∈ slice buf r0.floatb r0.p, isNumByte x = true) ∧ Plain buf r0.floatb r0.p) :
    ∀ (l : List Act) (r r' : Regs), (∀ a ∈ l, a ∈ as) → Mid buf r0 as r →
    (Act.begin_float ∉ as → r.floatb = r0.floatb) → acts buf c r l = .brk r' →
    (Act.op_term ∈ as ∧ r'.term = c.toNat) ∨ LongWord buf ∨ LongNumber buf := by
  intro l
  induction l with
  | nil => intro r r' _ _ _ h; simp only [acts, reduceCtorEq] at h
  | cons a l ih =>
    intro r r' hsub m hf h
    simp only [acts] at h
    have ha := hsub a (by simp)
    cases he : act buf c r a with
    | cont r1 =>
      rw [he] at h
      have m1 := act_mid pre a ha r m
      rw [he] at m1
      refine ih r1 r' (fun x hx => hsub x (by simp [hx])) m1 (fun hb => ?_) h
      rw [act_floatb he, if_neg (by intro e; rw [e] at ha; exact hb ha)]
      exact hf hb
    | brk r1 =>
      rw [he] at h
      simp only [Res.brk.injEq] at h
      subst h
      have := act_brk pre m ha (fun hx => by
        obtain ⟨h1, h2⟩ := hfl hx
        rw [hf h1, m.p]; exact h2) he
      rcases this with ⟨e, h⟩ | h
      · exact .inl ⟨e ▸ ha, h⟩
      · exact .inr h
    | abort => rw [he] at h; simp only [reduceCtorEq] at h
    | ub => rw [he] at h; simp only [reduceCtorEq] at h

theorem Inv.brk_term {buf : List Byte} {beg line0 s : Nat} {r : Regs} (i : Inv buf beg line0 s r)
    (fi : FInv buf s r)
    (hn : buf.length < 2 ^ 30) {c : Byte} (hc : buf[r.p]? = some c)
    {as : List Act} {t : Nat} (row : Row s c as t) (frow : FRow s c as t) {r' : Regs}
    (h : acts buf c r as = .brk r') :
    (Act.op_term ∈ as ∧ r'.term = c.toNat) ∨ LongWord buf ∨ LongNumber buf := by
  have nb : Act.begin_string ∉ as := by
    intro hb
    obtain ⟨f1, f2, f3, f4, f5⟩ := frow.str hb
    obtain ⟨a, ha, r1, r2, h1⟩ := acts_brk_act as r r' h
    rcases act_brk_mem h1 with e | e | e | e | e <;> subst e <;> contradiction
  exact acts_brk (i.pre hn hc row nb) (fun hx => ⟨(frow.fin hx).2, (fi (frow.fin hx).1).2⟩) as r r'
    (fun _ h => h) (i.mid row) (fun _ => rfl) h

/-- How the automaton stops: on a byte it has no transition for, at the end of the text, or
after a terminator. -/
theorem run_outcome {buf : List Byte} {beg line0 : Nat} (hn : buf.length < 2 ^ 30)
    (hw : ¬ LongWord buf) (hl : ¬ LongNumber buf) :
    ∀ (rest : List Byte) (s : Nat) (r : Regs), buf.drop r.p = rest → 1 ≤ s → s ≤ 75 →
    Inv buf beg line0 s r → FInv buf s r →
    ∃ s' r', run buf rest s r = .ok (s', r') ∧
      ((s' = 0 ∧ r'.term = 0 ∧ walk s rest = none) ∨
       (s' ≠ 0 ∧ r'.p = buf.length ∧ walk s rest = some s') ∨
       (s' = 74 ∧ r'.term ≠ 0)) := by
  intro rest
  induction rest with
  | nil =>
    intro s r hd h1 hs i fi
    refine ⟨s, r, rfl, .inr (.inl ⟨by omega, ?_, rfl⟩)⟩
    have := i.stop
    have := List.drop_eq_nil_iff.1 hd
    omega
  | cons c rest ih =>
    intro s r hd h1 hs i fi
    have hc := getElem?_of_drop hd
    have hlt := lt_of_drop hd
    have ht0 : r.term = 0 := by
      rcases i.term with e | ⟨_, e, _⟩
      · exact e
      · omega
    simp only [run, walk]
    cases hst : stepIn TextTable.rows s c with
    | none => exact ⟨0, r, rfl, .inl ⟨rfl, ht0, rfl⟩⟩
    | some x =>
      obtain ⟨as, t⟩ := x
      have row := row_of hst
      simp only
      cases he : acts buf c r as with
      | cont r' =>
        have hp := (acts_fields (.inl he)).p
        simp only
        refine ih t _ (by simp only [hp]; exact drop_succ_of hd)
          (by have := (step_target hst).1; omega) row.tgt.2 ?_ (fi.step (frow_of hst) hc i.quo he)
        apply i.step hn ht0 hc row he
        intro hot
        obtain ⟨_, _, as', rfl, _⟩ := row.term hot
        have := acts_term_last he
        omega
      | brk r' =>
        have hb := i.brk_term fi hn hc row (frow_of hst) he
        have hf := i.brk hn ht0 hc row he
        rcases hb with ⟨ho, hb⟩ | hb | hb
        · refine ⟨t, _, rfl, .inr (.inr ?_)⟩
          obtain ⟨e1, e2, _⟩ := row.term ho
          refine ⟨e2, ?_⟩
          simp only [hb]; omega
        · exact absurd hb hw
        · exact absurd hb hl
      | abort =>
        have := i.post hn hc row
        rw [he] at this; exact absurd this hw
      | ub =>
        have := i.post hn hc row
        rw [he] at this; exact this.elim

end TextParser

namespace Cursor

/-- The automaton accepts the whole text. -/
def WholeOk (buf : List Byte) : Prop :=
  ∃ t, walk TextTable.start buf = some t ∧ TextTable.firstFinal ≤ t

theorem floatInv_start {buf : List Byte} {cur : Cursor} :
    TextParser.FInv buf 74 (startRegs cur) := fun h => absurd h (by decide)

/-- Parsing the next op, from a place the automaton gets to. -/
theorem parseFrom_end {buf : List Byte} {cur cur' : Cursor} {st : NextStatus}
    (hn : buf.length < 2 ^ 30) (hw : ¬ LongWord buf) (hl : ¬ LongNumber buf)
    (h : Safe buf cur) (hq : cur.cs ≠ 0 ∨ cur.beg = 0)
    (hp : walk TextTable.start (buf.take cur.beg) = some 74)
    (he : parseFrom cur 74 = .ok (cur', st)) :
    (st = .ok ∧ cur'.cs = 74) ∨ (st = .endOfFrame ∧ WholeOk buf) ∨
      (st = .badState ∧ ¬ WholeOk buf) := by
  have hb := h.basic.buf
  have hwhole : walk TextTable.start buf = walk 74 (buf.drop cur.beg) := by
    have e := walk_append TextTable.start (buf.take cur.beg) (buf.drop cur.beg)
    rw [List.take_append_drop, hp] at e
    exact e
  unfold parseFrom at he
  split at he
  · rename_i hle
    simp only [Out.ok.injEq, Prod.mk.injEq] at he
    obtain ⟨_, rfl⟩ := he
    refine .inr (.inl ⟨rfl, 74, ?_, by decide⟩)
    rw [hwhole, List.drop_eq_nil_of_le (by rw [← hb]; exact hle)]
    rfl
  · obtain ⟨s', r', hr, hcase⟩ := TextParser.run_outcome (buf := buf) (beg := cur.beg)
      (line0 := cur.line) hn hw hl (buf.drop cur.beg) 74 (startRegs cur) rfl (by decide) (by decide)
      (h.inv hq) floatInv_start
    rw [hb, hr] at he
    simp only [Out.bind] at he
    have fc := finish_cases he
    rcases hcase with ⟨rfl, ht, hwk⟩ | ⟨h0, _, hwk⟩ | ⟨rfl, ht⟩
    · right; right
      have hnw : ¬ WholeOk buf := by
        rintro ⟨t, h1, _⟩
        rw [hwhole, hwk] at h1; cases h1
      refine ⟨?_, hnw⟩
      unfold finish at he
      simp only at he
      rw [if_neg (by simp), if_neg (by decide)] at he
      split at he
      · simp only [Out.ok.injEq, Prod.mk.injEq] at he; exact he.2.symm
      · cases he
    · by_cases ht : r'.term = 0
      · right
        unfold finish at he
        simp only at he
        rw [if_neg (by simp [ht])] at he
        split at he
        · rename_i hf
          simp only [Out.ok.injEq, Prod.mk.injEq] at he
          exact .inl ⟨he.2.symm, s', by rw [hwhole, hwk], hf⟩
        · rename_i hf
          right
          constructor
          · split at he
            · simp only [Out.ok.injEq, Prod.mk.injEq] at he; exact he.2.symm
            · cases he
          · rintro ⟨t, h1, h2⟩
            rw [hwhole, hwk] at h1
            cases h1
            exact hf h2
      · left
        unfold finish at he
        simp only at he
        rw [if_pos ⟨ht, h0⟩] at he
        cases hc : chr2term r'.term with
        | ok x =>
          rw [hc] at he
          simp only [Out.bind, Out.ok.injEq, Prod.mk.injEq] at he
          obtain ⟨rfl, rfl⟩ := he
          refine ⟨rfl, ?_⟩
          rcases TextParser.run_safe (buf := buf) (beg := cur.beg) (line0 := cur.line) hn
            (buf.drop cur.beg) 74 (startRegs cur) rfl (by decide) (h.inv hq) with ⟨_, e⟩ | ⟨s2, r2, e, f⟩
          · exact absurd e hw
          · rw [hr] at e
            simp only [Out.ok.injEq, Prod.mk.injEq] at e
            obtain ⟨rfl, rfl⟩ := e
            rcases f.term with e | ⟨e, _⟩
            · exact absurd e ht
            · exact e
        | abort => rw [hc] at he; cases he
        | ub => rw [hc] at he; cases he
    · left
      unfold finish at he
      simp only at he
      rw [if_pos ⟨ht, by decide⟩] at he
      cases hc : chr2term r'.term with
      | ok x =>
        rw [hc] at he
        simp only [Out.bind, Out.ok.injEq, Prod.mk.injEq] at he
        obtain ⟨rfl, rfl⟩ := he
        exact ⟨rfl, rfl⟩
      | abort => rw [hc] at he; cases he
      | ub => rw [hc] at he; cases he

/-- A cursor that has not failed: at the start, or in the state after an op. -/
def Live (cur : Cursor) : Prop := (cur.cs = 0 → cur.beg = 0) ∧ (cur.cs ≠ 0 → cur.cs = 74)

theorem next_end {buf : List Byte} {cur cur' : Cursor} {st : NextStatus}
    (hn : buf.length < 10 ^ 9 - 1) (hw : ¬ LongWord buf) (hl : ¬ LongNumber buf)
    (h : Safe buf cur) (hp : OnPath buf cur) (hv : Live cur)
    (he : next cur = .ok (cur', st)) :
    (st = .ok ∧ Live cur') ∨ (st = .endOfFrame ∧ WholeOk buf) ∨
      (st = .badState ∧ ¬ WholeOk buf) := by
  by_cases hs : cur.span = 0
  · have key : parseFrom cur 74 = .ok (cur', st) ∧
        walk TextTable.start (buf.take cur.beg) = some 74 ∧ (cur.cs ≠ 0 ∨ cur.beg = 0) := by
      unfold next at he
      rw [if_neg (by simp [hs])] at he
      by_cases hc : cur.cs = 0
      · rw [if_pos hc, if_neg (by simp [hv.1 hc])] at he
        exact ⟨he, (by rw [hv.1 hc]; rfl), .inr (hv.1 hc)⟩
      · rw [if_neg hc, if_neg (by rw [hv.2 hc]; decide), hv.2 hc] at he
        exact ⟨he, (by rw [hp hc, hv.2 hc]), .inl hc⟩
    rcases parseFrom_end (Nat.lt_trans hn (by decide)) hw hl h key.2.2 key.2.1 key.1 with ⟨h1, h2⟩ | h1
    · exact .inl ⟨h1, ⟨fun e => (by rw [h2] at e; cases e), fun _ => h2⟩⟩
    · exact .inr h1
  · obtain ⟨h1, _, h3, h4, _⟩ := next_span hs he
    refine .inl ⟨h1, ?_, ?_⟩
    · rw [h4, h3]; exact hv.1
    · rw [h4]; exact hv.2

theorem trail_end {buf : List Byte} (hn : buf.length < 10 ^ 9 - 1) (hw : ¬ LongWord buf)
    (hl : ¬ LongNumber buf) {cur : Cursor} {l : List Cursor} {st : NextStatus}
    (ht : Chains.Trail cur l st) (h : Safe buf cur) (hp : OnPath buf cur) (hv : Live cur) :
    st = .endOfFrame ↔ WholeOk buf := by
  induction ht with
  | stop he h0 =>
    rcases next_end hn hw hl h hp hv he with ⟨e, _⟩ | ⟨e, hx⟩ | ⟨e, hx⟩
    · exact absurd e h0
    · exact ⟨fun _ => hx, fun _ => e⟩
    · exact ⟨fun e' => (by rw [e] at e'; cases e'), fun h' => absurd h' hx⟩
  | @more c c' l st he _ ih =>
    have hs : Safe buf c' := by
      rcases next_safe hn h with ⟨e, _⟩ | ⟨c2, st', e, hs, _⟩
      · rw [he] at e; cases e
      · rw [he] at e
        simp only [Out.ok.injEq, Prod.mk.injEq] at e
        exact e.1 ▸ hs
    have hv' : Live c' := by
      rcases next_end hn hw hl h hp hv he with ⟨_, e⟩ | ⟨e, _⟩ | ⟨e, _⟩
      · exact e
      · cases e
      · cases e
    exact ih hs (next_path h.basic hp he).1 hv'

/-- What was consumed before the end-of-frame status is a frame. -/
theorem next_eof {buf : List Byte} {cur cur' : Cursor} (h : Safe buf cur) (hp : OnPath buf cur)
    (he : next cur = .ok (cur', .endOfFrame)) : WholeOk (buf.take cur'.beg) := by
  have key : ∀ s, s = 74 → walk TextTable.start (buf.take cur.beg) = some s →
      parseFrom cur s = .ok (cur', .endOfFrame) → WholeOk (buf.take cur'.beg) := by
    intro s hs hw he
    unfold parseFrom at he
    split at he
    · simp only [Out.ok.injEq, Prod.mk.injEq] at he
      obtain ⟨rfl, _⟩ := he
      exact ⟨s, hw, by rw [hs]; decide⟩
    · cases hr : TextParser.run cur.buf (cur.buf.drop cur.beg) s (startRegs cur) with
      | ok x =>
        obtain ⟨s', r'⟩ := x
        rw [hr] at he
        simp only [Out.bind] at he
        obtain ⟨_, e2, _⟩ := finish_cases he
        obtain ⟨p1, p2, _⟩ := TextParser.run_progress _ _ _ _ _ hr
        have hp0 : (startRegs cur).p = cur.beg := rfl
        rw [hp0] at p1 p2
        have hf : TextTable.firstFinal ≤ s' := by
          unfold finish at he
          simp only at he
          split at he
          · cases hc : chr2term r'.term with
            | ok t => rw [hc] at he; simp [Out.bind] at he
            | abort => rw [hc] at he; simp [Out.bind] at he
            | ub => rw [hc] at he; simp [Out.bind] at he
          · split at he
            · rename_i hf; exact hf
            · split at he <;> simp at he
        have hw' := TextParser.run_walk _ _ _ _ _ hr (by intro e; rw [e] at hf; exact absurd hf (by decide))
        rw [hp0, h.basic.buf] at hw'
        refine ⟨s', ?_, hf⟩
        rw [e2, show r'.p = cur.beg + (r'.p - cur.beg) by omega, List.take_add, walk_append, hw]
        exact hw'
      | abort => rw [hr] at he; simp [Out.bind] at he
      | ub => rw [hr] at he; simp [Out.bind] at he
  by_cases hs : cur.span = 0
  · unfold next at he
    rw [if_neg (by simp [hs])] at he
    rcases h.cs with hc | hc
    · rw [if_pos hc] at he
      by_cases hb : cur.beg = 0
      · rw [if_neg (by simp [hb])] at he
        exact key _ rfl (by rw [hb]; rfl) he
      · rw [if_pos hb] at he
        simp at he
    · rw [if_neg (by omega), if_neg (by omega)] at he
      exact key _ hc (hp (by omega)) he
  · have := (next_span hs he).1
    cases this

end Cursor
end Ron
