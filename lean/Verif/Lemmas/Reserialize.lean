import Verif.Lemmas.TextState
import Verif.Lemmas.TextChain
import Verif.Model.Reserialize
/-!
Chains are written out as frames.
-/
namespace Ron.Reserialize
open Ron Spec TextMerge

/-- The cursor is at the first of the ops, and the input ends after the last one. -/
def WholeAt (c : Cursor) (l : List (Nat × OpView)) : Prop :=
  ∃ x xs m, l = x :: xs ∧ Chains.Trail c m .endOfFrame ∧ At c x ∧ Same2 At m xs

theorem trail_det {c : Cursor} {l l' : List Cursor} {st st' : Cursor.NextStatus} (h : Chains.Trail c l st)
    (h' : Chains.Trail c l' st') : l = l' ∧ st = st' := by
  induction h generalizing l' st' with
  | stop h h0 =>
    cases h' with
    | stop k k0 => rw [h] at k; cases k; exact ⟨rfl, rfl⟩
    | more k _ => rw [h] at k; cases k; exact absurd rfl h0
  | more h _ ih =>
    cases h' with
    | stop k k0 => rw [h] at k; cases k; exact absurd rfl k0
    | more k t =>
      rw [h] at k; cases k
      obtain ⟨e1, e2⟩ := ih t
      exact ⟨by rw [e1], e2⟩

theorem whole_of {c : Cursor} {l : List (Nat × OpView)} (h : Starts At c l) {ops : List OpView}
    (h' : ChainOps c ops .endOfFrame) : WholeAt c l := by
  obtain ⟨x, xs, rfl, m, st, ht, hd, hm⟩ := h
  obtain ⟨fuel, l', h1, -⟩ := h'
  obtain ⟨rfl, rfl⟩ := trail_det ht (Chains.trail_of_iterate _ _ _ _ h1)
  exact ⟨x, xs, m, rfl, ht, hd, hm⟩

/-- The inner loop does the work of appending the ops. -/
theorem ops_work {c : Cursor} {m : List Cursor} {st : Cursor.NextStatus} (h : Chains.Trail c m st) :
    ∀ {b b' : Builder}, Builder.doWork ((c :: m).map workOf) b = .ok b' → ∀ {n : Nat}, m.length < n →
    ops n b c = .ok (some (b', st)) := by
  induction h with
  | stop hn h0 =>
    intro b b' hw n hlt
    match n, hlt with
    | n + 1, _ =>
    rw [List.map_cons] at hw
    obtain ⟨b1, w1, w2⟩ := TextMerge.work_cons hw
    rw [List.map_nil, Builder.doWork] at w2
    injection w2 with w2
    subst w2
    rw [ops, w1, Op.obind, hn, Op.obind]
    simp only
    rw [if_neg h0]
  | more hn _ ih =>
    intro b b' hw n hlt
    match n, hlt with
    | n + 1, hlt =>
    rw [List.map_cons] at hw
    obtain ⟨b1, w1, w2⟩ := TextMerge.work_cons hw
    rw [ops, w1, Op.obind, hn, Op.obind]
    simp only [if_true]
    exact ih w2 (by rw [List.length_cons] at hlt; omega)

theorem works_fit {cs : List Cursor} {l : List (Nat × OpView)} (h : Same2 At cs l) :
    Same2 (Builder.Fits copyHeadOk) (cs.map workOf) ((l.map Prod.snd).map Step.op) ∧
    ∀ w ∈ cs.map workOf, Builder.WholeWork w := by
  induction h with
  | nil => exact ⟨.nil, by simp⟩
  | cons h _ ih =>
    refine ⟨.cons (at_fits h) ih.1, ?_⟩
    intro w hw
    rw [List.map_cons] at hw
    rcases List.mem_cons.1 hw with rfl | hw
    · exact at_whole h
    · exact ih.2 w hw

theorem same2_len {α β : Type} {R : α → β → Prop} {l : List α} {m : List β} (h : Same2 R l m) : l.length = m.length := by
  induction h with
  | nil => rfl
  | cons _ _ ih => simp [ih]

/-- A frame reads as the ops of the input. -/
def Written (text : List Byte) (l : List (Nat × OpView)) : Prop :=
  FrameText Uuid.NIL text (saidBy ((l.map Prod.snd).map Step.op)) ∧ NoOverlong text

theorem one_frame {c : Cursor} {l : List (Nat × OpView)} (h : WholeAt c l)
    (hc : CleanFrom copyHeadOk ((l.map Prod.snd).map Step.op)) (hl : l.length < 2 ^ 32) :
    ∃ b text b', (∀ n, l.length ≤ n → ops n Builder.init c = .ok (some (b, .endOfFrame))) ∧ b.release = .ok (text, b') ∧
      Written text l := by
  obtain ⟨x, xs, m, rfl, ht, hd, hm⟩ := h
  obtain ⟨f1, f2⟩ := works_fit (.cons hd hm)
  obtain ⟨b, text, b', w1, w2, w3, w4⟩ := Builder.work_whole f1 hc (by simpa using hl)
  refine ⟨b, text, b', fun n hn => ops_work ht w1 ?_, w2, w3, w4 f2⟩
  rw [same2_len hm]
  rw [List.length_cons] at hn
  omega

/-- All of them are written out. -/
theorem frames_ok {what : List Cursor} {xss : List (List (Nat × OpView))} (h : Same2 WholeAt what xss) :
    (∀ l ∈ xss, CleanFrom copyHeadOk ((l.map Prod.snd).map Step.op) ∧ l.length < 2 ^ 32) →
    ∃ texts, Same2 Written texts xss ∧ ∀ n, (∀ l ∈ xss, l.length ≤ n) → ∀ into,
      frames n into what = .ok (some (Status.OK, into ++ texts)) := by
  induction h with
  | nil => intro _; exact ⟨[], .nil, fun n _ into => by rw [frames, List.append_nil]⟩
  | cons h _ ih =>
    intro ha
    obtain ⟨a1, a2⟩ := ha _ (List.mem_cons_self ..)
    obtain ⟨b, text, b', o1, o2, o3⟩ := one_frame h a1 a2
    obtain ⟨texts, t1, t2⟩ := ih fun l hl => ha l (by simp [hl])
    refine ⟨text :: texts, .cons o3 t1, fun n hn into => ?_⟩
    rw [frames, o1 n (hn _ (by simp)), Op.obind]
    simp only
    rw [if_neg (by simp), o2, Op.obind, t2 n (fun l hl => hn l (by simp [hl]))]
    simp

/-- Consecutive ops are clean, but for the runs. -/
theorem consecutive_clean : ∀ {p : Uuid} {l : List OpView} {pv : List View} {mid : Bool},
    (∀ o m, l = o :: m → o.ref = p) → Consecutive l →
    (∀ o m, l = o :: m → folds p pv o = true → mid = true ∨ copyHeadOk pv = true) →
    PlainRuns l → CleanSteps copyHeadOk p pv false mid (l.map Step.op)
  | _, [], _, _, _, _, _, _ => trivial
  | p, o :: l, pv, mid, hp, h, hf, hr => by
    refine ⟨fun _ => hp o l rfl, fun h => ⟨rfl, hf o l rfl h⟩, consecutive_clean ?_ ?_ ?_ ?_⟩
    · intro q m e
      subst e
      exact h [] o q m rfl
    · intro pre v w post e
      exact h (o :: pre) v w post (by rw [e]; rfl)
    · intro q m e h'
      subst e
      exact .inr (hr.1 h')
    · cases l with
      | nil => exact trivial
      | cons a l => exact hr.2

theorem chain_clean {l : List OpView} (h : Consecutive l) (hx : ∀ o ∈ l, o.id ≠ Uuid.NIL.inc) (hr : PlainRuns l) :
    CleanFrom copyHeadOk (l.map Step.op) := by
  cases l with
  | nil => exact trivial
  | cons x l =>
    have hne := hx x (by simp)
    refine ⟨fun e => absurd e hne, fun e => ?_, consecutive_clean ?_ ?_ ?_ ?_⟩
    · unfold folds follows at e
      simp only [hne, decide_false, Bool.false_and] at e
      cases e
    · intro q m e
      subst e
      exact h [] x q m rfl
    · intro pre v w post e
      exact h (x :: pre) v w post (by rw [e]; rfl)
    · intro q m e h'
      subst e
      exact .inr (hr.1 h')
    · cases l with
      | nil => exact trivial
      | cons a l => exact hr.2

theorem ops_mono : ∀ {n : Nat} {b : Builder} {c : Cursor} {r : Builder × Cursor.NextStatus},
    ops n b c = .ok (some r) → ∀ j, ops (n + j) b c = .ok (some r)
  | 0, _, _, _, h, _ => by simp [ops] at h
  | n + 1, b, c, r, h, j => by
    rw [show n + 1 + j = (n + j) + 1 by omega]
    rw [ops] at h ⊢
    obtain ⟨b1, h1, h⟩ := Cursor.bind_ok h
    obtain ⟨r1, h2, h⟩ := Cursor.bind_ok h
    rw [h1, Op.obind, h2, Op.obind]
    split
    · rename_i e
      rw [if_pos e] at h
      exact ops_mono h j
    · rename_i e
      rw [if_neg e] at h
      exact h

theorem frames_mono {n : Nat} : ∀ {what : List Cursor} {into : List (List Byte)} {r : Status × List (List Byte)},
    frames n into what = .ok (some r) → ∀ j, frames (n + j) into what = .ok (some r)
  | [], _, _, h, _ => h
  | c :: what, into, r, h, j => by
    rw [frames] at h ⊢
    obtain ⟨x, h1, h⟩ := Cursor.bind_ok h
    cases x with
    | none => simp at h
    | some x =>
      obtain ⟨b, st⟩ := x
      rw [ops_mono h1 j, Op.obind]
      simp only at h ⊢
      split
      · rename_i e
        rw [if_pos e] at h
        exact h
      · rename_i e
        rw [if_neg e] at h
        obtain ⟨t, h2, h⟩ := Cursor.bind_ok h
        rw [h2, Op.obind]
        exact frames_mono h j

end Ron.Reserialize
