import Verif.Lemmas.TextAtomGo
/-!
The frame automaton over floats and UUIDs as values.
-/
namespace Ron
open Spec Act

attribute [local irreducible] Atom.type Atom.rBegin Atom.rEnd Atom.cp Atom.cpSize Atom.setCp
  Atom.setCpSize Atom.consume Atom.ofRange Atom.rawValid Uuid.inc

namespace TextParser

/-- What follows the integer part of a float. -/
inductive TailText : List Byte → Bool → Prop
  | frac (f : List Byte) (hf : Digits f) : TailText (46 :: f) false
  | fracExp (f x : List Byte) (hf : Digits f) (hx : ExpText x) : TailText (46 :: f ++ x) false
  | exp (x : List Byte) (hx : ExpText x) : TailText x true

theorem FloatText.parts {t : List Byte} (h : FloatText t) :
    ∃ s d x b, t = s ++ d ++ x ∧ SignText s ∧ Digits d ∧ TailText x b := by
  cases h with
  | frac s d f hs hd hf => exact ⟨s, d, _, _, rfl, hs, hd, .frac f hf⟩
  | fracExp s d f x hs hd hf hx =>
    exact ⟨s, d, _, _, by rw [List.append_assoc (s ++ d)], hs, hd, .fracExp f x hf hx⟩
  | exp s d x hs hd hx => exact ⟨s, d, _, _, rfl, hs, hd, .exp x hx⟩

theorem go_exp {buf : List Byte} {m : Nat} (hm : m = 22 ∨ m = 24 ∨ m = 34) {x rest : List Byte} {r : Regs}
    (hx : ExpText x) (hb : buf.drop r.p = x ++ rest) :
    Goes buf m r x 37 { r with p := r.p + x.length } := by
  cases hx with
  | mk e s d he hs hd =>
    have hst : stepIn TextTable.rows m e = some ([], 35) := by
      rcases hm with rfl | rfl | rfl <;> rcases he with rfl | rfl <;> decide +kernel
    have g := go_silent (rest := s ++ d ++ rest) (by simpa using hb) hst
    have hb1 := g.drop (rest := s ++ d ++ rest) (by simpa using hb)
    have key : ∀ q : Byte, s = [q] → stepIn TextTable.rows 35 q = some ([], 36) →
        Goes buf m r (e :: (s ++ d)) 37 { r with p := r.p + (e :: (s ++ d)).length } := by
      intro q hq hstq
      subst hq
      have hb1' : buf.drop (r.p + 1) = q :: (d ++ rest) := by simpa using hb1
      have g1 := go_silent (r := { r with p := r.p + 1 }) hb1' hstq
      have g2 := go_digs (s := 36) (t := 37) (by decide +kernel) (by decide +kernel) d _ _ hd
        (g1.drop (w := [q]) hb1')
      have gg := (g.trans g1).trans g2
      rw [show r.p + (e :: ([q] ++ d)).length = r.p + 1 + 1 + d.length by simp; omega]
      exact gg
    cases hs with
    | none =>
      have g2 := go_digs (s := 35) (t := 37) (by decide +kernel) (by decide +kernel) d rest
        { r with p := r.p + 1 } hd (by simpa using hb1)
      have gg := g.trans g2
      rw [show r.p + (e :: ([] ++ d)).length = r.p + 1 + d.length by simp; omega]
      exact gg
    | plus => exact key 43 rfl (by decide +kernel)
    | minus => exact key 45 rfl (by decide +kernel)

theorem go_frac {buf : List Byte} {m : Nat} (hm : m = 22 ∨ m = 34 ∨ m = 40 ∨ m = 45) {f rest : List Byte} {r : Regs}
    (hf : Digits f) (hb : buf.drop r.p = 46 :: (f ++ rest)) :
    Goes buf m r (46 :: f) 24 { r with p := r.p + (46 :: f).length } := by
  have hst : stepIn TextTable.rows m 46 = some ([], 23) := by
    rcases hm with rfl | rfl | rfl | rfl <;> decide +kernel
  have g := go_silent hb hst
  have g2 := go_digs (s := 23) (t := 24) (by decide +kernel) (by decide +kernel) f _ _ hf
    (g.drop (by simpa using hb))
  have gg := g.trans g2
  rw [show r.p + (46 :: f).length = r.p + 1 + f.length by simp; omega]
  exact gg

theorem go_tail {buf : List Byte} {m : Nat} {x rest : List Byte} {b : Bool}
    (hm : m = 22 ∨ m = 34 ∨ ((m = 40 ∨ m = 45) ∧ b = false)) {r : Regs} (hx : TailText x b)
    (hb : buf.drop r.p = x ++ rest) :
    ∃ t, (t = 24 ∨ t = 37) ∧ Goes buf m r x t { r with p := r.p + x.length } := by
  cases hx with
  | frac f hf =>
    exact ⟨24, .inl rfl, go_frac (rest := rest) (by omega) hf (by simpa using hb)⟩
  | fracExp f x hf hx =>
    have g := go_frac (m := m) (rest := x ++ rest) (by omega) hf (by simpa using hb)
    have g2 := go_exp (m := 24) (rest := rest) (.inr (.inl rfl)) hx (g.drop (by simpa using hb))
    refine ⟨37, .inr rfl, ?_⟩
    have gg := g.trans g2
    rw [show r.p + (46 :: f ++ x).length = r.p + (46 :: f).length + x.length by simp; omega]
    exact gg
  | exp x hx =>
    refine ⟨37, .inr rfl, go_exp (rest := rest) ?_ hx hb⟩
    rcases hm with h | h | ⟨_, h⟩
    · exact .inl h
    · exact .inr (.inr h)
    · cases h

/-- The end of a float. -/
theorem push_float {buf : List Byte} {s t : Nat} {r r1 : Regs}
    {w : List Byte} {c : Byte} {rest : List Byte} (hne : w ≠ []) (hl : FloatLit w)
    (g : Goes buf s r w t r1) (k : Keep r r1) (hi : r1.floatb = r.p) (ht : t = 24 ∨ t = 37)
    (hb : buf.drop r.p = w ++ c :: rest) (hc : isFollow c = true) :
    Pushes buf s r w (.float w) := by
  have hp := g.p
  have hl24 := hl.2
  have hlv : leaves isFollow t [end_float] 3 = true := by
    rcases ht with rfl | rfl <;> decide +kernel
  have ha : acts buf c r1 [end_float] =
      .cont { r1 with op := r1.op ++ [Atom.ofRange Atom.tFLOAT r1.floatb r1.p] } := by
    simp only [acts, act]
    rw [if_neg (by omega), if_neg (by omega)]
  have g2 := go_leave hlv (g.drop hb) hc ha
  have gg := g.trans g2
  rw [List.append_nil] at gg
  refine ⟨_, Atom.ofRange Atom.tFLOAT r1.floatb r1.p, gg, by simp [k.op],
    k.span, k.term, fun hn => shows_float hn (by rw [hi]; exact hb) (by rw [hi]; exact hp) hne hl⟩

theorem FloatText.ne {t : List Byte} (h : FloatText t) : t ≠ [] := by
  cases h with
  | frac s d f hs hd hf => simp
  | fracExp s d f x hs hd hf hx => simp
  | exp s d x hs hd hx => cases hx; simp

theorem Digits.word {d : List Byte} (h : Digits d) : IsWord d :=
  ⟨h.1, fun c hc => by
    have := h.2 c hc
    unfold IsDigit at this
    unfold isB64
    simp; omega⟩

/-- An unsigned float without a fraction is a UUID text as well. -/
theorem exp_uuid {d x : List Byte} (hd : Digits d) (hx : ExpText x) :
    ∃ vr v ver o, UuidText (d ++ x) vr v ver o := by
  cases hx with
  | mk e s f he hs hf =>
    have hw := Digits.word hd
    have hwf := Digits.word hf
    have heb : isB64 e = true := by rcases he with rfl | rfl <;> decide
    have hde : IsWord (d ++ [e]) := ⟨by simp, fun c hc => by
      simp only [List.mem_append, List.mem_singleton] at hc
      rcases hc with hc | rfl
      · exact hw.2 c hc
      · exact heb⟩
    have key : ∀ q : Byte, isSep q = true → s = [q] → ∃ vr v ver o,
        UuidText (d ++ e :: (s ++ f)) vr v ver o := by
      intro q hq hs
      subst hs
      exact ⟨0, d ++ [e], sepCode q, f, ⟨⟨[], q :: f, by simp, .none, .some q f hq hwf⟩, hde⟩⟩
    cases hs with
    | none =>
      refine ⟨0, d ++ e :: f, 0, [], ⟨⟨[], [], by simp, .none, .none⟩, by simp, ?_⟩⟩
      intro c hc
      simp only [List.mem_append, List.mem_cons] at hc
      rcases hc with hc | rfl | hc
      · exact hw.2 c hc
      · exact heb
      · exact hwf.2 c hc
    | plus => exact key 43 (by decide) rfl
    | minus => exact key 45 (by decide) rfl

theorem SignText.cases {s : List Byte} (h : SignText s) : s = [] ∨ ∃ q, s = [q] ∧ isSignB q = true := by
  cases h with
  | none => exact .inl rfl
  | plus => exact .inr ⟨43, rfl, by decide⟩
  | minus => exact .inr ⟨45, rfl, by decide⟩

theorem bare_float {buf : List Byte} {s : Nat} (hs : s ∈ bareStates)
    {r : Regs} {w : List Byte} {c : Byte} {rest : List Byte} (h : FloatLit w)
    (hu : ¬ ∃ vr v ver o, UuidText w vr v ver o)
    (hb : buf.drop r.p = w ++ c :: rest) (hc : isFollow c = true) : Pushes buf s r w (.float w) := by
  have hl := h
  have ht := h.1
  have hne := FloatText.ne ht
  obtain ⟨sg, d, x, b, rfl, hsg, hd, hx⟩ := FloatText.parts ht
  rcases SignText.cases hsg with rfl | ⟨q, rfl, hq⟩
  · have hbf : b = false := by
      cases hx with
      | frac => rfl
      | fracExp => rfl
      | exp x hx => exact absurd (exp_uuid hd hx) hu
    obtain ⟨t, r1, ht, g, k, e1, e2, e3⟩ := go_bare_digits (r := r) (rest := x ++ c :: rest) hs hd
      (by simpa using hb)
    obtain ⟨t2, ht2, g2⟩ := go_tail (rest := c :: rest) (.inr (.inr ⟨ht, hbf⟩)) hx
      (g.drop (by simpa using hb))
    exact push_float hne hl (g.trans g2) ⟨k.op, k.span, k.term⟩ e2 ht2 hb hc
  · have tb : bareStates.all (fun s => stepsAll isSignB s [begin_int, begin_float] 21) = true := by
      decide +kernel
    have g := go_step (rest := d ++ x ++ c :: rest) (r := r) (by simpa using hb)
      (of_stepsAll ((List.all_eq_true.1 tb) s hs) hq) rfl
    have hb1 := g.drop (rest := d ++ (x ++ c :: rest)) (by simpa using hb)
    have g2 := go_digs (s := 21) (t := 22) (by decide +kernel) (by decide +kernel) d _ _ hd hb1
    obtain ⟨t3, ht3, g3⟩ := go_tail (rest := c :: rest) (.inl rfl) hx (g2.drop hb1)
    exact push_float hne hl ((g.trans g2).trans g3) ⟨rfl, rfl, rfl⟩ rfl ht3 hb hc

theorem quoted_float {buf : List Byte} {s : Nat} (hs : s ∈ restStates)
    {r : Regs} {u w : List Byte} {c : Byte} {rest : List Byte} (hu : Blank u)
    (h : FloatLit w) (hb : buf.drop r.p = 94 :: (u ++ w) ++ c :: rest) (hc : isFollow c = true) :
    Pushes buf s r (94 :: (u ++ w)) (.float w) := by
  obtain ⟨r1, g1, k1⟩ := open_blank (q := 94) (t := 32) hs (by decide) (by decide) hu
    (rest := w ++ c :: rest) (by simpa using hb)
  have hb1 := g1.drop (rest := w ++ c :: rest) (by simpa using hb)
  refine Pushes.prepend (w := 94 :: u) g1 k1 ?_
  have hl := h
  have ht := h.1
  have hne := FloatText.ne ht
  obtain ⟨sg, d, x, b, rfl, hsg, hd, hx⟩ := FloatText.parts ht
  rcases SignText.cases hsg with rfl | ⟨q, rfl, hq⟩
  · have hgo : ∃ r2, Goes buf 32 r1 d 34 r2 ∧ Keep r1 r2 ∧ r2.floatb = r1.p := by
      cases d with
      | nil => exact absurd rfl hd.1
      | cons y d =>
        have hst : stepIn TextTable.rows 32 y = some ([begin_float], 34) :=
          of_stepsAll (by decide +kernel) ((isDigitB_iff y).2 (hd.2 y (by simp)))
        have g := go_step (rest := d ++ (x ++ c :: rest)) (r := r1) (by simpa using hb1) hst rfl
        cases hdd : d with
        | nil => exact ⟨_, g, ⟨rfl, rfl, rfl⟩, rfl⟩
        | cons z zs =>
          rw [← hdd]
          have g2 := go_digs (s := 34) (t := 34) (by decide +kernel) (by decide +kernel) d _ _
            ⟨by simp [hdd], fun x hx => hd.2 x (by simp [hx])⟩ (g.drop (by simpa using hb1))
          exact ⟨_, g.trans g2, ⟨rfl, rfl, rfl⟩, rfl⟩
    obtain ⟨r2, g2, k2, e2⟩ := hgo
    obtain ⟨t3, ht3, g3⟩ := go_tail (rest := c :: rest) (.inr (.inl rfl)) hx
      (g2.drop (by simpa using hb1))
    exact push_float hne hl (g2.trans g3) ⟨k2.op, k2.span, k2.term⟩ e2 ht3 hb1 hc
  · have hst : stepIn TextTable.rows 32 q = some ([begin_float], 33) :=
      of_stepsAll (by decide +kernel) hq
    have g := go_step (rest := d ++ (x ++ c :: rest)) (r := r1) (by simpa using hb1) hst rfl
    have hb2 := g.drop (rest := d ++ (x ++ c :: rest)) (by simpa using hb1)
    have g2 := go_digs (s := 33) (t := 34) (by decide +kernel) (by decide +kernel) d _ _ hd hb2
    obtain ⟨t3, ht3, g3⟩ := go_tail (rest := c :: rest) (.inr (.inl rfl)) hx (g2.drop hb2)
    exact push_float hne hl ((g.trans g2).trans g3) ⟨rfl, rfl, rfl⟩ rfl ht3 hb1 hc

end TextParser
end Ron
