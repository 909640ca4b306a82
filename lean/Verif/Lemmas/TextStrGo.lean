import Verif.Lemmas.TextUuidGo
/-!
The frame automaton over strings, as values and as spreads.
-/
namespace Ron
open Spec Act

attribute [local irreducible] Atom.type Atom.rBegin Atom.rEnd Atom.cp Atom.cpSize Atom.setCp
  Atom.setCpSize Atom.consume Atom.ofRange Atom.rawValid Uuid.inc

namespace TextParser

/-- The states of a string: after the quote, after a character, after a backslash, after `u` and
the hex digits, inside longer characters, after the closing quote. -/
structure SFam where
  o : Nat
  b : Nat
  e : Nat
  u : Nat
  h1 : Nat
  h2 : Nat
  h3 : Nat
  h4 : Nat
  l2 : Nat
  l3 : Nat
  l4 : Nat
  close : Nat

/-- A string as a value. -/
def sVal : SFam := ⟨1, 2, 51, 52, 53, 54, 55, 56, 57, 58, 59, 3⟩
/-- The string of a spread. -/
def sSpan : SFam := ⟨6, 7, 11, 12, 13, 14, 15, 16, 17, 18, 19, 8⟩

/-- What is still to be done between two characters. -/
def SFam.pending (f : SFam) : List (Nat × List Act) :=
  [(f.o, [begin_string]), (f.b, [end_cp]), (f.h4, [string_uesc, end_cp])]

/-- The table has these states. -/
def SFam.ok (f : SFam) : Bool :=
  (f.pending.all fun x =>
    stepsAll CpParser.lead1 x.1 (x.2 ++ [string_lead1]) f.b &&
    stepsAll CpParser.lead2 x.1 (x.2 ++ [string_lead2]) f.l2 &&
    stepsAll CpParser.lead3 x.1 (x.2 ++ [string_lead3]) f.l3 &&
    stepsAll CpParser.lead4 x.1 (x.2 ++ [string_lead4]) f.l4 &&
    decide (stepIn TextTable.rows x.1 92 = some (x.2, f.e)) &&
    decide (stepIn TextTable.rows x.1 39 = some (x.2 ++ [end_string], f.close))) &&
  stepsAll Utf8Parser.isCont f.l2 [string_cont] f.b &&
  stepsAll Utf8Parser.isCont f.l3 [string_cont] f.l2 &&
  stepsAll Utf8Parser.isCont f.l4 [string_cont] f.l3 &&
  (escapes.all fun x => decide (stepIn TextTable.rows f.e x.1 = some ([string_esc], f.b))) &&
  decide (stepIn TextTable.rows f.e 117 = some ([], f.u)) &&
  stepsAll isHexDigit f.u [] f.h1 && stepsAll isHexDigit f.h1 [] f.h2 &&
  stepsAll isHexDigit f.h2 [] f.h3 && stepsAll isHexDigit f.h3 [] f.h4

theorem sVal_ok : sVal.ok = true := by decide +kernel
theorem sSpan_ok : sSpan.ok = true := by decide +kernel

/-- Between two characters of a string that began at `b`, after `n` of them (the count wraps in
larger frames). -/
def Between (f : SFam) (buf : List Byte) (b n s : Nat) (r : Regs) : Prop :=
  ∃ P, (s, P) ∈ f.pending ∧ ∀ c, ∃ r1, acts buf c r P = .cont r1 ∧ r1.p = r.p ∧ r1.strb = b ∧
    (buf.length < 2 ^ 30 → r1.cpSize = n) ∧ Keep r r1

theorem step_append {buf : List Byte} {s t : Nat} {r r1 : Regs} {c : Byte} {rest : List Byte}
    {P as : List Act} (hb : buf.drop r.p = c :: rest)
    (hs : stepIn TextTable.rows s c = some (P ++ as, t)) (hP : acts buf c r P = .cont r1)
    (ha : acts buf c r1 as = .cont r1) : Goes buf s r [c] t { r1 with p := r1.p + 1 } :=
  go_step hb hs (by rw [acts_append, hP]; exact ha)

/-- One character. -/
theorem go_cp {f : SFam} (hf : f.ok = true) {buf : List Byte} {b n s : Nat} {r : Regs}
    (h : Between f buf b n s r) {w rest : List Byte} {x : Nat × Bool} (hx : CpText w x)
    (hb : buf.drop r.p = w ++ rest) (hn : buf.length < 2 ^ 30 → n + 1 < 2 ^ 32) :
    ∃ s' r', Goes buf s r w s' r' ∧ Between f buf b (n + 1) s' r' ∧ Keep r r' := by
  unfold SFam.ok at hf
  simp only [Bool.and_eq_true, List.all_eq_true, decide_eq_true_eq] at hf
  obtain ⟨⟨⟨⟨⟨⟨⟨⟨⟨t0, tc2⟩, tc3⟩, tc4⟩, te⟩, tu⟩, th1⟩, th2⟩, th3⟩, th4⟩ := hf
  obtain ⟨P, hm, hP⟩ := h
  obtain ⟨⟨⟨⟨⟨t1, t2⟩, t3⟩, t4⟩, tb⟩, -⟩ := t0 _ hm
  -- the character is over in the state `f.b`
  have fin : ∀ r2 : Regs, r2.strb = b → (buf.length < 2 ^ 30 → r2.cpSize = n) →
      Between f buf b (n + 1) f.b r2 := by
    intro r2 e1 e2
    refine ⟨[end_cp], by simp [SFam.pending], fun c => ⟨_, rfl, rfl, e1, fun h => ?_,
      ⟨rfl, rfl, rfl⟩⟩⟩
    simp only [e2 h]
    rw [Nat.mod_eq_of_lt (hn h)]
  cases hx with
  | @char bs cp h hp =>
    cases h with
    | one a h =>
      have h1 : CpParser.lead1 a = true := by
        unfold CpParser.lead1; rw [hp a (by simp)]; simp; omega
      obtain ⟨r1, a1, a2, a3, a4, k⟩ := hP a
      have g := step_append (rest := rest) (by simpa using hb) (of_stepsAll t1 h1) a1 rfl
      exact ⟨f.b, _, g, fin _ a3 a4, ⟨k.op, k.span, k.term⟩⟩
    | two a c ha hc =>
      have h1 : CpParser.lead2 a = true := by unfold CpParser.lead2; simp; omega
      have h2 := (Utf8Parser.isCont_iff c).2 hc
      obtain ⟨r1, a1, a2, a3, a4, k⟩ := hP a
      have g := step_append (rest := c :: rest) (by simpa using hb) (of_stepsAll t2 h1) a1 rfl
      have hb1 := g.drop (rest := c :: rest) (by simpa using hb)
      have g2 := go_step hb1 (of_stepsAll tc2 h2) rfl
      exact ⟨f.b, _, g.trans g2, fin _ a3 a4, ⟨k.op, k.span, k.term⟩⟩
    | three a c d ha hc hd =>
      have h1 : CpParser.lead3 a = true := by unfold CpParser.lead3; simp; omega
      have h2 := (Utf8Parser.isCont_iff c).2 hc
      have h3 := (Utf8Parser.isCont_iff d).2 hd
      obtain ⟨r1, a1, a2, a3, a4, k⟩ := hP a
      have g := step_append (rest := c :: d :: rest) (by simpa using hb) (of_stepsAll t3 h1) a1 rfl
      have hb1 := g.drop (rest := c :: d :: rest) (by simpa using hb)
      have g2 := go_step hb1 (of_stepsAll tc3 h2) rfl
      have hb2 := g2.drop (rest := d :: rest) (by simpa using hb1)
      have g3 := go_step hb2 (of_stepsAll tc2 h3) rfl
      exact ⟨f.b, _, (g.trans g2).trans g3, fin _ a3 a4, ⟨k.op, k.span, k.term⟩⟩
    | four a c d e ha hc hd he =>
      have h1 : CpParser.lead4 a = true := by unfold CpParser.lead4; simp; omega
      have h2 := (Utf8Parser.isCont_iff c).2 hc
      have h3 := (Utf8Parser.isCont_iff d).2 hd
      have h4 := (Utf8Parser.isCont_iff e).2 he
      obtain ⟨r1, a1, a2, a3, a4, k⟩ := hP a
      have g := step_append (rest := c :: d :: e :: rest) (by simpa using hb) (of_stepsAll t4 h1) a1 rfl
      have hb1 := g.drop (rest := c :: d :: e :: rest) (by simpa using hb)
      have g2 := go_step hb1 (of_stepsAll tc4 h2) rfl
      have hb2 := g2.drop (rest := d :: e :: rest) (by simpa using hb1)
      have g3 := go_step hb2 (of_stepsAll tc3 h3) rfl
      have hb3 := g3.drop (rest := e :: rest) (by simpa using hb2)
      have g4 := go_step hb3 (of_stepsAll tc2 h4) rfl
      exact ⟨f.b, _, ((g.trans g2).trans g3).trans g4, fin _ a3 a4, ⟨k.op, k.span, k.term⟩⟩
  | esc e v h =>
    obtain ⟨r1, a1, a2, a3, a4, k⟩ := hP 92
    have g := go_step (rest := e :: rest) (by simpa using hb) tb a1
    have hb1 := g.drop (rest := e :: rest) (by simpa using hb)
    have g2 := go_step hb1 (te _ h) rfl
    exact ⟨f.b, _, g.trans g2, fin _ a3 a4, ⟨k.op, k.span, k.term⟩⟩
  | uni i j l m hi hj hl hm2 =>
    obtain ⟨r1, a1, a2, a3, a4, k⟩ := hP 92
    have g := go_step (rest := 117 :: i :: j :: l :: m :: rest) (by simpa using hb) tb a1
    have hb1 := g.drop (rest := 117 :: i :: j :: l :: m :: rest) (by simpa using hb)
    have g2 := go_silent hb1 tu
    have hb2 := g2.drop (rest := i :: j :: l :: m :: rest) (by simpa using hb1)
    have g3 := go_silent hb2 (of_stepsAll th1 hi)
    have hb3 := g3.drop (rest := j :: l :: m :: rest) (by simpa using hb2)
    have g4 := go_silent hb3 (of_stepsAll th2 hj)
    have hb4 := g4.drop (rest := l :: m :: rest) (by simpa using hb3)
    have g5 := go_silent hb4 (of_stepsAll th3 hl)
    have hb5 := g5.drop (rest := m :: rest) (by simpa using hb4)
    have g6 := go_silent hb5 (of_stepsAll th4 hm2)
    refine ⟨f.h4, _, ((((g.trans g2).trans g3).trans g4).trans g5).trans g6, ?_,
      ⟨k.op, k.span, k.term⟩⟩
    refine ⟨[string_uesc, end_cp], by simp [SFam.pending], fun c =>
      ⟨{ r1 with p := r1.p + 1 + 1 + 1 + 1 + 1 + 1, cpSize := (r1.cpSize + 1) % 2 ^ 32 }, ?_, rfl, a3,
      fun h => ?_, ⟨rfl, rfl, rfl⟩⟩⟩
    · simp only [acts, act]
      rw [if_neg (by omega)]
    · simp only [a4 h]
      rw [Nat.mod_eq_of_lt (hn h)]

/-- The characters of a string. -/
theorem go_str {f : SFam} (hf : f.ok = true) {buf : List Byte}
    {w : List Byte} {xs : List (Nat × Bool)}
    (hx : StrText w xs) : ∀ {b n s : Nat} {r : Regs}, Between f buf b n s r →
    ∀ {rest : List Byte}, buf.drop r.p = w ++ rest → n ≤ r.p →
    ∃ s' r', Goes buf s r w s' r' ∧ Between f buf b (n + xs.length) s' r' ∧ Keep r r' ∧
      n + xs.length ≤ r'.p := by
  induction hx with
  | nil =>
    intro b n s r h rest hb hle
    exact ⟨s, r, Goes.refl _ _ _, by simpa using h, Keep.refl r, by simpa using hle⟩
  | @cons c w x xs hc hw ih =>
    intro b n s r h rest hb hle
    have hlen : 0 < c.length := by
      obtain ⟨y, l, rfl, -⟩ := hc.start; simp
    have hlt : buf.length < 2 ^ 30 → n + 1 < 2 ^ 32 := by
      intro hn
      have h1 := congrArg List.length hb
      simp only [List.length_drop, List.length_append] at h1
      omega
    obtain ⟨s1, r1, g, h1, k1⟩ := go_cp hf h hc (rest := w ++ rest) (by simpa using hb) hlt
    have hp := g.p
    obtain ⟨s2, r2, g2, h2, k2, hle2⟩ := ih h1 (g.drop (by simpa using hb)) (by omega)
    refine ⟨s2, r2, g.trans g2, ?_, k1.trans k2, ?_⟩
    · rw [show n + (x :: xs).length = n + 1 + xs.length by simp; omega]; exact h2
    · simp; omega

/-- A string atom right after the closing quote. -/
theorem strAtom_new {buf w rest : List Byte} (hn : buf.length < 2 ^ 30) {b p n : Nat}
    (hb : buf.drop b = w ++ rest) (hle : b ≤ buf.length) (hp : p = b + w.length) (hs : n < 2 ^ 32) :
    StrAtom buf ((Atom.ofRange Atom.tSTRING b p).setCpSize n) w n ∧
      Atom.cp ((Atom.ofRange Atom.tSTRING b p).setCpSize n) = 0 := by
  have hl : p ≤ buf.length := by
    have h1 := congrArg List.length hb
    simp only [List.length_drop, List.length_append] at h1
    omega
  have h1 : b < 2 ^ 30 := by omega
  have h2 : p < 2 ^ 30 := by omega
  have e1 := Atom.type_ofRange Atom.tSTRING b p (by decide) h1 h2
  have e2 := Atom.rBegin_ofRange Atom.tSTRING b p (by decide) h1 h2
  have e3 := Atom.rEnd_ofRange Atom.tSTRING b p (by decide) h1 h2
  refine ⟨⟨by simpa using e1, ?_, by simp [e2, e3]; omega, by simp [e3]; omega, ?_,
    Atom.cpSize_setCpSize _ _ hs⟩, ?_⟩
  · have := Atom.rawOk_ofRange Atom.tSTRING b p (by decide) h1 h2
    unfold Atom.RawOk at this ⊢
    rw [Atom.origin_setCpSize]; exact this
  · simp only [Atom.rBegin_setCpSize, Atom.rEnd_setCpSize, e2, e3]
    exact slice_here hb hp
  · rw [Atom.cp_setCpSize]
    unfold Atom.cp Atom.ofRange
    rfl

/-- From the opening quote to the closing quote. -/
theorem go_quoted {f : SFam} (hf : f.ok = true) {buf : List Byte}
    {w : List Byte} {xs : List (Nat × Bool)} (hx : StrText w xs) {r : Regs} {rest : List Byte}
    (hb : buf.drop r.p = w ++ 39 :: rest) :
    ∃ r' a, Goes buf f.o r (w ++ [39]) f.close r' ∧ r'.op = r.op ++ [a] ∧ r'.span = r.span ∧
      r'.term = r.term ∧ (buf.length < 2 ^ 30 → r'.cpSize = xs.length ∧
        StrAtom buf a w xs.length ∧ Atom.cp a = 0) := by
  have h0 : Between f buf r.p 0 f.o r :=
    ⟨[begin_string], by simp [SFam.pending], fun c =>
      ⟨_, rfl, rfl, rfl, fun _ => rfl, ⟨rfl, rfl, rfl⟩⟩⟩
  obtain ⟨s1, r1, g, ⟨P, hm, hP⟩, k, hle⟩ := go_str hf hx h0 hb (Nat.zero_le _)
  rw [Nat.zero_add] at hP hle
  unfold SFam.ok at hf
  simp only [Bool.and_eq_true, List.all_eq_true, decide_eq_true_eq] at hf
  obtain ⟨⟨⟨⟨⟨⟨⟨⟨⟨t0, -⟩, -⟩, -⟩, -⟩, -⟩, -⟩, -⟩, -⟩, -⟩ := hf
  obtain ⟨-, tq⟩ := t0 _ hm
  obtain ⟨r2, a1, a2, a3, a4, k2⟩ := hP 39
  have hb1 := g.drop hb
  have hp := g.p
  have hl : r1.p < buf.length := by
    have h1 := congrArg List.length hb1
    simp only [List.length_drop, List.length_cons] at h1
    omega
  have ha : acts buf 39 r1 (P ++ [end_string]) = .cont { r2 with
      op := r2.op ++ [(Atom.ofRange Atom.tSTRING r2.strb r2.p).setCpSize r2.cpSize] } := by
    rw [acts_append, a1]
    simp only [acts, act]
    rw [if_neg (by omega)]
  have g2 := go_step hb1 tq ha
  have kk := k.trans k2
  refine ⟨_, (Atom.ofRange Atom.tSTRING r2.strb r2.p).setCpSize r2.cpSize, g.trans g2, ?_, kk.span,
    kk.term, fun hn => ?_⟩
  · simp only [kk.op]
  · have hatom := strAtom_new (n := r2.cpSize) (b := r2.strb) (p := r2.p) hn
      (by rw [a3]; exact hb) (by omega) (by omega) (by rw [a4 hn]; omega)
    refine ⟨a4 hn, ?_, hatom.2⟩
    rw [← a4 hn]; exact hatom.1

/-- A string is shown as its code points. -/
theorem shows_str {buf : List Byte} (hn : buf.length < 2 ^ 30) {w : List Byte}
    {xs : List (Nat × Bool)} (hx : StrText w xs) {a : Atom} (ha : StrAtom buf a w xs.length)
    (h0 : Atom.cp a = 0) : Shows buf a (.text ((asRead xs).flatMap utf8append)) := by
  refine ⟨fun _ => h0, ?_, h0, w, xs, hx, rfl, ha⟩
  intro cur hc
  unfold viewAtom
  rw [if_neg (by rw [ha.type]; decide), if_neg (by rw [ha.type]; decide), if_pos ha.type, hc]
  unfold Cursor.readString
  rw [if_neg (by simp [h0])]
  rw [readCps_str hn hx a ha (a.cpSize + 1) (by rw [ha.size]; omega)]
  rfl

theorem quoted_str {buf : List Byte} {s : Nat} (hs : s ∈ restStates)
    {r : Regs} {w : List Byte} {xs : List (Nat × Bool)} {rest : List Byte} (hx : StrText w xs)
    (hb : buf.drop r.p = 39 :: (w ++ [39]) ++ rest) :
    Pushes buf s r (39 :: (w ++ [39])) (.text ((asRead xs).flatMap utf8append)) := by
  have g := open_quote (q := 39) (t := 1) hs (by decide) (rest := w ++ 39 :: rest) (by simpa using hb)
  obtain ⟨r', a, g2, h1, h2, h3, h4⟩ := go_quoted sVal_ok hx (rest := rest)
    (g.drop (rest := w ++ 39 :: rest) (by simpa using hb))
  exact ⟨r', a, g.trans g2, h1, h2, h3, fun hn =>
    shows_str hn hx (h4 hn).2.1 (h4 hn).2.2⟩

/-- An atom. -/
theorem go_atom {buf : List Byte} {s : Nat} {b : Bool}
    (hs : s ∈ restStates) (hbs : b = true → s ∈ bareStates) {r : Regs} {a : List Byte} {v : View}
    {c : Byte} {rest : List Byte} (h : AtomText b a v) (hb : buf.drop r.p = a ++ c :: rest)
    (hc : isFollow c = true) : Pushes buf s r a v := by
  cases h with
  | int h => exact bare_int (hbs rfl) h hb hc
  | float h hu => exact bare_float (hbs rfl) h hu hb hc
  | uuid h hi hf => exact bare_uuid (hbs rfl) h hi hf hb hc
  | qint hw h => exact quoted_int hs hw h hb hc
  | qfloat hw h => exact quoted_float hs hw h hb hc
  | quuid hw h => exact quoted_uuid hs hw h hb hc
  | str h => exact quoted_str hs h hb

end TextParser
end Ron
