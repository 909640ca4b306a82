import Verif.Lemmas.TextStrGo
/-!
The frame automaton over one op: its head, its values, its span and its terminator.
-/
namespace Ron
open Spec Act

attribute [local irreducible] Atom.type Atom.rBegin Atom.rEnd Atom.cp Atom.cpSize Atom.setCp
  Atom.setCpSize Atom.consume Atom.ofRange Atom.rawValid Uuid.inc

namespace TextParser

/-- The text begins with such a byte. -/
def Starts (F : Byte → Bool) (t : List Byte) : Prop := ∃ c rest, t = c :: rest ∧ F c = true

theorem Starts.mono {F G : Byte → Bool} (h : ∀ c, F c = true → G c = true) {t : List Byte}
    (ht : Starts F t) : Starts G t := by
  obtain ⟨c, rest, rfl, hc⟩ := ht
  exact ⟨c, rest, rfl, h c hc⟩

theorem follow_id (c : Byte) (h : isFollow c = true) : isFollowId c = true := by
  simp [isFollowId, h]

theorem starts_blank {w t : List Byte} (hw : Blank w) (ht : Starts isFollow t) :
    Starts isFollow (w ++ t) := by
  cases w with
  | nil => exact ht
  | cons c w => exact ⟨c, w ++ t, rfl, by simp [isFollow, hw c (by simp)]⟩

theorem starts_atoms {a t : List Byte} {vs : List View} (h : AtomsText a vs)
    (ht : Starts isFollow t) : Starts isFollow (a ++ t) := by
  cases h with
  | nil => exact ht
  | @cons w a s b v vs hw hb ha hs =>
    cases w with
    | cons c w => exact ⟨c, w ++ a ++ s ++ t, by simp, by simp [isFollow, hw c (by simp)]⟩
    | nil =>
      cases ha with
      | int => exact absurd rfl (hb rfl)
      | float => exact absurd rfl (hb rfl)
      | uuid => exact absurd rfl (hb rfl)
      | qint => exact ⟨61, _, rfl, by decide⟩
      | qfloat => exact ⟨94, _, rfl, by decide⟩
      | quuid => exact ⟨62, _, rfl, by decide⟩
      | str => exact ⟨39, _, rfl, by decide⟩

theorem starts_span {vs : List View} {sp t : List Byte} {l : List (List View)}
    (h : SpanText vs sp l) (ht : Starts isFollow t) : Starts isFollow (sp ++ t) := by
  cases h with
  | none => exact ht
  | count => exact ⟨40, _, rfl, by decide⟩
  | spread => exact ⟨40, _, rfl, by decide⟩

theorem starts_term {c : Byte} {t : Nat} (h : (c, t) ∈ termCodes) (rest : List Byte) :
    Starts isFollow (c :: rest) := by
  refine ⟨c, rest, rfl, ?_⟩
  have : ∀ x ∈ termCodes, isFollow x.1 = true := by decide
  exact this (c, t) h

/-! ### white space between the parts -/

theorem bare_rest {s : Nat} (h : s ∈ bareStates) : s ∈ restStates := by
  have : ∀ s ∈ bareStates, s ∈ restStates := by decide
  exact this s h

theorem bare_ws {s : Nat} (h : s ∈ bareStates) : s ∈ wsStates := by
  have : ∀ s ∈ bareStates, s ∈ wsStates := by decide
  exact this s h

theorem rest_cases {s : Nat} (h : s ∈ restStates) : s = 3 ∨ s ∈ bareStates := by
  have : ∀ s ∈ restStates, s = 3 ∨ s ∈ bareStates := by decide
  exact this s h

theorem go_ws {buf : List Byte} {s : Nat} (hs : s ∈ restStates) {w rest : List Byte} {r : Regs}
    (hw : Blank w) (hb : buf.drop r.p = w ++ rest) : ∃ s' r', Goes buf s r w s' r' ∧ Keep r r' ∧
    s' ∈ restStates ∧ (w ≠ [] ∨ s ∈ bareStates → s' ∈ bareStates) := by
  rcases rest_cases hs with rfl | h
  · cases w with
    | nil => exact ⟨3, r, Goes.refl _ _ _, Keep.refl r, hs, by intro h; revert h; simp⟩
    | cons c w =>
      obtain ⟨r1, h1, hp, k1⟩ := newline_act buf c r
      have hst : stepIn TextTable.rows 3 c = some ([newline], 4) :=
        of_stepsAll (P := isWs) (by decide +kernel) (hw c (by simp))
      have g := go_step (rest := w ++ rest) hb hst h1
      obtain ⟨r2, g2, k2⟩ := go_blank (s := 4) (by decide) w rest _ (fun x hx => hw x (by simp [hx]))
        (g.drop (by simpa using hb))
      exact ⟨4, r2, g.trans g2, k1.trans ⟨k2.op, k2.span, k2.term⟩, by decide, fun _ => by decide⟩
  · obtain ⟨r2, g2, k2⟩ := go_blank (bare_ws h) w rest r hw hb
    exact ⟨s, r2, g2, k2, hs, fun _ => h⟩

theorem same2_append {α β : Type} {R : α → β → Prop} {a : List α} {b : List β} (h : Same2 R a b) :
    ∀ {c : List α} {d : List β}, Same2 R c d → Same2 R (a ++ c) (b ++ d) := by
  induction h with
  | nil => intro c d h; exact h
  | cons h _ ih => intro c d h2; exact .cons h (ih h2)

/-- The values. -/
theorem go_atoms {buf : List Byte} {a : List Byte} {vs : List View}
    (h : AtomsText a vs) : ∀ {s : Nat} {r : Regs} {t : List Byte}, s ∈ restStates →
    buf.drop r.p = a ++ t → Starts isFollow t →
    ∃ s' r' xs, Goes buf s r a s' r' ∧ s' ∈ restStates ∧ r'.op = r.op ++ xs ∧ r'.span = r.span ∧
      r'.term = r.term ∧ (buf.length < 2 ^ 30 → Same2 (Shows buf) xs vs) := by
  induction h with
  | nil =>
    intro s r t hs hb ht
    exact ⟨s, r, [], Goes.refl _ _ _, hs, by simp, rfl, rfl, fun _ => .nil⟩
  | @cons w a s b v vs hw hbw ha hs ih =>
    intro st r t hst hb ht
    obtain ⟨s1, r1, g1, k1, hs1, hs1b⟩ := go_ws hst (rest := a ++ (s ++ t)) hw (by simpa using hb)
    have hb1 := g1.drop (rest := a ++ (s ++ t)) (by simpa using hb)
    obtain ⟨c, rest, hc, hcf⟩ := starts_atoms hs ht
    obtain ⟨r2, x, g2, e1, e2, e3, e4⟩ := go_atom hs1 (fun e => hs1b (.inl (hbw e))) ha
      (c := c) (rest := rest) (by rw [← hc]; exact hb1) hcf
    have hb2 := g2.drop (rest := s ++ t) hb1
    obtain ⟨s3, r3, xs, g3, f1, f2, f3, f4, f5⟩ := ih (s := 3) (by decide) hb2 ht
    refine ⟨s3, r3, x :: xs, (g1.trans g2).trans g3, f1, ?_, ?_, ?_, fun h => .cons (e4 h) (f5 h)⟩
    · rw [f2, e1, k1.op]; simp
    · rw [f3, e2, k1.span]
    · rw [f4, e3, k1.term]

/-- The head of an op. -/
theorem go_head {buf : List Byte} {prev id ref : Uuid} {h : List Byte}
    {vs : List View} (hh : HeadText prev h id ref vs) {r : Regs} {t : List Byte}
    (hop : r.op = [prev.inc, prev]) (hb : buf.drop r.p = h ++ t) (ht : Starts isFollow t) :
    ∃ s' r' xs, Goes buf 74 r h s' r' ∧ s' ∈ restStates ∧ r'.op = id :: ref :: xs ∧
      r'.span = r.span ∧ r'.term = r.term ∧
      (buf.length < 2 ^ 30 → Same2 (Shows buf) xs vs) := by
  have h64 : stepIn TextTable.rows 74 64 = some ([], 61) := by decide +kernel
  cases hh with
  | none hw =>
    obtain ⟨r1, g1, k1⟩ := go_blank (s := 74) (by decide) h t r hw hb
    exact ⟨74, r1, [], g1, by decide, by rw [k1.op, hop], k1.span, k1.term, fun _ => .nil⟩
  | @bare w a v hw ha =>
    obtain ⟨r1, g1, k1⟩ := go_blank (s := 74) (by decide) w (a ++ t) r hw (by simpa using hb)
    have hb1 := g1.drop (rest := a ++ t) (by simpa using hb)
    obtain ⟨c, rest, rfl, hcf⟩ := ht
    obtain ⟨r2, x, g2, e1, e2, e3, e4⟩ := go_atom (s := 74) (by decide) (fun _ => by decide) ha hb1 hcf
    exact ⟨3, r2, [x], g1.trans g2, by decide, by rw [e1, k1.op, hop]; simp, by rw [e2, k1.span],
      by rw [e3, k1.term], fun h => .cons (e4 h) .nil⟩
  | @id w u uu hw hu =>
    obtain ⟨r1, g1, k1⟩ := go_blank (s := 74) (by decide) w (64 :: (u ++ t)) r hw (by simpa using hb)
    have hb1 := g1.drop (rest := 64 :: (u ++ t)) (by simpa using hb)
    have g2 := go_silent hb1 h64
    have hb2 := g2.drop (rest := u ++ t) (by simpa using hb1)
    obtain ⟨c, rest, rfl, hcf⟩ := ht
    obtain ⟨r3, g3, e1, e2, e3⟩ := go_id hu hb2 (follow_id c hcf)
    have gg := (g1.trans g2).trans g3
    rw [show w ++ [64] ++ u = w ++ 64 :: u by simp] at gg
    exact ⟨63, r3, [], gg, by decide, by rw [e1]; simp [k1.op, hop], by rw [e2]; exact k1.span,
      by rw [e3]; exact k1.term, fun _ => .nil⟩
  | @ref w u w' u' uu uu' hw hu hw' hu' =>
    obtain ⟨r1, g1, k1⟩ := go_blank (s := 74) (by decide) w (64 :: (u ++ (w' ++ 58 :: (u' ++ t)))) r hw
      (by simpa using hb)
    have hb1 := g1.drop (rest := 64 :: (u ++ (w' ++ 58 :: (u' ++ t)))) (by simpa using hb)
    have g2 := go_silent hb1 h64
    have hb2 := g2.drop (rest := u ++ (w' ++ 58 :: (u' ++ t))) (by simpa using hb1)
    have hst : Starts isFollowId (w' ++ 58 :: (u' ++ t)) := by
      cases w' with
      | nil => exact ⟨58, _, rfl, by decide⟩
      | cons c w' =>
        exact ⟨c, _, rfl, follow_id c (by simp [isFollow, hw' c (by simp)])⟩
    obtain ⟨c, rest, hc, hcf⟩ := hst
    obtain ⟨r3, g3, e1, e2, e3⟩ := go_id hu (c := c) (rest := rest) (by rw [hb2, hc]) hcf
    have hb3 := g3.drop hb2
    obtain ⟨r4, g4, k4⟩ := go_blank (s := 63) (by decide) w' (58 :: (u' ++ t)) r3 hw' hb3
    have hb4 := g4.drop hb3
    have g5 := go_silent (s := 63) (t := 64) hb4 (by decide +kernel)
    have hb5 := g5.drop (rest := u' ++ t) (by simpa using hb4)
    obtain ⟨d, rest', rfl, hdf⟩ := ht
    obtain ⟨r6, g6, f1, f2, f3⟩ := go_ref hu' hb5 hdf
    have gg := ((((g1.trans g2).trans g3).trans g4).trans g5).trans g6
    rw [show w ++ [64] ++ u ++ w' ++ [58] ++ u' = w ++ 64 :: u ++ w' ++ 58 :: u' by simp] at gg
    refine ⟨3, r6, [], gg, by decide, ?_, ?_, ?_, fun _ => .nil⟩
    · rw [f1]; simp only [k4.op]; rw [e1]; simp [k1.op, hop]
    · rw [f2]; simp only [k4.span]; rw [e2]; exact k1.span
    · rw [f3]; simp only [k4.term]; rw [e3]; exact k1.term

/-! ### spans -/

theorem cpText_lt {c : List Byte} {x : Nat × Bool} (h : CpText c x) : x.1 < 2 ^ 21 := by
  cases h with
  | char h hp =>
    cases h with
    | one a h => simp only; omega
    | two a b ha hb => simp only; omega
    | three a b c ha hb hc => simp only; omega
    | four a b c d ha hb hc hd => simp only; omega
  | esc e v h =>
    have : ∀ x ∈ escapes, x.2 < 2 ^ 21 := by decide
    exact this _ h
  | uni a b c d ha hb hc hd =>
    have key : ∀ x : Byte, isHexDigit x = true → hexDigit x < 16 := forall_byte (by decide +kernel)
    have := key a ha
    have := key b hb
    have := key c hc
    have := key d hd
    simp only
    omega

theorem asRead_lt {s : List Byte} {ys : List (Nat × Bool)} (h : StrText s ys) :
    ∀ c ∈ asRead ys, c < 2 ^ 21 := by
  induction h with
  | nil => simp [asRead]
  | @cons c s x xs h _ ih =>
    have hx := cpText_lt h
    cases xs with
    | nil =>
      intro c hc
      simp only [asRead, List.mem_singleton] at hc
      subst hc
      split
      · decide
      · exact hx
    | cons y ys =>
      intro c hc
      simp only [asRead, List.mem_cons] at hc
      rcases hc with rfl | hc
      · exact hx
      · exact ih c hc

/-- The values of an op and the number of ops after it in the span say what the ops are. -/
inductive Unfolds (buf : List Byte) : List Atom → Nat → List (List View) → Prop
  | same {xs : List Atom} {vs : List View} (k : Nat) (h : Same2 (Shows buf) xs vs) :
      Unfolds buf xs k (List.replicate (k + 1) vs)
  | chars {xs : List Atom} {a : Atom} {s : List Byte} {ys : List (Nat × Bool)} {vs : List View}
      (h : Same2 (Shows buf) xs vs) (ha : StrAtom buf a s ys.length) (hs : StrText s ys)
      (h0 : Atom.cp a ≠ 0) (hz : ∀ c ∈ asRead ys, c ≠ 0) (hlt : Atom.cp a < 2 ^ 21) :
      Unfolds buf (xs ++ [a]) ys.length
        ((Atom.cp a :: asRead ys).map fun c => vs ++ [.text (utf8append c)])

/-- The value of the digits read so far. -/
theorem decVal_snoc (d : List Byte) (c : Byte) : decVal (d ++ [c]) = decVal d * 10 + (c.toNat - 48) := by
  unfold decVal
  rw [List.foldl_append]
  simp [List.foldl]

theorem span_digits {buf : List Byte} : ∀ (d rest : List Byte) (s : Nat) (r : Regs) (d0 : List Byte),
    (s = 5 ∨ s = 20) → (∀ c ∈ d, IsDigit c) → buf.drop r.p = d ++ rest →
    r.span = decVal d0 % 2 ^ 32 →
    ∃ r', Goes buf s r d (if d = [] then s else 20) r' ∧ r'.op = r.op ∧ r'.term = r.term ∧
      r'.span = decVal (d0 ++ d) % 2 ^ 32 := by
  intro d
  induction d with
  | nil => intro rest s r d0 _ _ _ hs; exact ⟨r, Goes.refl _ _ _, rfl, rfl, by simpa using hs⟩
  | cons c d ih =>
    intro rest s r d0 hs hd hb hsp
    have hst : stepIn TextTable.rows s c = some ([span_size_digit], 20) := by
      have hc := (isDigitB_iff c).2 (hd c (by simp))
      rcases hs with rfl | rfl
      · exact of_stepsAll (P := isDigitB) (by decide +kernel) hc
      · exact of_stepsAll (P := isDigitB) (by decide +kernel) hc
    have g := go_step (rest := d ++ rest) (r := r) hb hst rfl
    obtain ⟨r', g2, e1, e2, e3⟩ := ih rest 20 _ (d0 ++ [c]) (.inr rfl) (fun x hx => hd x (by simp [hx]))
      (g.drop (by simpa using hb)) (by
        have h1 := hd c (by simp)
        unfold IsDigit at h1
        rw [decVal_snoc]
        simp only [hsp]
        omega)
    refine ⟨r', ?_, e1, e2, by simpa using e3⟩
    have gg := g.trans g2
    simp only [ite_self] at gg
    simpa using gg

/-- The span of an op, up to the closing parenthesis. -/
theorem go_span {buf : List Byte} (hn : buf.length < 2 ^ 30) {vs : List View} {sp : List Byte}
    {l : List (List View)} (h : SpanText vs sp l) {s : Nat} (hs : s ∈ restStates) {r : Regs}
    {t : List Byte} {id ref : Uuid} {xs : List Atom} (hop : r.op = id :: ref :: xs)
    (hsp : r.span = 0) (hx : Same2 (Shows buf) xs vs) (hb : buf.drop r.p = sp ++ t) :
    ∃ s' r' xs', Goes buf s r sp s' r' ∧ (s' = 10 ∨ s' ∈ restStates) ∧ r'.op = id :: ref :: xs' ∧
      r'.term = r.term ∧ Unfolds buf xs' r'.span l := by
  cases h with
  | none =>
    refine ⟨s, r, xs, Goes.refl _ _ _, .inr hs, hop, rfl, ?_⟩
    rw [hsp]
    exact .same 0 hx
  | @count w d w' hw hd hw' h0 h1 =>
    obtain ⟨r1, g1, k1⟩ := open_blank (q := 40) (t := 5) hs (by decide) (by decide) hw
      (rest := d ++ (w' ++ 41 :: t)) (by simpa using hb)
    have hb1 := g1.drop (rest := d ++ (w' ++ 41 :: t)) (by simpa using hb)
    obtain ⟨r2, g2, e1, e2, e3⟩ := span_digits d (w' ++ 41 :: t) 5 r1 [] (.inl rfl) hd.2 hb1
      (by rw [k1.span, hsp]; rfl)
    rw [if_neg hd.1] at g2
    have hb2 := g2.drop hb1
    have hst : ∃ c rest, w' ++ 41 :: t = c :: rest ∧ (isWs c || Nat.beq c.toNat 41) = true := by
      cases w' with
      | nil => exact ⟨41, t, rfl, by decide⟩
      | cons c w' => exact ⟨c, _, rfl, by simp [hw' c (by simp)]⟩
    obtain ⟨c, rest, hc, hcf⟩ := hst
    have g3 := go_leave (F := fun c => isWs c || Nat.beq c.toNat 41) (s := 20) (base := 9)
      (L := [end_span_size]) (by decide +kernel) (by rw [hb2, hc]) hcf (r := r2) rfl
    have hb3 : buf.drop r2.p = w' ++ 41 :: t := hb2
    obtain ⟨r4, g4, k4⟩ := go_blank (s := 9) (by decide) w' (41 :: t)
      { r2 with span := (r2.span + 2 ^ 32 - 1) % 2 ^ 32 } hw' hb3
    have g5 := go_silent (s := 9) (t := 10) (g4.drop hb3) (by decide +kernel)
    have gg := (((g1.trans g2).trans g3).trans g4).trans g5
    rw [show 40 :: w ++ d ++ [] ++ w' ++ [41] = 40 :: (w ++ d ++ w' ++ [41]) by simp] at gg
    refine ⟨10, _, xs, gg, .inl rfl, ?_, ?_, ?_⟩
    · simp only [k4.op, e1, k1.op, hop]
    · simp only [k4.term, e2, k1.term]
    · have : decVal d = r4.span + 1 := by
        have e4 := k4.span
        simp only at e4
        rw [List.nil_append] at e3
        omega
      rw [this]
      exact .same _ hx
  | @spread w u w' ys hw hu hw' h0 hz =>
    obtain ⟨r1, g1, k1⟩ := open_blank (q := 40) (t := 5) hs (by decide) (by decide) hw
      (rest := 39 :: (u ++ 39 :: (w' ++ 41 :: t))) (by simpa using hb)
    have hb1 := g1.drop (rest := 39 :: (u ++ 39 :: (w' ++ 41 :: t))) (by simpa using hb)
    have g2 := go_silent (s := 5) (t := 6) hb1 (by decide +kernel)
    have hb2 := g2.drop (rest := u ++ 39 :: (w' ++ 41 :: t)) (by simpa using hb1)
    obtain ⟨r3, a, g3, e1, e2, e3, ex⟩ := go_quoted sSpan_ok hu hb2
    obtain ⟨e4, e5, e6⟩ := ex hn
    have hb3 := g3.drop (rest := w' ++ 41 :: t) (by simpa using hb2)
    cases hu with
    | nil => exact absurd rfl h0
    | @cons c u y ys hc hu =>
      obtain ⟨a', f1, f2, f3⟩ := nextCodepoint_str hn hc hu e5
      have hst : ∃ c rest, w' ++ 41 :: t = c :: rest ∧ (isWs c || Nat.beq c.toNat 41) = true := by
        cases w' with
        | nil => exact ⟨41, t, rfl, by decide⟩
        | cons c w' => exact ⟨c, _, rfl, by simp [hw' c (by simp)]⟩
      obtain ⟨d, rest, hd, hdf⟩ := hst
      have hop3 : r3.op = id :: ref :: (xs ++ [a]) := by
        rw [e1]; simp [k1.op, hop]
      have hact : acts buf d r3 [end_spread] =
          .cont { r3 with op := id :: ref :: (xs ++ [a']), span := ys.length } := by
        simp only [acts, act]
        have hgl : r3.op.getLast? = some a := by
          rw [hop3, show id :: ref :: (xs ++ [a]) = (id :: ref :: xs) ++ [a] from rfl,
            List.getLast?_concat]
        rw [hgl]
        simp only
        rw [if_pos (by rw [e5.size]; simp), f1]
        simp only [setLast, e4, List.length_cons, hop3]
        have : (ys.length + 1 + 2 ^ 32 - 1) % 2 ^ 32 = ys.length := by
          have := Atom.cpSize_lt a
          rw [e5.size] at this
          simp only [List.length_cons] at this
          omega
        rw [this, show id :: ref :: (xs ++ [a]) = (id :: ref :: xs) ++ [a] from rfl,
          List.dropLast_concat]
        rfl
      have g4 := go_leave (F := fun c => isWs c || Nat.beq c.toNat 41) (s := 8) (base := 9)
        (L := [end_spread]) (by decide +kernel) (by rw [hb3, hd]) hdf hact
      have hb4 : buf.drop r3.p = w' ++ 41 :: t := hb3
      obtain ⟨r5, g5, k5⟩ := go_blank (s := 9) (by decide) w' (41 :: t)
        { r3 with op := id :: ref :: (xs ++ [a']), span := ys.length } hw' hb4
      have g6 := go_silent (s := 9) (t := 10) (g5.drop hb4) (by decide +kernel)
      have gg := ((((g1.trans g2).trans g3).trans g4).trans g5).trans g6
      rw [show 40 :: w ++ [39] ++ (c ++ u ++ [39]) ++ [] ++ w' ++ [41] =
        40 :: (w ++ 39 :: (c ++ u ++ 39 :: (w' ++ [41]))) by simp] at gg
      have hlt := asRead_lt (StrText.cons hc hu)
      rw [asRead_cons, ← f3] at hz hlt ⊢
      refine ⟨10, _, xs ++ [a'], gg, .inl rfl, k5.op, ?_, ?_⟩
      · simp only [k5.term, e3]; exact k1.term
      · simp only [k5.span]
        exact .chars hx f2 hu (hz _ (by simp)) (fun x hx => hz x (by simp [hx])) (hlt _ (by simp))

/-- The terminator. -/
theorem go_term {buf : List Byte} {s : Nat} (hs : s = 10 ∨ s ∈ restStates) {c : Byte} {t : Nat}
    (ht : (c, t) ∈ termCodes) {r : Regs} {rest : List Byte} (hb : buf.drop r.p = c :: rest) :
    go buf s r = .ok (74, { r with term := c.toNat, p := r.p + 1 }) := by
  have tb : ([10, 3, 4, 63, 74].all fun s => termCodes.all fun x =>
    decide (stepIn TextTable.rows s x.1 = some ([op_term], 74))) = true := by decide +kernel
  have hst : stepIn TextTable.rows s c = some ([op_term], 74) := by
    have hs5' : s ∈ [10, 3, 4, 63, 74] := by
      rcases hs with rfl | h
      · simp
      · simp only [restStates, List.mem_cons, List.not_mem_nil, or_false] at h ⊢; omega
    have := (List.all_eq_true.1 ((List.all_eq_true.1 tb) s hs5')) (c, t) ht
    exact of_decide_eq_true this
  unfold go
  rw [hb, run, hst]
  simp only [acts, act]
  by_cases hlt : r.p + 1 < buf.length
  · simp only [hlt, if_true]
  · have : rest = [] := by
      have h1 := congrArg List.length hb
      simp only [List.length_drop, List.length_cons] at h1
      exact List.length_eq_zero_iff.1 (by omega)
    simp only [hlt, if_false, this, run]

/-- The head and the values of an op. -/
theorem go_values {buf : List Byte} {prev id ref : Uuid} {h a w : List Byte} {v vs : List View}
    (hh : HeadText prev h id ref v) (ha : AtomsText a vs) (hw : Blank w) {r : Regs}
    {t : List Byte} (hop : r.op = [prev.inc, prev]) (hb : buf.drop r.p = h ++ a ++ w ++ t)
    (ht : Starts isFollow t) :
    ∃ s' r' xs, Goes buf 74 r (h ++ a ++ w) s' r' ∧ s' ∈ restStates ∧ r'.op = id :: ref :: xs ∧
      r'.span = r.span ∧ r'.term = r.term ∧
      (buf.length < 2 ^ 30 → Same2 (Shows buf) xs (v ++ vs)) := by
  have t4 := starts_blank hw ht
  have t5 := starts_atoms ha t4
  obtain ⟨s1, r1, x1, g1, hs1, o1, p1, q1, m1⟩ := go_head hh hop
    (t := a ++ (w ++ t)) (by simpa using hb) t5
  have hb1 := g1.drop (rest := a ++ (w ++ t)) (by simpa using hb)
  obtain ⟨s2, r2, x2, g2, hs2, o2, p2, q2, m2⟩ := go_atoms ha hs1 hb1 t4
  have hb2 := g2.drop hb1
  obtain ⟨s3, r3, g3, k3, hs3, -⟩ := go_ws hs2 hw hb2
  exact ⟨s3, r3, x1 ++ x2, (g1.trans g2).trans g3, hs3, by rw [k3.op, o2, o1]; simp,
    by rw [k3.span, p2, p1], by rw [k3.term, q2, q1], fun hn => same2_append (m1 hn) (m2 hn)⟩

/-- One op without a span, in a frame of any size. -/
theorem go_plain {buf : List Byte} {prev id ref : Uuid}
    {h a w : List Byte} {c : Byte} {t : Nat} {v vs : List View}
    (hh : HeadText prev h id ref v) (ha : AtomsText a vs) (hw : Blank w)
    (ht : (c, t) ∈ termCodes) {r : Regs}
    {rest : List Byte} (hop : r.op = [prev.inc, prev]) (hsp : r.span = 0)
    (hb : buf.drop r.p = h ++ a ++ w ++ [c] ++ rest) :
    ∃ r' xs, go buf 74 r = .ok (74, r') ∧ r'.p = r.p + (h ++ a ++ w ++ [c]).length ∧
      r'.op = id :: ref :: xs ∧ r'.term = c.toNat ∧ r'.span = 0 := by
  obtain ⟨s3, r3, xs, g, hs3, o3, p3, q3, m3⟩ := go_values hh ha hw hop (t := c :: rest)
    (by simpa using hb) (starts_term ht rest)
  have hb3 := g.drop (rest := c :: rest) (by simpa using hb)
  refine ⟨{ r3 with term := c.toNat, p := r3.p + 1 }, xs,
    by rw [g.go]; exact go_term (.inr hs3) ht hb3, ?_, o3, rfl, by rw [← hsp]; exact p3⟩
  simp only [g.p, List.length_append, List.length_singleton]
  omega

/-- One op, from the state between ops. -/
theorem go_op {buf : List Byte} (hn : buf.length < 2 ^ 30) {prev id ref : Uuid}
    {h a w sp w' : List Byte} {c : Byte} {t : Nat} {v vs : List View} {l : List (List View)}
    (hh : HeadText prev h id ref v) (ha : AtomsText a vs) (hw : Blank w)
    (hs : SpanText (v ++ vs) sp l) (hw' : Blank w') (ht : (c, t) ∈ termCodes) {r : Regs}
    {rest : List Byte} (hop : r.op = [prev.inc, prev]) (hsp : r.span = 0)
    (hb : buf.drop r.p = h ++ a ++ w ++ sp ++ w' ++ [c] ++ rest) :
    ∃ r' xs, go buf 74 r = .ok (74, r') ∧ r'.p = r.p + (h ++ a ++ w ++ sp ++ w' ++ [c]).length ∧
      r'.op = id :: ref :: xs ∧ r'.term = c.toNat ∧ Unfolds buf xs r'.span l := by
  have t1 := starts_term ht rest
  have t2 := starts_blank hw' t1
  have t3 := starts_span hs t2
  obtain ⟨s3, r3, x3, g3, hs3, o3, p3, q3, m3⟩ := go_values hh ha hw hop
    (t := sp ++ (w' ++ c :: rest)) (by simpa using hb) t3
  have hb3 := g3.drop (rest := sp ++ (w' ++ c :: rest)) (by simpa using hb)
  obtain ⟨s4, r4, x4, g4, hs4, o4, q4, u4⟩ := go_span hn hs hs3 o3 (by rw [p3, hsp]) (m3 hn) hb3
  have hb4 := g4.drop hb3
  have h5 : ∃ s5 r5, Goes buf s4 r4 w' s5 r5 ∧ Keep r4 r5 ∧ (s5 = 10 ∨ s5 ∈ restStates) := by
    rcases hs4 with rfl | hs4
    · obtain ⟨r5, g5, k5⟩ := go_blank (s := 10) (by decide) w' _ _ hw' hb4
      exact ⟨10, r5, g5, k5, .inl rfl⟩
    · obtain ⟨s5, r5, g5, k5, h5, -⟩ := go_ws hs4 hw' hb4
      exact ⟨s5, r5, g5, k5, .inr h5⟩
  obtain ⟨s5, r5, g5, k5, hs5⟩ := h5
  have gg := (g3.trans g4).trans g5
  refine ⟨{ r5 with term := c.toNat, p := r5.p + 1 }, x4, ?_, ?_, ?_, rfl, ?_⟩
  · rw [gg.go]
    exact go_term hs5 ht (g5.drop hb4)
  · simp only [gg.p, List.length_append, List.length_singleton]; omega
  · simp only [k5.op, o4]
  · simp only [k5.span]; exact u4

end TextParser
end Ron
