import Verif.Lemmas.Utf
/-!
Property theorems C13 (UTF-8) and C14 (UTF-16).
-/
namespace Ron.Props
open Spec

/-- C13: any sequence of code points below 2^21, written as UTF-8, parses back to the same
sequence; the text is well shaped and as short as possible. -/
theorem C13_round_trip (cps into : List Nat) (h : ∀ cp ∈ cps, cp < 2 ^ 21) :
    Utf8Parser.parse into (cps.flatMap utf8append) = some (into ++ cps, true) ∧
    Utf8Text (cps.flatMap utf8append) cps ∧
    (cps.flatMap utf8append).length = (cps.map utf8len).sum := by
  refine ⟨Utf8Parser.parse_text (utf8append_text cps h) into, utf8append_text cps h, ?_⟩
  rw [List.length_flatMap]
  congr 1
  apply List.map_congr_left
  intro cp hcp
  exact (utf8append_char cp (h cp hcp)).2

example : ∀ cp ∈ [0x7f, 0x80, 0x7ff, 0x800, 0xffff, 0x10000, 0x10ffff, 0x1fffff], cp < 2 ^ 21 := by
  decide

/-- C13: the parser accepts a byte string exactly when it is a sequence of well-shaped
characters, and then returns their values; the whole input is consumed. -/
theorem C13_accepts_iff (bs : List Byte) (cps into : List Nat) :
    Utf8Parser.parse into bs = some (into ++ cps, true) ↔ Utf8Text bs cps := by
  constructor
  · intro h
    rcases Utf8Parser.parse_cases into bs with ⟨cps', h1, h2⟩ | ⟨cps', h1⟩
    · rw [h1] at h
      simp only [Option.some.injEq, Prod.mk.injEq, List.append_cancel_left_eq, and_true] at h
      exact h ▸ h2
    · rw [h1] at h; simp at h
  · intro h; exact Utf8Parser.parse_text h into

example : Utf8Text [0xd0, 0xb6, 0x41] [0x436, 0x41] :=
  .cons (.two 0xd0 0xb6 (by decide) (by decide)) (.cons (.one 0x41 (by decide)) .nil)

/-- C13: on every byte string the parser gives an answer (no undefined behaviour), and it
is either acceptance or rejection of a string which is not well shaped. -/
theorem C13_total (bs : List Byte) (into : List Nat) :
    ∃ out ok, Utf8Parser.parse into bs = some (out, ok) ∧
      (ok = false ↔ ¬ ∃ cps, Utf8Text bs cps) := by
  rcases Utf8Parser.parse_cases into bs with ⟨cps', h1, h2⟩ | ⟨cps', h1⟩
  · exact ⟨_, _, h1, by simpa using ⟨_, h2⟩⟩
  · refine ⟨_, _, h1, ?_⟩
    simp only [true_iff]
    rintro ⟨cps, h⟩
    rw [Utf8Parser.parse_text h into] at h1
    simp at h1

example : Utf8Parser.parse [] [0xd0] = some ([], false) := by decide +kernel
example : Utf8Parser.parse [] [0xd0, 0xb6, 0x41] = some ([0x436, 0x41], true) := by
  decide +kernel

/-- C13: the incremental reader agrees: it returns the written code point and stops right
after it, whatever follows. -/
theorem C13_read (cp : Nat) (h : cp < 2 ^ 21) (rest : List Byte) :
    utf8read (utf8append cp ++ rest) = some (cp, rest) :=
  utf8read_char (utf8append_char cp h).1 rest

/-- C13: the incremental reader and the parser agree on every well-shaped text. -/
theorem C13_read_text (c s : List Byte) (cp : Nat) (h : Utf8Char c cp) :
    utf8read (c ++ s) = some (cp, s) := utf8read_char h s

/-- C14: every code point below 2^21 (in particular every scalar value) written as UTF-16
reads back, and reading stops right after it. -/
theorem C14_round_trip (cp : Nat) (h : cp < 2 ^ 21) (rest : List Nat) :
    utf16read (utf16append cp ++ rest) = some (cp, rest) := by
  unfold utf16append
  rw [Nat.shiftRight_eq_div_pow, show cp &&& 1023 = cp % 2 ^ 10 from and_mask cp 10]
  split
  · rename_i hc
    rw [Nat.mod_eq_of_lt (by omega)]
    simp only [List.cons_append, List.nil_append, utf16read]
    rcases hc with hc | hc
    · rw [if_pos (by omega)]
    · rw [if_neg (by omega), if_pos (by omega)]
  · rename_i hc
    simp only [List.cons_append, List.nil_append, utf16read]
    rw [Nat.mod_eq_of_lt (by omega), Nat.mod_eq_of_lt (by omega), if_neg (by omega),
      if_neg (by omega), show 0xd800 + cp / 2 ^ 10 - 0xd800 = cp / 2 ^ 10 by omega,
      show (0xdc00 + cp % 2 ^ 10 + 2 ^ 32 - 0xdc00) % 2 ^ 32 = cp % 2 ^ 10 by omega,
      or_mul_pow _ _ _ (by omega)]
    exact congrArg (fun n => some (n, rest)) (by omega)

example : utf16append 0x1f600 = [0xd87d, 0xde00] := by decide +kernel

/-- C14, the part about the standard form, as claimed. -/
def C14_claim : Prop := ∀ cp, Scalar cp → utf16append cp = utf16 cp

/-- C14: which scalar values are encoded as standard UTF-16: exactly those below U+10000,
except U+D7FF. The missing part (supplementary planes, U+D7FF) is false: `C14_violated`. -/
theorem C14_standard_partial (cp : Nat) (h : Scalar cp) :
    utf16append cp = utf16 cp ↔ (cp < 0x10000 ∧ cp ≠ 0xd7ff) := by
  unfold utf16append utf16
  unfold Scalar at h
  rw [Nat.shiftRight_eq_div_pow, show cp &&& 1023 = cp % 2 ^ 10 from and_mask cp 10]
  by_cases h1 : cp < 0x10000
  · rw [if_pos h1]
    by_cases h2 : cp = 0xd7ff
    · subst h2; simp
    · rw [if_pos (by omega), Nat.mod_eq_of_lt (by omega)]
      simp [h1, h2]
  · rw [if_neg h1, if_neg (by omega)]
    rw [Nat.mod_eq_of_lt (by omega)]
    simp only [List.cons.injEq, and_true]
    omega

/-- C14 fails: the smiley U+1F600 is not encoded as standard UTF-16 (D83D DE00). -/
theorem C14_violated : ¬ C14_claim := by
  intro h
  have h1 := (C14_standard_partial 0x1f600 (by unfold Scalar; omega)).1
    (h 0x1f600 (by unfold Scalar; omega))
  omega

example : Scalar 0x1f600 ∧ ¬ Scalar 0xd800 := by unfold Scalar; omega

/-- C14: consequently the reader does not understand standard UTF-16 either: every
standard surrogate pair is read as a different code point. -/
theorem C14_read_standard (cp : Nat) (h : 0x10000 ≤ cp ∧ cp < 0x110000) (rest : List Nat) :
    utf16read (utf16 cp ++ rest) = some (cp - 0x10000, rest) := by
  unfold utf16
  rw [if_neg (by omega)]
  simp only [List.cons_append, List.nil_append, utf16read]
  rw [if_neg (by omega), if_neg (by omega),
    show 0xd800 + (cp - 0x10000) / 1024 - 0xd800 = (cp - 0x10000) / 1024 by omega,
    show (0xdc00 + (cp - 0x10000) % 1024 + 2 ^ 32 - 0xdc00) % 2 ^ 32 = (cp - 0x10000) % 1024 by
      omega, or_mul_pow _ _ _ (by omega)]
  exact congrArg (fun n => some (n, rest)) (by omega)

/-- C14: a text cut in the middle of a pair makes the reader read past its end. -/
theorem C14_lone_surrogate (u : Nat) (h : 0xd800 ≤ u ∧ u < 0xe000) : utf16read [u] = none := by
  simp only [utf16read]
  rw [if_neg (by omega), if_neg (by omega)]

end Ron.Props
