import Verif.Lemmas.Literals
/-!
Property theorems C15 (escaping), C16 and C17 (integer literals).
-/
namespace Ron.Props
open Spec

/-- C15: unescaping an escaped string gives the original bytes. -/
theorem C15_round_trip (s : List Byte) : unescape (escape s) = some s := by
  induction s with
  | nil => rfl
  | cons b s ih =>
    rw [show escape (b :: s) = escapeByte b ++ escape s from rfl, unescape_escapeByte, ih]
    rfl

example : escape (lit "it's\n") = lit "it\\'s\\n" := by decide +kernel

/-- C15: an escaped string put between quotes is read up to exactly the closing quote,
whatever follows: it neither ends the atom early nor breaks the line. -/
theorem C15_quoted (s rest : List Byte) :
    scanQuoted (escape s ++ ch '\'' :: rest) = some (escape s, rest) := by
  induction s with
  | nil =>
    show scanQuoted (ch '\'' :: rest) = _
    rw [scanQuoted.eq_def]; rfl
  | cons b s ih =>
    rw [show escape (b :: s) = escapeByte b ++ escape s from rfl, List.append_assoc,
      scanQuoted_escapeByte, ih]
    rfl

/-- C15: no line end is left in the escaped text. -/
theorem C15_no_line_ends (s : List Byte) : ∀ c ∈ escape s, c.toNat ≠ 10 ∧ c.toNat ≠ 13 := by
  intro c hc
  unfold escape at hc
  rw [List.mem_flatMap] at hc
  obtain ⟨b, _, hb⟩ := hc
  rcases escapeByte_cases b with h | h
  · rw [h.1, List.mem_singleton] at hb; subst hb; exact ⟨h.2.2.2.1, h.2.2.2.2⟩
  · rw [h.1] at hb
    simp only [List.mem_cons, List.not_mem_nil, or_false] at hb
    rcases hb with rfl | rfl
    · decide
    · exact h.2.2

/-- C15: the same for the writer of single code points (used for all string atoms): the
written text is the escaped UTF-8 of the code points, hence lossless and confined to its
quotes. -/
theorem C15_codepoints (cps : List Nat) (h : ∀ cp ∈ cps, cp < 2 ^ 21) (rest : List Byte) :
    ∃ utf, Utf8Text utf cps ∧ unescape (cps.flatMap utf8escAppend) = some utf ∧
      scanQuoted (cps.flatMap utf8escAppend ++ ch '\'' :: rest) =
        some (cps.flatMap utf8escAppend, rest) := by
  refine ⟨cps.flatMap utf8append, utf8append_text cps h, ?_, ?_⟩
  · rw [escape_flatMap, C15_round_trip]
  · rw [escape_flatMap, C15_quoted]

example : ∀ cp ∈ [0x27, 0x5c, 0x436, 0x1f600], cp < 2 ^ 21 := by decide

/-- C16: every accepted integer literal converts, without overflow, to its mathematical
value, which is a 64-bit signed integer. -/
theorem C16_exact (s : List Byte) (v : Int) (h : IntText s v) (ha : intAccepted s = true) :
    parseInteger s = some v ∧ -2 ^ 63 ≤ v ∧ v < 2 ^ 63 := by
  cases h with
  | plain s hn hd =>
    rw [intAccepted_unsigned s hn hd] at ha
    have hlt := decVal_lt s hd
    have hv : decVal s < 2 ^ 63 := by
      rcases ha with ha | ha
      · have : 10 ^ s.length ≤ 10 ^ 18 := Nat.pow_le_pow_right (by omega) (by omega)
        omega
      · omega
    refine ⟨?_, by omega, by omega⟩
    cases s with
    | nil => exact absurd rfl hn
    | cons c s =>
      have hc := hd c (by simp)
      unfold IsDigit at hc
      simp only [parseInteger]
      rw [if_neg (by omega), if_neg (by omega)]
      simpa using parseIntLoop_spec (c :: s) 0 hd (by simpa using hv)
  | plus c s hc hn hd =>
    rw [intAccepted_signed c s (by simp [isSign, hc]) hd] at ha
    have hlt := decVal_lt s hd
    have hv : decVal s < 2 ^ 63 := by
      rcases ha with ha | ha | ha
      · have : 10 ^ s.length ≤ 10 ^ 17 := Nat.pow_le_pow_right (by omega) (by omega)
        omega
      · omega
      · omega
    refine ⟨?_, by omega, by omega⟩
    simp only [parseInteger]
    rw [if_neg (by omega), if_pos hc]
    simpa using parseIntLoop_spec s 0 hd (by simpa using hv)
  | minus c s hc hn hd =>
    rw [intAccepted_signed c s (by simp [isSign, hc]) hd] at ha
    have hlt := decVal_lt s hd
    have hv : decVal s < 2 ^ 63 := by
      rcases ha with ha | ha | ha
      · have : 10 ^ s.length ≤ 10 ^ 17 := Nat.pow_le_pow_right (by omega) (by omega)
        omega
      · omega
      · omega
    refine ⟨?_, by omega, by omega⟩
    simp only [parseInteger]
    have hp := parseIntLoop_spec s 0 hd (by simpa using hv)
    rw [if_pos hc, show (0 : Int) = ((0 : Nat) : Int) from rfl, hp]
    simp only [Nat.zero_mul, Nat.zero_add, Option.bind_some]
    rw [if_pos (by unfold isInt64; simp only [decide_eq_true_eq]; omega)]

example : IntText (lit "-9223372036854775807") (-9223372036854775807) ∧
    intAccepted (lit "-9223372036854775807") = true := by
  refine ⟨?_, by decide +kernel⟩
  have := IntText.minus (ch '-') (lit "9223372036854775807") (by decide) (by decide)
    (by unfold IsDigit; decide)
  rwa [show decVal (lit "9223372036854775807") = 9223372036854775807 by decide +kernel] at this

/-- C17 as claimed: every 64-bit integer is written inside of the buffer, accepted and
read back. -/
def C17_claim : Prop := ∀ v : Int, -2 ^ 63 ≤ v → v < 2 ^ 63 →
  ∃ s, writeInt v = some s ∧ intAccepted s = true ∧ parseInteger s = some v

/-- What `sprintf` produces is the literal of the number. -/
theorem C17_text (v : Int) (h1 : -2 ^ 63 ≤ v) (h2 : v < 2 ^ 63) : IntText (sprintfInt v) v := by
  obtain ⟨ha, hb, hc, _⟩ := decDigits_spec 20 v.natAbs (by omega) (by omega)
  unfold sprintfInt
  split
  · have := IntText.minus 45 _ (by decide) hc ha
    rw [hb] at this
    rwa [show -(v.natAbs : Int) = v by omega] at this
  · have := IntText.plain _ hc ha
    rw [hb] at this
    rwa [show (v.natAbs : Int) = v by omega] at this

/-- C17: for which 64-bit integers writing stays in the buffer and the text is accepted and
reads back: exactly those not below -922337203685477580. The missing part (smaller
negative numbers) is false: `C17_violated`. -/
theorem C17_round_trip_partial (v : Int) (h1 : -2 ^ 63 ≤ v) (h2 : v < 2 ^ 63) :
    (∃ s, writeInt v = some s ∧ intAccepted s = true ∧ parseInteger s = some v) ↔
      -922337203685477580 ≤ v := by
  obtain ⟨ha, hb, hc, _⟩ := decDigits_spec 20 v.natAbs (by omega) (by omega)
  have ht := C17_text v h1 h2
  have hl := fun k hk => decDigits_length v.natAbs k (by omega) hk
  have l17 := hl 17 (by omega)
  have l18 := hl 18 (by omega)
  have l19 := hl 19 (by omega)
  constructor
  · rintro ⟨s, hs, hacc, -⟩
    unfold writeInt at hs
    split at hs
    · rename_i hlen
      simp only [Option.some.injEq] at hs
      subst hs
      unfold sprintfInt at hacc hlen
      by_cases hv : v < 0
      · rw [if_pos hv] at hacc hlen
        rw [intAccepted_signed 45 _ (by decide) ha, hb] at hacc
        simp only [List.length_cons] at hlen
        omega
      · omega
    · simp at hs
  · intro hv
    have hacc : intAccepted (sprintfInt v) = true ∧ (sprintfInt v).length + 1 ≤ 20 := by
      unfold sprintfInt
      by_cases hn : v < 0
      · rw [if_pos hn, intAccepted_signed 45 _ (by decide) ha, hb]
        simp only [List.length_cons]
        omega
      · rw [if_neg hn, intAccepted_unsigned _ hc ha, hb]
        omega
    refine ⟨sprintfInt v, ?_, hacc.1, (C16_exact _ v ht hacc.1).1⟩
    unfold writeInt
    rw [if_pos hacc.2]

/-- C17 fails: -999999999999999999 is written but not accepted back. -/
theorem C17_violated : ¬ C17_claim := by
  intro h
  have := (C17_round_trip_partial (-999999999999999999) (by omega) (by omega)).1
    (h _ (by omega) (by omega))
  omega

/-- C17: the writer overruns its 20-byte buffer exactly for 19-digit negative numbers. -/
theorem C17_overrun (v : Int) (h1 : -2 ^ 63 ≤ v) (h2 : v < 2 ^ 63) :
    writeInt v = none ↔ v ≤ -10 ^ 18 := by
  have l18 := decDigits_length v.natAbs 18 (by omega) (by omega)
  have l19 := decDigits_length v.natAbs 19 (by omega) (by omega)
  unfold writeInt sprintfInt
  by_cases hn : v < 0
  · rw [if_pos hn]
    simp only [List.length_cons]
    split
    · simp only [reduceCtorEq, false_iff]; omega
    · simp only [true_iff]; omega
  · rw [if_neg hn, if_pos (by omega)]
    simp only [reduceCtorEq, false_iff]; omega

/-- C17: were the buffer large enough, which numbers would be rejected by the parser. -/
theorem C17_rejected (v : Int) (h1 : -2 ^ 63 ≤ v) (h2 : v < 2 ^ 63) :
    intAccepted (sprintfInt v) = false ↔
      (v = -2 ^ 63 ∨ (-10 ^ 18 < v ∧ v < -922337203685477580)) := by
  obtain ⟨ha, hb, hc, _⟩ := decDigits_spec 20 v.natAbs (by omega) (by omega)
  have hl := fun k hk => decDigits_length v.natAbs k (by omega) hk
  have l17 := hl 17 (by omega)
  have l18 := hl 18 (by omega)
  have l19 := hl 19 (by omega)
  rw [← Bool.not_eq_true]
  unfold sprintfInt
  by_cases hn : v < 0
  · rw [if_pos hn, intAccepted_signed 45 _ (by decide) ha, hb]
    omega
  · rw [if_neg hn, intAccepted_unsigned _ hc ha, hb]
    omega

end Ron.Props
