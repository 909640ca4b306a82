import Verif.Model.Maps
import Verif.Lemmas.Word
/-!
Properties C75 (kinds of names), C76 (codes of maps).
-/
namespace Ron.Props
open Ron Word

/-! ## C75

Names are told apart by the case of their letters: names of yarns are `CamelCased`, names of objects
are in `snake_case`, names of versions are in `CAPS`. -/

/-- Capital letters and the tilde. -/
def isCapital (c : Byte) : Bool := decide (65 ≤ c.toNat ∧ c.toNat ≤ 90) || decide (c.toNat = 126)
/-- Small letters and the underscore. -/
def isSmall (c : Byte) : Bool := decide (97 ≤ c.toNat ∧ c.toNat ≤ 122) || decide (c.toNat = 95)
/-- Digits. -/
def isDigit (c : Byte) : Bool := decide (48 ≤ c.toNat ∧ c.toNat ≤ 57)

/-- The character of a digit of a word. -/
private def chr (d : Nat) : Byte := BASE_PUNCT.getD d 0

private theorem charCase_chr : ∀ d, d < 64 →
    (charCase d).testBit 0 = isSmall (chr d) ∧ (charCase d).testBit 1 = isCapital (chr d) ∧
      charCase d < 4 ∧ (isDigit (chr d) = (!isSmall (chr d) && !isCapital (chr d))) := by
  decide +kernel

private theorem charCase_mod (u : Nat) : charCase u = charCase (u % 64) := by
  unfold charCase; rw [Nat.mod_mod]

private theorem loop_bit (k : Nat) : ∀ (fuel u ret : Nat),
    (base64CaseLoop u ret fuel).testBit k =
      (ret.testBit k || (List.range fuel).any fun i => (charCase (u / 64 ^ i)).testBit k) := by
  intro fuel
  induction fuel with
  | zero => intro u ret; simp [base64CaseLoop]
  | succ n ih =>
    intro u ret
    unfold base64CaseLoop
    by_cases hu : u = 3
    · rw [if_neg (by simpa using hu)]
      have : ((List.range (n + 1)).any fun i => (charCase (u / 64 ^ i)).testBit k) = false := by
        rw [List.any_eq_false]
        intro i _
        subst hu
        have : charCase (3 / 64 ^ i) = 0 := by
          cases i with
          | zero => decide
          | succ j =>
            have h : 64 ≤ 64 ^ (j + 1) := by
              rw [Nat.pow_succ]; have := Nat.pow_pos (n := j) (show 0 < 64 by decide); omega
            rw [Nat.div_eq_of_lt (by omega)]; decide
        simp [this]
      rw [this, Bool.or_false]
    · rw [if_pos hu, ih, Nat.testBit_or, Bool.or_assoc]
      congr 1
      rw [List.range_succ_eq_map, List.any_cons, List.any_map]
      simp only [Nat.pow_zero, Nat.div_one]
      congr 1
      have : ∀ i, u / 64 / 64 ^ i = u / 64 ^ (i + 1) := fun i => by
        rw [Nat.div_div_eq_div_mul, Nat.pow_succ, Nat.mul_comm]
      simp [Function.comp_def, this]

private theorem any_small (k : Nat) (P : Byte → Bool) (hP : ∀ d, d < 64 → (charCase d).testBit k = P (chr d))
    (w : Word) : (base64Case w).testBit k = (List.range 10).any fun i => P (chr (w.digit i)) := by
  unfold base64Case
  rw [loop_bit, Nat.zero_testBit, Bool.false_or]
  have h : ∀ i, i < 10 → (charCase (w.toNat / 64 ^ i)).testBit k = P (chr (w.digit (9 - i))) := by
    intro i hi
    rw [charCase_mod, hP _ (Nat.mod_lt _ (by decide))]
    unfold digit
    rw [show 60 - 6 * (9 - i + 1) = 6 * i by omega, Nat.pow_mul]
  rw [Bool.eq_iff_iff, List.any_eq_true, List.any_eq_true]
  constructor
  · rintro ⟨i, hi, e⟩
    rw [List.mem_range] at hi
    refine ⟨9 - i, List.mem_range.2 (by omega), ?_⟩
    rw [← h i hi]; exact e
  · rintro ⟨i, hi, e⟩
    rw [List.mem_range] at hi
    refine ⟨9 - i, List.mem_range.2 (by omega), ?_⟩
    rw [h _ (by omega), show 9 - (9 - i) = i by omega]; exact e

/-- Characters that are not printed are zeros. -/
private theorem any_write (P : Byte → Bool) (h0 : P 48 = false) (w : Word) : ∀ (fuel len : Nat), len + fuel = 10 →
    (writeFrom w len fuel).any P = (List.range fuel).any fun i => P (chr (w.digit (len + i))) := by
  intro fuel
  induction fuel with
  | zero => intro len _; rfl
  | succ n ih =>
    intro len hl
    unfold writeFrom
    rw [List.any_cons, List.range_succ_eq_map, List.any_cons, List.any_map]
    show (P (chr (w.digit len)) || _) = _
    congr 1
    by_cases hz : w.lower6 (len + 1) = 0
    · rw [if_neg (by simpa using hz), List.any_nil]
      symm
      rw [List.any_eq_false]
      intro i hi
      rw [List.mem_range] at hi
      have : w.digit (len + (i + 1)) = 0 := by
        unfold lower6 at hz
        unfold digit
        have e : 2 ^ (60 - 6 * (len + 1)) = 2 ^ (60 - 6 * (len + (i + 1) + 1)) * 64 * 2 ^ (6 * i) := by
          rw [show (64 : Nat) = 2 ^ 6 by decide, ← Nat.pow_add, ← Nat.pow_add]; congr 1; omega
        rw [e] at hz
        obtain ⟨q, hq⟩ := Nat.dvd_of_mod_eq_zero hz
        rw [hq, Nat.mul_assoc, Nat.mul_assoc, Nat.mul_div_cancel_left _ (Nat.pow_pos (by decide)), Nat.mul_mod_right]
      simp only [Function.comp_apply, Nat.succ_eq_add_one, this]
      show ¬ P 48 = true
      rw [h0]; simp
    · rw [if_pos hz, ih (len + 1) (by omega)]
      simp only [Function.comp_def, Nat.succ_eq_add_one]
      congr 1
      funext i
      rw [show len + 1 + i = len + (i + 1) by omega]

private theorem digits_write (w : Word) : ∀ (fuel len : Nat),
    allDigitsFrom w len fuel = (writeFrom w len fuel).all isDigit := by
  intro fuel
  induction fuel with
  | zero => intro len; rfl
  | succ n ih =>
    intro len
    unfold allDigitsFrom writeFrom
    rw [List.all_cons]
    by_cases h : 48 ≤ (BASE_PUNCT.getD (digit w len) 0).toNat ∧ (BASE_PUNCT.getD (digit w len) 0).toNat ≤ 57
    · rw [if_pos h, show isDigit (BASE_PUNCT.getD (digit w len) 0) = true from decide_eq_true h, Bool.true_and]
      by_cases hz : w.lower6 (len + 1) ≠ 0
      · rw [if_pos hz, if_pos hz, ih]
      · rw [if_neg hz, if_neg hz]; rfl
    · rw [if_neg h, show isDigit (BASE_PUNCT.getD (digit w len) 0) = false from decide_eq_false h]; rfl

/-- C75. The kind of a name, `base64_case`: bit 0 (SNAKE) tells of small letters in the text of the name,
bit 1 (CAPS) of capital ones; both make CAMEL. -/
theorem C75_kind (w : Word) :
    base64Case w = 2 * (if w.str.any isCapital then 1 else 0) + (if w.str.any isSmall then 1 else 0) := by
  have h0 := any_small 0 isSmall (fun d hd => (charCase_chr d hd).1) w
  have h1 := any_small 1 isCapital (fun d hd => (charCase_chr d hd).2.1) w
  have s0 := any_write isSmall (by decide) w 10 0 rfl
  have s1 := any_write isCapital (by decide) w 10 0 rfl
  simp only [Nat.zero_add] at s0 s1
  rw [← s0] at h0
  rw [← s1] at h1
  have hlt : base64Case w < 4 := by
    apply Nat.lt_pow_two_of_testBit (n := 2)
    intro k hk
    unfold base64Case
    rw [loop_bit, Nat.zero_testBit, Bool.false_or, List.any_eq_false]
    intro i _
    rw [charCase_mod]
    have hm : w.toNat / 64 ^ i % 64 < 64 := Nat.mod_lt _ (by decide)
    have := (charCase_chr _ hm).2.2.1
    rw [Nat.testBit_lt_two_pow (Nat.lt_of_lt_of_le this (show 2 ^ 2 ≤ 2 ^ k from Nat.pow_le_pow_right (by decide) hk))]
    simp
  unfold str
  rw [← h0, ← h1]
  revert hlt
  generalize base64Case w = n
  intro hlt
  have : n = 0 ∨ n = 1 ∨ n = 2 ∨ n = 3 := by omega
  rcases this with rfl | rfl | rfl | rfl <;> decide

/-- C75. The kinds one by one: digits only, small letters, capital letters, both. -/
theorem C75_kinds (w : Word) :
    (base64Case w = 0 ↔ ∀ c ∈ w.str, isDigit c = true) ∧
    (base64Case w = 1 ↔ (∃ c ∈ w.str, isSmall c = true) ∧ ∀ c ∈ w.str, isCapital c = false) ∧
    (base64Case w = 2 ↔ (∃ c ∈ w.str, isCapital c = true) ∧ ∀ c ∈ w.str, isSmall c = false) ∧
    (base64Case w = 3 ↔ (∃ c ∈ w.str, isCapital c = true) ∧ ∃ c ∈ w.str, isSmall c = true) := by
  have hd : (∀ c ∈ w.str, isDigit c = true) ↔ (w.str.any isCapital = false ∧ w.str.any isSmall = false) := by
    rw [List.any_eq_false, List.any_eq_false]
    have key : ∀ c, isB64 c = true → (isDigit c = (!isSmall c && !isCapital c)) := by
      intro c hc
      revert c
      have : ∀ n, n < 256 → isB64 (UInt8.ofNat n) = true →
          (isDigit (UInt8.ofNat n) = (!isSmall (UInt8.ofNat n) && !isCapital (UInt8.ofNat n))) := by decide +kernel
      intro c hc
      have := this c.toNat c.toNat_lt
      rw [UInt8.ofNat_toNat] at this
      exact this hc
    constructor
    · intro h
      refine ⟨fun c hc => ?_, fun c hc => ?_⟩ <;>
      · have := h c hc
        rw [key c (str_b64 w c hc)] at this
        grind
    · rintro ⟨h1, h2⟩ c hc
      rw [key c (str_b64 w c hc)]
      have := h1 c hc
      have := h2 c hc
      grind
  rw [C75_kind, hd]
  simp only [← List.any_eq_true (p := isCapital), ← List.any_eq_true (p := isSmall),
    show (∀ c ∈ w.str, isCapital c = false) ↔ w.str.any isCapital = false by
      rw [List.any_eq_false]; simp,
    show (∀ c ∈ w.str, isSmall c = false) ↔ w.str.any isSmall = false by
      rw [List.any_eq_false]; simp]
  cases w.str.any isCapital <;> cases w.str.any isSmall <;> decide

/-- C75. `is_all_digits`, by which names are told from numbers, says the same as the kind does. -/
theorem C75_digits (w : Word) :
    (w.isAllDigits = true ↔ ∀ c ∈ w.str, isDigit c = true) ∧ (w.isAllDigits = true ↔ base64Case w = 0) := by
  have h : w.isAllDigits = true ↔ ∀ c ∈ w.str, isDigit c = true := by
    unfold isAllDigits str
    rw [digits_write, List.all_eq_true]
  exact ⟨h, h.trans (C75_kinds w).1.symm⟩

example : (Word.parse 0 (lit "ABC~DEFZ")).map base64Case = some 2 ∧ (Word.parse 0 (lit "Abc_Def")).map base64Case = some 3 ∧
    (Word.parse 0 (lit "abc_xyz")).map base64Case = some 1 ∧ (Word.parse 0 (lit "0000000003")).map base64Case = some 0 ∧
    (Word.parse 0 (lit "000000000a")).map base64Case = some 1 := by decide +kernel

/-! ## C76 -/

/-- The names of the maps. -/
def mapNames : List (List Byte) :=
  ["chain", "meta", "op", "yarn", "sha2", "prev", "head", "obj", "csv", "txt", "json"].map lit

/-- C76. Codes and names of maps are in bijection: a code has the name it is listed with, a name has its
code, and nothing else has any. -/
theorem C76_maps :
    (∀ m, m < MAP_COUNT → ∃ n u, mapNames[m]? = some n ∧ map2uuid m = some u ∧ u.origin = 0#64 ∧ u.value.str = n ∧
      uuid2map u = m) ∧
    (∀ u, uuid2map u < MAP_COUNT → map2uuid (uuid2map u) = some u) ∧
    (∀ u, uuid2map u < MAP_COUNT ∨ uuid2map u = MAP_COUNT) ∧
    map2uuid MAP_COUNT = some Uuid.FATAL := by
  refine ⟨?_, ?_, ?_, rfl⟩
  · have : ∀ m, m < 11 → (match mapNames[m]?, map2uuid m with
        | some n, some u => decide (u.origin = 0#64) && decide (u.value.str = n) && decide (uuid2map u = m)
        | _, _ => false) = true := by decide +kernel
    intro m hm
    have := this m hm
    split at this
    · rename_i n u e1 e2
      simp only [Bool.and_eq_true, decide_eq_true_eq] at this
      exact ⟨n, u, e1, e2, this.1.1, this.1.2, this.2⟩
    · exact absurd this (by simp)
  · have key : ∀ (vs : List Nat) (k : Nat) (u : Uuid), mapCases u k vs < MAP_COUNT →
        ∃ i v, vs[i]? = some v ∧ mapCases u k vs = k + i ∧ u = ⟨BitVec.ofNat 64 v, 0#64⟩ := by
      intro vs
      induction vs with
      | nil => intro k u h; exact absurd h (Nat.lt_irrefl _)
      | cons v vs ih =>
        intro k u h
        unfold mapCases at h ⊢
        by_cases hl : mapLabel u.value.toNat = mapLabel v
        · rw [if_pos hl] at h ⊢
          by_cases hu : u = ⟨BitVec.ofNat 64 v, 0#64⟩
          · exact ⟨0, v, rfl, by rw [if_pos hu]; rfl, hu⟩
          · rw [if_neg hu] at h
            exact absurd h (Nat.lt_irrefl _)
        · rw [if_neg hl] at h ⊢
          obtain ⟨i, w, h1, h2, h3⟩ := ih (k + 1) u h
          exact ⟨i + 1, w, by simpa using h1, by omega, h3⟩
    intro u h
    obtain ⟨i, v, h1, h2, h3⟩ := key MAPS 0 u h
    have e : uuid2map u = i := by unfold uuid2map; omega
    rw [e, map2uuid, MAP_IDS, List.getElem?_append_left (by
      rw [List.length_map]; exact (List.getElem?_eq_some_iff.1 h1).1), List.getElem?_map, h1, h3]
    rfl
  · have key : ∀ (vs : List Nat) (k : Nat) (u : Uuid), k + vs.length ≤ MAP_COUNT →
        mapCases u k vs < MAP_COUNT ∨ mapCases u k vs = MAP_COUNT := by
      intro vs
      induction vs with
      | nil => intro k u _; exact .inr rfl
      | cons v vs ih =>
        intro k u hk
        rw [List.length_cons] at hk
        unfold mapCases
        split
        · split
          · left; omega
          · exact .inr rfl
        · exact ih (k + 1) u (by omega)
    intro u
    exact key MAPS 0 u (by decide)

example : uuid2map ⟨1025941105738252288#64, 0#64⟩ = 9 ∧ uuid2map ⟨1025941105738252289#64, 0#64⟩ = MAP_COUNT ∧
    uuid2map ⟨1025941105738252288#64, 1#64⟩ = MAP_COUNT := by decide +kernel

end Ron.Props
