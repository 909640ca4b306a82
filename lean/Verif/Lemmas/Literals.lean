import Verif.Model.Escape
import Verif.Model.IntLit
import Verif.Spec.Literals
import Verif.Lemmas.Utf
/-!
Helper lemmas about escaping and integer literals.
-/
namespace Ron
open Spec

/-! ### Escapes -/

theorem escapeByte_cases : ∀ b : Byte,
    (escapeByte b = [b] ∧ b.toNat ≠ 92 ∧ b.toNat ≠ 39 ∧ b.toNat ≠ 10 ∧ b.toNat ≠ 13) ∨
    (escapeByte b = [92, (escapeByte b).getD 1 0] ∧ decodeEsc ((escapeByte b).getD 1 0) = b ∧
      ((escapeByte b).getD 1 0).toNat ≠ 10 ∧ ((escapeByte b).getD 1 0).toNat ≠ 13) :=
  forall_byte (by decide +kernel)

theorem unescape_plain (b : Byte) (t : List Byte) (h : b.toNat ≠ 92) :
    unescape (b :: t) = (unescape t).map (b :: ·) := by
  rw [unescape.eq_def]; exact if_pos h

theorem unescape_escapeByte (b : Byte) (t : List Byte) :
    unescape (escapeByte b ++ t) = (unescape t).map (b :: ·) := by
  rcases escapeByte_cases b with h | h
  · rw [h.1]; exact unescape_plain b t h.2.1
  · obtain ⟨h1, h2, h3⟩ := h
    obtain ⟨e, he⟩ : ∃ e, (escapeByte b).getD 1 0 = e := ⟨_, rfl⟩
    rw [he] at h1 h2
    rw [h1]
    show unescape (92 :: e :: t) = _
    rw [unescape.eq_def]
    simp [h2]

theorem scanQuoted_escapeByte (b : Byte) (t : List Byte) :
    scanQuoted (escapeByte b ++ t) =
      (scanQuoted t).map fun r => (escapeByte b ++ r.1, r.2) := by
  rcases escapeByte_cases b with h | h
  · rw [h.1]
    show scanQuoted (b :: t) = _
    rw [scanQuoted.eq_def]
    simp [h.2.1, h.2.2.1, h.2.2.2.1, h.2.2.2.2]
  · obtain ⟨h1, h2, h3, h4⟩ := h
    obtain ⟨e, he⟩ : ∃ e, (escapeByte b).getD 1 0 = e := ⟨_, rfl⟩
    rw [he] at h1 h2 h3 h4
    rw [h1]
    show scanQuoted (92 :: e :: t) = _
    rw [scanQuoted.eq_def]
    simp [h3, h4]

theorem escapeByte_high (b : Byte) (h : 128 ≤ b.toNat) : escapeByte b = [b] := by
  unfold escapeByte
  simp (disch := omega) only [if_neg]

theorem escapeByte_low : ∀ n : Fin 128, utf8escAppend n.val = escapeByte (toChar n.val) := by
  decide +kernel

theorem or_high (x m : Nat) (hx : x < 256) (hm : 128 ≤ m) (hm2 : m < 256) :
    128 ≤ (toChar (x ||| m)).toNat := by
  have h1 : m ≤ x ||| m := Nat.right_le_or
  have h2 : x ||| m < 2 ^ 8 := Nat.or_lt_two_pow hx hm2
  rw [toChar_toNat _ h2]; omega

theorem utf8append_high (cp : Nat) (h : 128 ≤ cp) : ∀ b ∈ utf8append cp, 128 ≤ b.toNat := by
  intro b hb
  unfold utf8append at hb
  rw [if_neg (by omega)] at hb
  have h63 : ∀ x, x &&& 63 < 256 := fun x => by rw [and63]; omega
  have h7 : ∀ x, x &&& 7 < 256 := fun x => by rw [show x &&& 7 = x % 2 ^ 3 from and_mask x 3]; omega
  split at hb
  · simp only [List.mem_cons, List.not_mem_nil, or_false] at hb
    rcases hb with rfl | rfl
    · exact or_high _ _ (by rw [Nat.shiftRight_eq_div_pow]; omega) (by omega) (by omega)
    · exact or_high _ _ (h63 _) (by omega) (by omega)
  · split at hb
    · simp only [List.mem_cons, List.not_mem_nil, or_false] at hb
      rcases hb with rfl | rfl | rfl
      · exact or_high _ _ (by rw [Nat.shiftRight_eq_div_pow]; omega) (by omega) (by omega)
      · exact or_high _ _ (h63 _) (by omega) (by omega)
      · exact or_high _ _ (h63 _) (by omega) (by omega)
    · simp only [List.mem_cons, List.not_mem_nil, or_false] at hb
      rcases hb with rfl | rfl | rfl | rfl
      · exact or_high _ _ (h7 _) (by omega) (by omega)
      · exact or_high _ _ (h63 _) (by omega) (by omega)
      · exact or_high _ _ (h63 _) (by omega) (by omega)
      · exact or_high _ _ (h63 _) (by omega) (by omega)

theorem flatMap_single (l : List Byte) (h : ∀ b ∈ l, 128 ≤ b.toNat) :
    l.flatMap escapeByte = l := by
  induction l with
  | nil => rfl
  | cons a l ih =>
    rw [List.flatMap_cons, escapeByte_high a (h a (by simp)), ih (fun b hb => h b (by simp [hb]))]
    rfl

theorem utf8escAppend_eq (cp : Nat) : utf8escAppend cp = escape (utf8append cp) := by
  unfold escape
  by_cases h : cp < 128
  · have := escapeByte_low ⟨cp, h⟩
    rw [this]
    simp [utf8append, h]
  · rw [flatMap_single _ (utf8append_high cp (by omega))]
    simp [utf8escAppend, h]

theorem escape_append (a b : List Byte) : escape (a ++ b) = escape a ++ escape b := by
  simp [escape]

theorem escape_flatMap (cps : List Nat) :
    cps.flatMap utf8escAppend = escape (cps.flatMap utf8append) := by
  induction cps with
  | nil => rfl
  | cons c cps ih =>
    rw [List.flatMap_cons, List.flatMap_cons, escape_append, ih, utf8escAppend_eq]

/-! ### Numerals -/

theorem decVal_foldl (s : List Byte) : ∀ a : Nat,
    s.foldl (fun a c => a * 10 + (c.toNat - 48)) a = a * 10 ^ s.length + decVal s := by
  induction s with
  | nil => intro a; simp [decVal]
  | cons c s ih =>
    intro a
    unfold decVal
    rw [List.foldl_cons, List.foldl_cons, ih, ih (0 * 10 + (c.toNat - 48)), List.length_cons,
      Nat.pow_succ', Nat.zero_mul, Nat.zero_add, Nat.add_mul, Nat.mul_assoc]
    omega

theorem decVal_cons (c : Byte) (s : List Byte) :
    decVal (c :: s) = (c.toNat - 48) * 10 ^ s.length + decVal s := by
  have := decVal_foldl s (c.toNat - 48)
  unfold decVal at *
  rw [List.foldl_cons]
  simpa using this

theorem decVal_snoc (s : List Byte) (c : Byte) :
    decVal (s ++ [c]) = decVal s * 10 + (c.toNat - 48) := by
  unfold decVal; rw [List.foldl_append]; rfl

theorem decVal_lt (s : List Byte) (h : ∀ c ∈ s, IsDigit c) : decVal s < 10 ^ s.length := by
  induction s with
  | nil => simp [decVal]
  | cons c s ih =>
    rw [decVal_cons, List.length_cons, Nat.pow_succ']
    have h1 := ih (fun c hc => h c (by simp [hc]))
    have h2 := h c (by simp)
    unfold IsDigit at h2
    have : (c.toNat - 48) * 10 ^ s.length ≤ 9 * 10 ^ s.length :=
      Nat.mul_le_mul_right _ (by omega)
    omega

theorem memcmpGt_iff (a : List Byte) : ∀ b : List Byte, a.length = b.length →
    (∀ c ∈ a, IsDigit c) → (∀ c ∈ b, IsDigit c) →
    (memcmpGt a b = true ↔ decVal b < decVal a) := by
  induction a with
  | nil => intro b hl _ _; cases b with
    | nil => simp [memcmpGt]
    | cons _ _ => simp at hl
  | cons x a ih =>
    intro b hl ha hb
    cases b with
    | nil => simp at hl
    | cons y b =>
      simp only [List.length_cons, Nat.add_right_cancel_iff] at hl
      have ha1 := decVal_lt a (fun c hc => ha c (by simp [hc]))
      have hb1 := decVal_lt b (fun c hc => hb c (by simp [hc]))
      have hx := ha x (by simp)
      have hy := hb y (by simp)
      unfold IsDigit at hx hy
      rw [decVal_cons, decVal_cons, ← hl]
      rw [← hl] at hb1
      unfold memcmpGt
      by_cases h1 : y.toNat < x.toNat
      · rw [if_pos h1]
        have : (y.toNat - 48 + 1) * 10 ^ a.length ≤ (x.toNat - 48) * 10 ^ a.length :=
          Nat.mul_le_mul_right _ (by omega)
        rw [Nat.add_mul] at this
        simp only [true_iff]; omega
      · rw [if_neg h1]
        by_cases h2 : x.toNat < y.toNat
        · rw [if_pos h2]
          have : (x.toNat - 48 + 1) * 10 ^ a.length ≤ (y.toNat - 48) * 10 ^ a.length :=
            Nat.mul_le_mul_right _ (by omega)
          rw [Nat.add_mul] at this
          simp only [Bool.false_eq_true, false_iff]; omega
        · rw [if_neg h2, ih b hl (fun c hc => ha c (by simp [hc])) (fun c hc => hb c (by simp [hc])),
            show x.toNat = y.toNat by omega]
          omega

theorem parseIntLoop_spec (s : List Byte) : ∀ a : Nat, (∀ c ∈ s, IsDigit c) →
    a * 10 ^ s.length + decVal s < 2 ^ 63 →
    parseIntLoop (a : Int) s = some ((a * 10 ^ s.length + decVal s : Nat) : Int) := by
  induction s with
  | nil => intro a _ _; simp [parseIntLoop, decVal]
  | cons c s ih =>
    intro a h hlt
    have hc := h c (by simp)
    unfold IsDigit at hc
    have hd : ((c.toNat : Int) - 48) = ((c.toNat - 48 : Nat) : Int) := by omega
    rw [decVal_cons, List.length_cons, Nat.pow_succ'] at hlt ⊢
    have hp : 1 ≤ 10 ^ s.length := Nat.pos_of_ne_zero (by simp)
    have h1 : (a * 10 + (c.toNat - 48)) * 10 ^ s.length + decVal s =
        a * (10 * 10 ^ s.length) + ((c.toNat - 48) * 10 ^ s.length + decVal s) := by
      rw [Nat.add_mul, Nat.mul_assoc]; omega
    have h2 : a * 10 + (c.toNat - 48) ≤ (a * 10 + (c.toNat - 48)) * 10 ^ s.length :=
      Nat.le_mul_of_pos_right _ hp
    unfold parseIntLoop
    rw [hd, show (a : Int) * 10 = ((a * 10 : Nat) : Int) by omega, ← Int.natCast_add]
    rw [if_pos (by unfold isInt64; simp only [decide_eq_true_eq]; omega),
      ih _ (fun c hc => h c (by simp [hc])) (by omega), h1]

theorem maxint_digits : ∀ c ∈ MAXINTSTR, IsDigit c := by
  unfold IsDigit; decide

theorem decVal_maxint : decVal MAXINTSTR = 9223372036854775807 := by decide +kernel
theorem decVal_maxint18 : decVal (MAXINTSTR.take 18) = 922337203685477580 := by decide +kernel

/-- The overflow check on the digits after the sign. -/
theorem memcmp_maxint (m : List Byte) (h : ∀ c ∈ m, IsDigit c) (hl : m.length ≤ 19) :
    memcmpGt m (MAXINTSTR.take m.length) = true ↔
      decVal (MAXINTSTR.take m.length) < decVal m := by
  apply memcmpGt_iff
  · rw [List.length_take]; have : MAXINTSTR.length = 19 := rfl; omega
  · exact h
  · intro c hc; exact maxint_digits c (List.mem_of_mem_take hc)

theorem digit_not_sign {c : Byte} (h : IsDigit c) : isSign c = false := by
  unfold isSign; unfold IsDigit at h
  simp; omega

/-- When a literal is accepted: by its digits. -/
theorem intAccepted_unsigned (s : List Byte) (hn : s ≠ []) (h : ∀ c ∈ s, IsDigit c) :
    intAccepted s = true ↔ s.length < 19 ∨ (s.length = 19 ∧ decVal s ≤ 2 ^ 63 - 1) := by
  cases s with
  | nil => exact absurd rfl hn
  | cons c s =>
    have hc := digit_not_sign (h c (by simp))
    unfold intAccepted intTooBig
    simp only [hc]
    by_cases h1 : (c :: s).length < 19
    · simp only [List.length_cons] at h1 ⊢; simp; omega
    · rw [if_neg h1, if_neg (show ¬ (false = true) by simp)]
      by_cases h2 : (c :: s).length > 19
      · rw [if_pos h2]; simp only [List.length_cons] at h1 h2 ⊢; simp; omega
      · rw [if_neg h2]
        have h3 : (c :: s).length = 19 := by omega
        have h4 := memcmp_maxint (c :: s) h (by omega)
        rw [h3] at h4 ⊢
        rw [show MAXINTSTR.take 19 = MAXINTSTR from rfl, decVal_maxint] at h4
        rw [show MAXINTSTR.take 19 = MAXINTSTR from rfl]
        simp only [ge_iff_le, Nat.le_refl, decide_true, Bool.true_and, Bool.not_eq_true',
          Nat.lt_irrefl, false_or, true_and]
        rw [← Bool.not_eq_true, h4]; omega

theorem intAccepted_signed (c : Byte) (s : List Byte) (hc : isSign c = true)
    (h : ∀ c ∈ s, IsDigit c) :
    intAccepted (c :: s) = true ↔ s.length < 18 ∨
      (s.length = 18 ∧ decVal s ≤ 922337203685477580) ∨
      (s.length = 19 ∧ decVal s ≤ 2 ^ 63 - 1) := by
  unfold intAccepted intTooBig
  simp only [hc, List.length_cons]
  by_cases h1 : s.length + 1 < 19
  · simp; omega
  · rw [if_neg h1, if_pos trivial]
    by_cases h2 : s.length > 19
    · rw [if_pos h2]; simp; omega
    · rw [if_neg h2]
      have h3 : s.length = 18 ∨ s.length = 19 := by omega
      have h4 := memcmp_maxint s h (by omega)
      rcases h3 with h3 | h3
      · rw [h3] at h4
        simp only [h3]
        rw [decVal_maxint18] at h4
        simp only [ge_iff_le, Nat.reduceAdd, Nat.le_refl, decide_true, Bool.true_and,
          Bool.not_eq_true', Nat.lt_irrefl, false_or, true_and]
        rw [← Bool.not_eq_true, h4]; omega
      · rw [h3] at h4
        simp only [h3]
        rw [show MAXINTSTR.take 19 = MAXINTSTR from rfl, decVal_maxint] at h4
        rw [show MAXINTSTR.take 19 = MAXINTSTR from rfl]
        simp only [ge_iff_le, Nat.reduceAdd, Nat.reduceLeDiff, decide_true, Bool.true_and,
          Bool.not_eq_true']
        rw [← Bool.not_eq_true, h4]; simp

/-! ### `sprintf` -/

theorem ofNat_digit (n : Nat) (h : n < 10) : (UInt8.ofNat (48 + n)).toNat = 48 + n := by
  rw [UInt8.toNat_ofNat']; omega

theorem decDigits_spec (fuel : Nat) : ∀ n, 1 ≤ fuel → n < 10 ^ fuel →
    (∀ c ∈ decDigits fuel n, IsDigit c) ∧ decVal (decDigits fuel n) = n ∧
    decDigits fuel n ≠ [] ∧ (n ≠ 0 → 10 ^ ((decDigits fuel n).length - 1) ≤ n) ∧
    (n = 0 → (decDigits fuel n).length = 1) := by
  induction fuel with
  | zero => intro n h; omega
  | succ fuel ih =>
    intro n _ hn
    unfold decDigits
    by_cases h : n < 10
    · rw [if_pos h]
      have := ofNat_digit n h
      refine ⟨?_, ?_, by simp, ?_, by simp⟩
      · intro c hc
        simp only [List.mem_singleton] at hc
        subst hc; unfold IsDigit; omega
      · unfold decVal; simp only [List.foldl_cons, List.foldl_nil]; omega
      · intro _; simp; omega
    · rw [if_neg h]
      rw [Nat.pow_succ] at hn
      have hf : 1 ≤ fuel := by
        cases fuel with
        | zero => simp at hn; omega
        | succ _ => omega
      obtain ⟨h1, h2, h3, h4, _⟩ := ih (n / 10) hf (by omega)
      have hd := ofNat_digit (n % 10) (by omega)
      refine ⟨?_, ?_, by simp, ?_, by omega⟩
      · intro c hc
        rw [List.mem_append, List.mem_singleton] at hc
        rcases hc with hc | rfl
        · exact h1 c hc
        · unfold IsDigit; omega
      · rw [decVal_snoc, h2, hd]; omega
      · intro _
        have h5 := h4 (by omega)
        have h6 : 1 ≤ (decDigits fuel (n / 10)).length := List.length_pos_iff.2 h3
        rw [List.length_append, List.length_singleton,
          show (decDigits fuel (n / 10)).length + 1 - 1 =
            ((decDigits fuel (n / 10)).length - 1) + 1 by omega, Nat.pow_succ]
        omega

/-- The length of a numeral, by powers of ten. -/
theorem decDigits_length (n k : Nat) (hn : n < 10 ^ 20) (hk : 1 ≤ k) :
    (decDigits 20 n).length ≤ k ↔ n < 10 ^ k := by
  obtain ⟨h1, h2, h3, h4, h5⟩ := decDigits_spec 20 n (by omega) hn
  have h6 : 1 ≤ (decDigits 20 n).length := List.length_pos_iff.2 h3
  constructor
  · intro h
    have := decVal_lt _ h1
    rw [h2] at this
    exact Nat.lt_of_lt_of_le this (Nat.pow_le_pow_right (by omega) h)
  · intro h
    by_cases h0 : n = 0
    · have := h5 h0; omega
    · have h7 := h4 h0
      have h8 := (Nat.pow_lt_pow_iff_right (by omega : 1 < 10)).1 (Nat.lt_of_le_of_lt h7 h)
      omega

end Ron
