import Verif.Lemmas.UuidParser
/-!
Helper lemmas: printed UUIDs are UUID texts; order of printed words.
-/
namespace Ron
open Spec

theorem Word.str_isWord (w : Word) : IsWord w.str := ⟨w.str_ne_nil, w.str_b64⟩

theorem variety_text (n : Nat) (h : n < 16) :
    IsVariety (if n ≠ 0 then [BASE_PUNCT.getD n 0, ch '/'] else []) n := by
  have key : ∀ k : Fin 16, isHex (BASE_PUNCT.getD k.val 0) = true := by decide +kernel
  by_cases h0 : n = 0
  · subst h0; simpa using IsVariety.none
  · rw [if_pos h0]
    have := IsVariety.some (BASE_PUNCT.getD n 0) (key ⟨n, h⟩)
    rwa [base_punct_digit n (by omega)] at this

theorem sep_text (n : Nat) (h : n < 4) : isSep (UUID_PUNCT.getD n 0) = true ∧
    sepCode (UUID_PUNCT.getD n 0) = n := by
  have key : ∀ k : Fin 4, isSep (UUID_PUNCT.getD k.val 0) = true ∧
    sepCode (UUID_PUNCT.getD k.val 0) = k.val := by decide +kernel
  exact key ⟨n, h⟩

theorem wordVal_str (w : Word) : wordVal w.str = w.payload := w.str_val

/-- The origin digits a printed UUID carries. -/
def Uuid.originText (u : Uuid) : List Byte :=
  if u.version ≠ 0 ∨ u.origin ≠ 0#64 then u.origin.str else []

theorem Uuid.str_text (u : Uuid) :
    UuidText u.str u.variety u.value.str u.version u.originText := by
  refine ⟨⟨_, _, rfl, variety_text u.variety u.value.flags_lt, ?_⟩, u.value.str_isWord⟩
  have hv : u.version < 4 := Nat.mod_lt _ (by decide)
  unfold Uuid.originText
  by_cases h : u.version ≠ 0 ∨ u.origin ≠ 0#64
  · rw [if_pos h, if_pos h]
    obtain ⟨h1, h2⟩ := sep_text u.version hv
    have := IsTail.some (UUID_PUNCT.getD u.version 0) u.origin.str h1 u.origin.str_isWord
    rwa [h2] at this
  · rw [if_neg h, if_neg h]
    have : u.version = 0 := by
      rcases Nat.eq_zero_or_pos u.version with h0 | h0
      · exact h0
      · exact absurd (.inl (by omega)) h
    rw [this]; exact .none

/-- What a printed UUID parses back to: the origin's top two bits are gone. -/
theorem Uuid.parse_str (u : Uuid) :
    UuidParser.parse u.str =
      some ⟨u.value, BitVec.ofNat 64 (u.version * 2 ^ 60 + u.origin.payload)⟩ := by
  have hl : u.originText.length ≤ 10 := by
    unfold Uuid.originText; split
    · exact u.origin.str_length_le
    · simp
  rw [UuidParser.parse_text _ _ _ _ _ u.str_text, if_pos ⟨u.value.str_length_le, hl⟩]
  have h1 : wordVal u.value.str = u.value.payload := wordVal_str _
  have h2 : wordVal u.originText = u.origin.payload := by
    unfold Uuid.originText; split
    · exact wordVal_str _
    · rename_i h
      have : u.origin = 0#64 := by
        by_cases h0 : u.origin = 0#64
        · exact h0
        · exact absurd (.inr h0) h
      rw [this]; decide
  unfold Spec.denote
  rw [h1, h2]
  have : u.variety * 2 ^ 60 + u.value.payload = u.value.toNat := u.value.toNat_split.symm
  rw [this, BitVec.ofNat_toNat, BitVec.setWidth_eq]

/-! Order of printed words. -/

theorem base_punct_mono (i j : Nat) (hi : i < 64) (hj : j < 64) :
    ((BASE_PUNCT.getD i 0).toNat < (BASE_PUNCT.getD j 0).toNat ↔ i < j) := by
  have key : ∀ i j : Fin 64,
      ((BASE_PUNCT.getD i.val 0).toNat < (BASE_PUNCT.getD j.val 0).toNat ↔ i.val < j.val) := by
    decide +kernel
  exact key ⟨i, hi⟩ ⟨j, hj⟩

theorem base_punct_inj (i j : Nat) (hi : i < 64) (hj : j < 64) :
    BASE_PUNCT.getD i 0 = BASE_PUNCT.getD j 0 ↔ i = j := by
  constructor
  · intro h
    have h1 := base_punct_mono i j hi hj
    have h2 := base_punct_mono j i hj hi
    rw [h] at h1 h2; omega
  · rintro rfl; rfl

theorem Word.writeFrom_pos_ne_nil (w : Word) (len n : Nat) :
    Word.writeFrom w len (n + 1) ≠ [] := by simp [Word.writeFrom]

theorem writeFrom_lt (a b : Word) (fuel : Nat) : ∀ len, len + fuel = 10 →
    (lexLt (Word.writeFrom a len fuel) (Word.writeFrom b len fuel) ↔
      a.toNat % 64 ^ fuel < b.toNat % 64 ^ fuel) := by
  induction fuel with
  | zero => intro len _; simp [Word.writeFrom, Nat.mod_one, lexLt]
  | succ n ih =>
    intro len hl
    have hd : ∀ w : Word, w.digit len = w.toNat / 64 ^ n % 64 := by
      intro w; unfold Word.digit
      have : 60 - 6 * (len + 1) = 6 * n := by omega
      rw [this, Nat.pow_mul]
    have hlow : ∀ w : Word, w.lower6 (len + 1) = w.toNat % 64 ^ n := by
      intro w; unfold Word.lower6
      have : 60 - 6 * (len + 1) = 6 * n := by omega
      rw [this, Nat.pow_mul]
    have key : ∀ w : Word, w.toNat % 64 ^ (n + 1)
        = (w.toNat / 64 ^ n % 64) * 64 ^ n + w.toNat % 64 ^ n := by
      intro w; rw [Nat.pow_succ, Nat.mod_mul]; grind
    have hpos : 0 < 64 ^ n := Nat.pow_pos (by decide)
    have hma : a.toNat % 64 ^ n < 64 ^ n := Nat.mod_lt _ hpos
    have hmb : b.toNat % 64 ^ n < 64 ^ n := Nat.mod_lt _ hpos
    have hne : ∀ w : Word, w.toNat % 64 ^ n ≠ 0 → Word.writeFrom w (len + 1) n ≠ [] := by
      intro w hw
      cases n with
      | zero => simp [Nat.mod_one] at hw
      | succ m => exact Word.writeFrom_pos_ne_nil _ _ _
    have ih' := ih (len + 1) (by omega)
    simp only [Word.writeFrom]
    rw [key a, key b, hlow a, hlow b, hd a, hd b]
    have hda : a.toNat / 64 ^ n % 64 < 64 := Nat.mod_lt _ (by decide)
    have hdb : b.toNat / 64 ^ n % 64 < 64 := Nat.mod_lt _ (by decide)
    generalize a.toNat / 64 ^ n % 64 = da at *
    generalize b.toNat / 64 ^ n % 64 = db at *
    have htail : lexLt (if a.toNat % 64 ^ n ≠ 0 then Word.writeFrom a (len + 1) n else [])
        (if b.toNat % 64 ^ n ≠ 0 then Word.writeFrom b (len + 1) n else []) ↔
        a.toNat % 64 ^ n < b.toNat % 64 ^ n := by
      by_cases ha : a.toNat % 64 ^ n = 0 <;> by_cases hb : b.toNat % 64 ^ n = 0
      · simp [ha, hb, lexLt]
      · rw [if_neg (by simpa using ha), if_pos hb]
        obtain ⟨x, xs, hx⟩ := List.exists_cons_of_ne_nil (hne b hb)
        rw [hx]; simp only [lexLt, true_iff]; omega
      · rw [if_pos ha, if_neg (show ¬ (b.toNat % 64 ^ n ≠ 0) by simpa using hb)]
        obtain ⟨x, xs, hx⟩ := List.exists_cons_of_ne_nil (hne a ha)
        rw [hx]; simp only [lexLt, false_iff]; omega
      · rw [if_pos ha, if_pos hb]; exact ih'
    simp only [lexLt]
    rw [htail, base_punct_mono da db hda hdb, base_punct_inj da db hda hdb]
    constructor
    · rintro (h | ⟨h1, h2⟩)
      · have : (da + 1) * 64 ^ n ≤ db * 64 ^ n := Nat.mul_le_mul_right _ h
        rw [Nat.succ_mul] at this; omega
      · subst h1; omega
    · intro h
      rcases Nat.lt_trichotomy da db with h1 | h1 | h1
      · exact .inl h1
      · subst h1; exact .inr ⟨rfl, by omega⟩
      · have : (db + 1) * 64 ^ n ≤ da * 64 ^ n := Nat.mul_le_mul_right _ h1
        rw [Nat.succ_mul] at this; omega

theorem Word.str_lt (a b : Word) : lexLt a.str b.str ↔ a.payload < b.payload := by
  have := writeFrom_lt a b 10 0 rfl
  unfold Word.str Word.payload
  rw [this]

end Ron

namespace Ron
open Spec

theorem lexLt_total : ∀ a b : List Byte, ¬ lexLt a b → ¬ lexLt b a → a = b
  | [], [], _, _ => rfl
  | [], _ :: _, h, _ => absurd trivial h
  | _ :: _, [], _, h => absurd trivial h
  | a :: as, b :: bs, h1, h2 => by
    simp only [lexLt, not_or, not_and] at h1 h2
    have hab : a = b := UInt8.toNat_inj.mp (by omega)
    subst hab
    rw [lexLt_total as bs (h1.2 rfl) (h2.2 rfl)]

theorem writeFrom_trim (w : Word) (fuel : Nat) : ∀ len pre, len + fuel = 10 →
    Word.writeFrom w len fuel = pre ++ [ch '0'] → pre = [] ∧ w.toNat % 64 ^ fuel = 0 := by
  induction fuel with
  | zero => intro len pre _ h; simp [Word.writeFrom] at h
  | succ n ih =>
    intro len pre hl h
    have hd : w.digit len = w.toNat / 64 ^ n % 64 := by
      unfold Word.digit
      have : 60 - 6 * (len + 1) = 6 * n := by omega
      rw [this, Nat.pow_mul]
    have hlow : w.lower6 (len + 1) = w.toNat % 64 ^ n := by
      unfold Word.lower6
      have : 60 - 6 * (len + 1) = 6 * n := by omega
      rw [this, Nat.pow_mul]
    simp only [Word.writeFrom] at h
    rw [hlow] at h
    by_cases h0 : w.toNat % 64 ^ n = 0
    · rw [if_neg (by simpa using h0)] at h
      have hp : pre = [] := by
        have := congrArg List.length h
        simp at this
        exact this
      subst hp
      have hz : BASE_PUNCT.getD (w.digit len) 0 = BASE_PUNCT.getD 0 0 :=
        (List.cons.inj h).1.trans (by decide)
      have := (base_punct_inj _ 0 (w.digit_lt len) (by decide)).mp hz
      refine ⟨rfl, ?_⟩
      rw [Nat.pow_succ, Nat.mod_mul, ← hd, this, h0]; simp
    · rw [if_pos h0] at h
      cases pre with
      | nil =>
        have := congrArg List.length h
        cases n with
        | zero => simp [Nat.mod_one] at h0
        | succ m =>
          simp [Word.writeFrom] at this
      | cons p ps =>
        simp only [List.cons_append, List.cons.injEq] at h
        have := ih (len + 1) ps (by omega) h.2
        exact absurd this.2 h0

theorem Word.str_trim (w : Word) (pre : List Byte) (h : w.str = pre ++ [ch '0']) :
    pre = [] ∧ w.toNat % 2 ^ 60 = 0 := writeFrom_trim w 10 0 pre rfl h

end Ron
