import Verif.Model.Atom
/-!
Helper lemmas: bit fields of atoms.
-/
namespace Ron
namespace Atom

theorem lt64_of_lt4 (t : Nat) (ht : t < 4) : t * 2 ^ 62 < 2 ^ 64 := by omega
theorem lt62_of (b e : Nat) (hb : b < 2 ^ 32) (he : e < 2 ^ 30) : e * 2 ^ 32 + b < 2 ^ 62 := by
  omega

theorem rangeWord_toNat (t b e : Nat) (ht : t < 4) (hb : b < 2 ^ 32) (he : e < 2 ^ 30) :
    (rangeWord t b e).toNat = t * 2 ^ 62 + (e * 2 ^ 32 + b) := by
  have h2 := lt64_of_lt4 t ht
  have h1 := lt62_of b e hb he
  have h3 : e % 2 ^ 32 = e := Nat.mod_eq_of_lt (Nat.lt_of_lt_of_le he (by decide))
  have h4 : b % 2 ^ 32 = b := Nat.mod_eq_of_lt hb
  have h5 : (e * 2 ^ 32 + b) % 2 ^ 64 = e * 2 ^ 32 + b :=
    Nat.mod_eq_of_lt (Nat.lt_of_lt_of_le h1 (by decide))
  have h6 : t * 2 ^ 62 % 2 ^ 64 = t * 2 ^ 62 := Nat.mod_eq_of_lt h2
  have h7 := Nat.two_pow_add_eq_or_of_lt h1 t
  unfold rangeWord
  rw [BitVec.toNat_or, BitVec.toNat_ofNat, BitVec.toNat_ofNat, h3, h4, h5, h6, Nat.or_comm,
    Nat.mul_comm t, ← h7]

theorem fields (t b e : Nat) (hb : b < 2 ^ 32) (he : e < 2 ^ 30) :
    (t * 2 ^ 62 + (e * 2 ^ 32 + b)) / 2 ^ 62 = t ∧
    (t * 2 ^ 62 + (e * 2 ^ 32 + b)) / 2 ^ 32 = t * 2 ^ 30 + e ∧
    (t * 2 ^ 62 + (e * 2 ^ 32 + b)) % 2 ^ 32 = b := by
  have h1 := lt62_of b e hb he
  refine ⟨?_, ?_, ?_⟩
  · rw [Nat.add_comm, Nat.add_mul_div_right _ _ (by decide), Nat.div_eq_of_lt h1, Nat.zero_add]
  · omega
  · omega

theorem type_ofRange (t b e : Nat) (ht : t < 4) (hb : b < 2 ^ 30) (he : e < 2 ^ 30) :
    type (ofRange t b e) = t := by
  unfold type ofRange
  simp only
  have hb' : b < 2 ^ 32 := Nat.lt_of_lt_of_le hb (by decide)
  rw [rangeWord_toNat t b e ht hb' he, (fields t b e hb' he).1]

theorem rBegin_ofRange (t b e : Nat) (ht : t < 4) (hb : b < 2 ^ 30) (he : e < 2 ^ 30) :
    rBegin (ofRange t b e) = b := by
  unfold rBegin ofRange
  simp only
  have hb' : b < 2 ^ 32 := Nat.lt_of_lt_of_le hb (by decide)
  rw [rangeWord_toNat t b e ht hb' he, (fields t b e hb' he).2.2]
  exact Nat.mod_eq_of_lt hb

theorem rEnd_ofRange (t b e : Nat) (ht : t < 4) (hb : b < 2 ^ 30) (he : e < 2 ^ 30) :
    rEnd (ofRange t b e) = e := by
  unfold rEnd ofRange
  simp only
  have hb' : b < 2 ^ 32 := Nat.lt_of_lt_of_le hb (by decide)
  rw [rangeWord_toNat t b e ht hb' he, (fields t b e hb' he).2.1, Nat.mul_comm,
    Nat.mul_add_mod]
  exact Nat.mod_eq_of_lt he

theorem valueWord_toNat (n c : Nat) (hn : n < 2 ^ 32) (hc : c < 2 ^ 32) :
    (valueWord n c).toNat = n * 2 ^ 32 + c := by
  unfold valueWord
  rw [BitVec.toNat_ofNat]; omega

theorem cp_valueWord (n c : Nat) (o : Word) (hc : c < 2 ^ 32) : cp ⟨valueWord n c, o⟩ = c := by
  unfold cp valueWord
  simp only [BitVec.toNat_ofNat]; omega

theorem cpSize_valueWord (n c : Nat) (o : Word) (hn : n < 2 ^ 32) :
    cpSize ⟨valueWord n c, o⟩ = n := by
  unfold cpSize valueWord
  simp only [BitVec.toNat_ofNat]; omega

theorem cp_lt (a : Atom) : cp a < 2 ^ 32 := Nat.mod_lt _ (by decide)
theorem cpSize_lt (a : Atom) : cpSize a < 2 ^ 32 := by
  have := a.value.isLt
  unfold cpSize; omega

theorem origin_setCp (a : Atom) (c : Nat) : (setCp a c).origin = a.origin := by
  unfold setCp; with_reducible rfl
theorem origin_setCpSize (a : Atom) (c : Nat) : (setCpSize a c).origin = a.origin := by
  unfold setCpSize; with_reducible rfl
theorem value_consume (a : Atom) (k : Nat) : (consume a k).value = a.value := by
  unfold consume; with_reducible rfl
@[simp] theorem type_setCp (a : Atom) (c : Nat) : type (setCp a c) = type a := by
  unfold type; rw [origin_setCp]
@[simp] theorem type_setCpSize (a : Atom) (c : Nat) : type (setCpSize a c) = type a := by
  unfold type; rw [origin_setCpSize]
@[simp] theorem rBegin_setCp (a : Atom) (c : Nat) : rBegin (setCp a c) = rBegin a := by
  unfold rBegin; rw [origin_setCp]
@[simp] theorem rBegin_setCpSize (a : Atom) (c : Nat) : rBegin (setCpSize a c) = rBegin a := by
  unfold rBegin; rw [origin_setCpSize]
@[simp] theorem rEnd_setCp (a : Atom) (c : Nat) : rEnd (setCp a c) = rEnd a := by
  unfold rEnd; rw [origin_setCp]
@[simp] theorem rEnd_setCpSize (a : Atom) (c : Nat) : rEnd (setCpSize a c) = rEnd a := by
  unfold rEnd; rw [origin_setCpSize]
@[simp] theorem cp_consume (a : Atom) (k : Nat) : cp (consume a k) = cp a := by
  unfold cp; rw [value_consume]
@[simp] theorem cpSize_consume (a : Atom) (k : Nat) : cpSize (consume a k) = cpSize a := by
  unfold cpSize; rw [value_consume]

theorem cp_setCp (a : Atom) (c : Nat) (hc : c < 2 ^ 32) : cp (setCp a c) = c :=
  cp_valueWord _ _ _ hc
theorem cpSize_setCp (a : Atom) (c : Nat) : cpSize (setCp a c) = cpSize a :=
  cpSize_valueWord _ _ _ (cpSize_lt a)
theorem cpSize_setCpSize (a : Atom) (n : Nat) (hn : n < 2 ^ 32) : cpSize (setCpSize a n) = n :=
  cpSize_valueWord _ _ _ hn
theorem cp_setCpSize (a : Atom) (n : Nat) : cp (setCpSize a n) = cp a :=
  cp_valueWord _ _ _ (cp_lt a)

/-- The raw lower half equals the range begin when bits 30 and 31 are clear. -/
def RawOk (a : Atom) : Prop := a.origin.toNat % 2 ^ 32 < 2 ^ 30

theorem consume_toNat (a : Atom) (k : Nat) (h : a.origin.toNat % 2 ^ 32 + k < 2 ^ 32) :
    (consume a k).origin.toNat = a.origin.toNat + k := by
  have := a.origin.isLt
  unfold consume
  simp only [BitVec.toNat_ofNat]; omega

theorem high_add (x k : Nat) (h : x % 2 ^ 32 + k < 2 ^ 30) : (x + k) / 2 ^ 32 = x / 2 ^ 32 := by
  omega

theorem low_add (x k : Nat) (h : x % 2 ^ 32 + k < 2 ^ 30) :
    (x + k) % 2 ^ 32 = x % 2 ^ 32 + k := by omega

theorem top_div (x : Nat) : x / 2 ^ 62 = x / 2 ^ 32 / 2 ^ 30 := by
  rw [Nat.div_div_eq_div_mul]

theorem consume_spec (a : Atom) (k : Nat) (hr : RawOk a) (hk : rBegin a + k < 2 ^ 30) :
    type (consume a k) = type a ∧ rBegin (consume a k) = rBegin a + k ∧
      rEnd (consume a k) = rEnd a ∧ RawOk (consume a k) := by
  unfold RawOk at *
  have h0 : rBegin a = a.origin.toNat % 2 ^ 32 := by unfold rBegin; exact Nat.mod_eq_of_lt hr
  rw [h0] at hk
  have h := consume_toNat a k (by omega)
  have h1 := high_add _ _ hk
  have h2 := low_add _ _ hk
  refine ⟨?_, ?_, ?_, ?_⟩
  · unfold type; rw [h, top_div, h1, ← top_div]
  · rw [h0]; unfold rBegin; rw [h, h2]; exact Nat.mod_eq_of_lt hk
  · unfold rEnd; rw [h, h1]
  · rw [h, h2]; exact hk

theorem rawOk_ofRange (t b e : Nat) (ht : t < 4) (hb : b < 2 ^ 30) (he : e < 2 ^ 30) :
    RawOk (ofRange t b e) := by
  unfold RawOk ofRange
  simp only
  have hb' : b < 2 ^ 32 := Nat.lt_of_lt_of_le hb (by decide)
  rw [rangeWord_toNat t b e ht hb' he, (fields t b e hb' he).2.2]
  exact hb

/-- With a string flag in the higher half the range check of `NextCodepoint` always holds. -/
theorem rawValid_string (a : Atom) (h : type a = tSTRING) (hr : RawOk a) : rawValid a = true := by
  unfold rawValid type tSTRING RawOk at *
  rw [top_div] at h
  simp only [decide_eq_true_eq]; omega

end Atom
end Ron
