import Verif.Spec.Calendar
import Verif.Lemmas.Bits
/-!
Helper lemmas: calendar words and clock traces.
-/
namespace Ron
open Spec

/-- One `ret <<= k; ret |= f` step. -/
theorem shl_or_toNat (x : BitVec 64) (k f : Nat) (hf : f < 2 ^ k) (hk : k ≤ 63)
    (hx : x.toNat * 2 ^ k < 2 ^ 64) :
    ((x <<< k) ||| BitVec.ofNat 64 f).toNat = x.toNat * 2 ^ k + f := by
  have : 2 ^ k ≤ 2 ^ 63 := Nat.pow_le_pow_right (by decide) hk
  rw [BitVec.toNat_or, shl_toNat, BitVec.toNat_ofNat, Nat.mod_eq_of_lt hx,
    Nat.mod_eq_of_lt (by omega), or_mul_pow _ _ _ hf]

theorem hybridTime_toNat (t : Tm) (h : InEra t) (nanos : Nat) (hn : nanos < 10 ^ 9) :
    (hybridTime t nanos).toNat =
      ((((((t.year - 2010) * 12 + t.mon) * 2 ^ 6 + (t.mday - 1)) * 2 ^ 6 + t.hour) * 2 ^ 6 + t.min)
        * 2 ^ 6 + t.sec) * 2 ^ 24 + nanos / 100 := by
  obtain ⟨h1, h2, h3, h4, h5, h6, h7, h8⟩ := h
  have hy : ((BitVec.ofNat 32 t.year - 2010#32).setWidth 64).toNat = t.year - 2010 := by
    rw [BitVec.toNat_setWidth, BitVec.toNat_sub, BitVec.toNat_ofNat, BitVec.toNat_ofNat]
    omega
  have hm : ((BitVec.ofNat 32 t.year - 2010#32).setWidth 64 * 12#64
      + BitVec.ofNat 64 t.mon).toNat = (t.year - 2010) * 12 + t.mon := by
    rw [BitVec.toNat_add, BitVec.toNat_mul, hy, BitVec.toNat_ofNat, BitVec.toNat_ofNat]
    omega
  unfold hybridTime
  simp only
  rw [shl_or_toNat _ 24 (nanos / 100) (by omega) (by decide)] <;>
  rw [shl_or_toNat _ 6 t.sec (by omega) (by decide)] <;>
  rw [shl_or_toNat _ 6 t.min (by omega) (by decide)] <;>
  rw [shl_or_toNat _ 6 t.hour (by omega) (by decide)] <;>
  rw [shl_or_toNat _ 6 (t.mday - 1) (by omega) (by decide)] <;>
  rw [hm] <;> omega

/-- A calendar day is well-formed. -/
def Spec.Day.ok (x : Day) : Prop := x.m < 12 ∧ 1 ≤ x.d ∧ x.d ≤ monthLen x.y x.m

theorem monthLen_bounds (y m : Nat) : 28 ≤ monthLen y m ∧ monthLen y m ≤ 31 := by
  unfold monthLen; split
  · split <;> omega
  · split <;> omega

theorem Day.next_ok (x : Day) (h : x.ok) : x.next.ok := by
  obtain ⟨h1, h2, h3⟩ := h
  unfold Day.next Day.ok
  split
  · exact ⟨h1, by simp, by simpa using (by omega : x.d + 1 ≤ monthLen x.y x.m)⟩
  · split
    · refine ⟨by simp; omega, by simp, ?_⟩
      have := monthLen_bounds x.y (x.m + 1); simp; omega
    · refine ⟨by simp, by simp, ?_⟩
      have := monthLen_bounds (x.y + 1) 0; simp; omega

theorem dayOf_ok (n : Nat) : (dayOf n).ok := by
  induction n with
  | zero => exact ⟨by decide, by decide, by decide⟩
  | succ n ih => exact Day.next_ok _ ih

/-- A linear index in which days grow. -/
def Day.idx (x : Day) : Nat := (x.y * 12 + x.m) * 64 + x.d

theorem Day.next_idx (x : Day) (h : x.ok) : Day.idx x < Day.idx x.next := by
  obtain ⟨h1, h2, h3⟩ := h
  have := monthLen_bounds x.y x.m
  unfold Day.next Day.idx
  split
  · simp only; omega
  · split <;> simp only <;> omega

theorem dayOf_mono {a b : Nat} (h : a < b) : Day.idx (dayOf a) < Day.idx (dayOf b) := by
  induction b with
  | zero => omega
  | succ b ih =>
    have hs := Day.next_idx (dayOf b) (dayOf_ok b)
    rcases Nat.lt_or_ge a b with h1 | h1
    · exact Nat.lt_trans (ih h1) hs
    · have : a = b := by omega
      subst this; exact hs

theorem gmtime_bounds (s : Nat) : (gmtime s).mon < 12 ∧ 1 ≤ (gmtime s).mday ∧
    (gmtime s).mday ≤ 31 ∧ (gmtime s).hour < 24 ∧ (gmtime s).min < 60 ∧ (gmtime s).sec < 60 := by
  obtain ⟨h1, h2, h3⟩ := dayOf_ok (s / 86400)
  have := monthLen_bounds (dayOf (s / 86400)).y (dayOf (s / 86400)).m
  refine ⟨h1, h2, by show (dayOf (s / 86400)).d ≤ 31; omega, ?_, ?_, ?_⟩ <;>
    · simp only [gmtime]; omega

end Ron

namespace Ron

theorem pos_lt {K a b a' b' : Nat} (hb : b < K) (hb' : b' < K) :
    (a * K + b < a' * K + b' ↔ a < a' ∨ (a = a' ∧ b < b')) := by
  constructor
  · intro h
    rcases Nat.lt_trichotomy a a' with h1 | h1 | h1
    · exact .inl h1
    · subst h1; exact .inr ⟨rfl, by omega⟩
    · have : (a' + 1) * K ≤ a * K := Nat.mul_le_mul_right _ h1
      rw [Nat.succ_mul] at this; omega
  · rintro (h | ⟨rfl, h⟩)
    · have : (a + 1) * K ≤ a' * K := Nat.mul_le_mul_right _ h
      rw [Nat.succ_mul] at this; omega
    · omega

theorem pos_eq {K a b a' b' : Nat} (hb : b < K) (hb' : b' < K) :
    (a * K + b = a' * K + b' ↔ a = a' ∧ b = b') := by
  have h1 := pos_lt (a := a) (a' := a') hb hb'
  have h2 := pos_lt (a := a') (a' := a) hb' hb
  constructor
  · intro h; rw [h] at h1 h2; omega
  · rintro ⟨rfl, rfl⟩; rfl

end Ron
