/-!
Helper lemmas: shifts, masks and disjoint `or` as arithmetic.
-/
namespace Ron

theorem or_mul_pow (a b k : Nat) (h : b < 2 ^ k) : (a * 2 ^ k) ||| b = a * 2 ^ k + b := by
  rw [Nat.mul_comm, ← Nat.two_pow_add_eq_or_of_lt h]

theorem or_mul_pow' (a b k : Nat) (h : b < 2 ^ k) : b ||| (a * 2 ^ k) = a * 2 ^ k + b := by
  rw [Nat.or_comm, or_mul_pow a b k h]

theorem and_mask_toNat (x : BitVec 64) (k : Nat) (hk : k ≤ 63) :
    (x &&& BitVec.ofNat 64 (2 ^ k - 1)).toNat = x.toNat % 2 ^ k := by
  have hlt : 2 ^ k ≤ 2 ^ 63 := Nat.pow_le_pow_right (by decide) hk
  rw [BitVec.toNat_and, BitVec.toNat_ofNat, Nat.mod_eq_of_lt (by omega), Nat.and_two_pow_sub_one_eq_mod]

theorem shl_toNat (x : BitVec 64) (k : Nat) : (x <<< k).toNat = x.toNat * 2 ^ k % 2 ^ 64 := by
  rw [BitVec.toNat_shiftLeft, Nat.shiftLeft_eq]

theorem shr_toNat (x : BitVec 64) (k : Nat) : (x >>> k).toNat = x.toNat / 2 ^ k := by
  rw [BitVec.toNat_ushiftRight, Nat.shiftRight_eq_div_pow]

end Ron
