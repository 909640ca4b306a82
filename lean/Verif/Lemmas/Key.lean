import Verif.Model.Key
import Verif.Spec.UuidText
import Verif.Lemmas.Bits
/-!
Helper lemmas: the fields of a storage key and its byte image.
-/
namespace Ron
open Spec
namespace Key

theorem mk_hi (id : Uuid) (f : Form) :
    (mk' id f).hi.toNat = f.toNat * 2 ^ 56 + id.origin.toNat % 2 ^ 60 / 16 := by
  have hf : f.toNat < 256 := f.toNat_lt
  have ho : id.origin.toNat % 2 ^ 60 < 2 ^ 60 := Nat.mod_lt _ (by decide)
  show ((id.origin &&& PAYLOAD) >>> 4 ||| (BitVec.ofNat 64 f.toNat <<< 56)).toNat = _
  rw [BitVec.toNat_or, shr_toNat, shl_toNat, PAYLOAD, and_mask_toNat _ 60 (by decide),
    BitVec.toNat_ofNat, Nat.mod_eq_of_lt (a := f.toNat) (by omega),
    Nat.mod_eq_of_lt (a := f.toNat * 2 ^ 56) (by omega), or_mul_pow' _ _ _ (by omega)]

theorem mk_lo (id : Uuid) (f : Form) :
    (mk' id f).lo.toNat = id.origin.toNat % 16 * 2 ^ 60 + id.value.toNat % 2 ^ 60 := by
  have hv : id.value.toNat % 2 ^ 60 < 2 ^ 60 := Nat.mod_lt _ (by decide)
  show ((id.value &&& PAYLOAD) ||| ((id.origin &&& PAYLOAD) <<< 60)).toNat = _
  rw [BitVec.toNat_or, shl_toNat, PAYLOAD, and_mask_toNat _ 60 (by decide),
    and_mask_toNat _ 60 (by decide)]
  have : id.origin.toNat % 2 ^ 60 * 2 ^ 60 % 2 ^ 64 = (id.origin.toNat % 16) * 2 ^ 60 := by omega
  rw [this, or_mul_pow' _ _ _ hv]

theorem form_eq (k : Key) : k.form.toNat = k.hi.toNat / 2 ^ 56 := by
  unfold form
  rw [UInt8.toNat_ofNat', shr_toNat]
  have := k.hi.isLt
  omega

theorem id_value (k : Key) (fl : Nat) : (k.id fl).value.toNat = k.lo.toNat % 2 ^ 60 := by
  show (k.lo &&& PAYLOAD).toNat = _
  rw [PAYLOAD, and_mask_toNat _ 60 (by decide)]

theorem id_origin (k : Key) (fl : Nat) (hf : fl < 16) : (k.id fl).origin.toNat =
    fl * 2 ^ 60 + k.hi.toNat % 2 ^ 56 * 16 + k.lo.toNat / 2 ^ 60 := by
  show (((k.hi <<< 4) &&& PAYLOAD) ||| (k.lo >>> 60) ||| (BitVec.ofNat 64 fl <<< 60)).toNat = _
  have hl := k.lo.isLt
  have hh := k.hi.isLt
  rw [BitVec.toNat_or, BitVec.toNat_or, PAYLOAD, and_mask_toNat _ 60 (by decide), shl_toNat,
    shl_toNat, shr_toNat, BitVec.toNat_ofNat]
  have e1 : k.hi.toNat * 2 ^ 4 % 2 ^ 64 % 2 ^ 60 = (k.hi.toNat % 2 ^ 56) * 2 ^ 4 := by omega
  have e2 : fl % 2 ^ 64 * 2 ^ 60 % 2 ^ 64 = fl * 2 ^ 60 := by omega
  rw [e1, e2, or_mul_pow _ _ 4 (by omega), or_mul_pow' _ _ 60 (by omega)]
  omega

theorem ext_toNat {a b : Key} (h1 : a.hi.toNat = b.hi.toNat) (h2 : a.lo.toNat = b.lo.toNat) :
    a = b := by
  cases a; cases b
  simp only [Key.mk.injEq]
  exact ⟨BitVec.eq_of_toNat_eq h1, BitVec.eq_of_toNat_eq h2⟩

/-! Byte image. -/

theorem leBytes_length (n x : Nat) : (leBytes n x).length = n := by
  induction n generalizing x with
  | zero => rfl
  | succ n ih => simp [leBytes, ih]

theorem memLE_length (w : BitVec 64) : (memLE w).length = 8 := leBytes_length _ _

theorem loadLE_lt (l : List Byte) : loadLE l < 256 ^ l.length := by
  induction l with
  | nil => simp [loadLE]
  | cons b bs ih =>
    simp only [loadLE, List.length_cons, Nat.pow_succ]
    have : b.toNat < 256 := b.toNat_lt
    omega

theorem leBytes_load (l : List Byte) : leBytes l.length (loadLE l) = l := by
  induction l with
  | nil => rfl
  | cons b bs ih =>
    have hb : b.toNat < 256 := b.toNat_lt
    simp only [loadLE, List.length_cons, leBytes]
    have h1 : (b.toNat + 256 * loadLE bs) / 256 = loadLE bs := by omega
    have h2 : UInt8.ofNat (b.toNat + 256 * loadLE bs) = b := by
      rw [← UInt8.toNat_inj, UInt8.toNat_ofNat']; omega
    rw [h1, h2, ih]

theorem load_leBytes (n x : Nat) : loadLE (leBytes n x) = x % 256 ^ n := by
  induction n generalizing x with
  | zero => simp [leBytes, loadLE, Nat.mod_one]
  | succ n ih =>
    simp only [leBytes, loadLE, UInt8.toNat_ofNat', ih]
    rw [show 256 ^ (n + 1) = 256 * 256 ^ n from Nat.pow_succ', Nat.mod_mul]

theorem lexLt_append_eq (a b c d : List Byte) (hlen : a.length = b.length) :
    lexLt (a ++ c) (b ++ d) ↔ lexLt a b ∨ (a = b ∧ lexLt c d) := by
  induction a generalizing b with
  | nil =>
    cases b with
    | nil => simp [lexLt]
    | cons => simp at hlen
  | cons x xs ih =>
    cases b with
    | nil => simp at hlen
    | cons y ys =>
      simp only [List.cons_append, lexLt, List.cons.injEq]
      rw [ih ys (by simpa using hlen)]
      grind

theorem leBytes_inj (n x y : Nat) : leBytes n x = leBytes n y ↔ x % 256 ^ n = y % 256 ^ n := by
  constructor
  · intro h
    have := congrArg loadLE h
    rwa [load_leBytes, load_leBytes] at this
  · intro h
    have h1 := leBytes_load (leBytes n x)
    have h2 := leBytes_load (leBytes n y)
    rw [leBytes_length, load_leBytes] at h1 h2
    rw [← h1, ← h2, h]

theorem leBytes_rev_lt (n x y : Nat) :
    lexLt (leBytes n x).reverse (leBytes n y).reverse ↔ x % 256 ^ n < y % 256 ^ n := by
  induction n generalizing x y with
  | zero => simp [leBytes, lexLt, Nat.mod_one]
  | succ n ih =>
    simp only [leBytes, List.reverse_cons]
    rw [lexLt_append_eq _ _ _ _ (by simp [leBytes_length]), ih]
    have hi : (leBytes n (x / 256)).reverse = (leBytes n (y / 256)).reverse ↔
        x / 256 % 256 ^ n = y / 256 % 256 ^ n := by
      rw [List.reverse_inj, leBytes_inj]
    rw [hi, Nat.pow_succ', Nat.mod_mul, Nat.mod_mul]
    simp only [lexLt, and_false, or_false, UInt8.toNat_ofNat']
    have h1 : x % 256 < 256 := Nat.mod_lt _ (by decide)
    have h2 : y % 256 < 256 := Nat.mod_lt _ (by decide)
    generalize x / 256 % 256 ^ n = p
    generalize y / 256 % 256 ^ n = q
    omega

theorem bswap_bytes (w : BitVec 64) : memLE (bswap w) = (memLE w).reverse := by
  have hlen : (memLE w).reverse.length = 8 := by simp [memLE_length]
  have h := loadLE_lt (memLE w).reverse
  rw [hlen] at h
  have hb : (bswap w).toNat = loadLE (memLE w).reverse := by
    unfold bswap
    rw [BitVec.toNat_ofNat, Nat.mod_eq_of_lt (by omega)]
  have := leBytes_load (memLE w).reverse
  rw [hlen, ← hb] at this
  exact this

theorem loadLE_mem (w : BitVec 64) : loadLE (memLE w) = w.toNat := by
  unfold memLE
  rw [load_leBytes, Nat.mod_eq_of_lt (by have := w.isLt; omega)]

theorem memLE_rev_lt (u w : BitVec 64) :
    lexLt (memLE u).reverse (memLE w).reverse ↔ u.toNat < w.toNat := by
  have hu := u.isLt
  have hw := w.isLt
  unfold memLE
  rw [leBytes_rev_lt, Nat.mod_eq_of_lt (by omega), Nat.mod_eq_of_lt (by omega)]

theorem memLE_rev_eq (u w : BitVec 64) :
    (memLE u).reverse = (memLE w).reverse ↔ u.toNat = w.toNat := by
  have hu := u.isLt
  have hw := w.isLt
  unfold memLE
  rw [List.reverse_inj, leBytes_inj, Nat.mod_eq_of_lt (by omega), Nat.mod_eq_of_lt (by omega)]

theorem bswap_bswap (w : BitVec 64) : bswap (bswap w) = w := by
  apply BitVec.eq_of_toNat_eq
  have h : memLE (bswap (bswap w)) = memLE w := by
    rw [bswap_bytes (bswap w), bswap_bytes w, List.reverse_reverse]
  have := congrArg loadLE h
  rwa [loadLE_mem, loadLE_mem] at this

end Key
end Ron
