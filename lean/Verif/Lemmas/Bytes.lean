import Verif.Model.Bytes
/-!
Helper lemmas: decidable statements over all 256 bytes.
-/
namespace Ron

/-- A decidable predicate checked on all 256 byte values holds for every byte. -/
theorem forall_byte {P : Byte → Prop} (h : ∀ n : Fin 256, P (UInt8.ofNat n.val)) :
    ∀ b : Byte, P b := by
  intro b
  have hb : b.toNat < 256 := b.toNat_lt
  have := h ⟨b.toNat, hb⟩
  simpa using this

/-- A character of the RON Base64 alphabet `0-9A-Z_a-z~` (specification, by ranges). -/
def isB64 (c : Byte) : Bool :=
  let n := c.toNat
  (Nat.ble 48 n && Nat.ble n 57) || (Nat.ble 65 n && Nat.ble n 90) || Nat.beq n 95 ||
    (Nat.ble 97 n && Nat.ble n 122) || Nat.beq n 126

/-- Specification: the numeric value of a Base64 character, i.e. its position in
`0-9A-Z_a-z~` (see `base_punct_digit`). -/
def b64digit (c : Byte) : Nat :=
  let n := c.toNat
  bif Nat.ble n 57 then n - 48 else bif Nat.ble n 90 then n - 55 else
  bif Nat.ble n 95 then 36 else bif Nat.ble n 122 then n - 60 else 63

/-- Specification: big-endian Base64 numeral. -/
def b64nat (s : List Byte) : Nat := s.foldl (fun a c => a * 64 + b64digit c) 0

theorem ABC_b64 : ∀ c : Byte, isB64 c = true → ABC c = some (b64digit c) :=
  forall_byte (by decide +kernel)

theorem b64digit_lt : ∀ c : Byte, isB64 c = true → b64digit c < 64 :=
  forall_byte (by decide +kernel)

theorem isB64_lt : ∀ c : Byte, isB64 c = true → c.toNat < 128 :=
  forall_byte (by decide +kernel)

/-- `isB64` is membership in the alphabet of the source. -/
theorem isB64_iff_mem : ∀ c : Byte, isB64 c = true ↔ c.toNat ∈ BASE_PUNCT.map UInt8.toNat :=
  forall_byte (by decide +kernel)

theorem base_punct_fin : ∀ d : Fin 64, isB64 (BASE_PUNCT.getD d.val 0) = true ∧
    b64digit (BASE_PUNCT.getD d.val 0) = d.val := by decide +kernel

theorem base_punct_b64 (d : Nat) (h : d < 64) : isB64 (BASE_PUNCT.getD d 0) = true :=
  (base_punct_fin ⟨d, h⟩).1

theorem base_punct_digit (d : Nat) (h : d < 64) : b64digit (BASE_PUNCT.getD d 0) = d :=
  (base_punct_fin ⟨d, h⟩).2

/-- Code order is alphabet order. -/
theorem base_punct_lt_fin : ∀ a b : Fin 64,
    (BASE_PUNCT.getD a.val 0).toNat < (BASE_PUNCT.getD b.val 0).toNat ↔ a.val < b.val := by
  decide +kernel

theorem base_punct_lt (a b : Nat) (ha : a < 64) (hb : b < 64) :
    (BASE_PUNCT.getD a 0).toNat < (BASE_PUNCT.getD b 0).toNat ↔ a < b :=
  base_punct_lt_fin ⟨a, ha⟩ ⟨b, hb⟩

theorem foldl_b64 (s : List Byte) (a : Nat) :
    s.foldl (fun a c => a * 64 + b64digit c) a = a * 64 ^ s.length + b64nat s := by
  unfold b64nat
  induction s generalizing a with
  | nil => simp
  | cons c cs ih =>
    simp only [List.foldl_cons, List.length_cons]
    rw [ih, ih (0 * 64 + b64digit c), Nat.pow_succ]
    grind

theorem b64nat_cons (c : Byte) (s : List Byte) :
    b64nat (c :: s) = b64digit c * 64 ^ s.length + b64nat s := by
  have h : b64nat (c :: s) = s.foldl (fun a c => a * 64 + b64digit c) (0 * 64 + b64digit c) := rfl
  rw [h, foldl_b64]; simp

theorem b64nat_nil : b64nat [] = 0 := rfl

theorem b64nat_lt (s : List Byte) (h : ∀ c ∈ s, isB64 c = true) : b64nat s < 64 ^ s.length := by
  induction s with
  | nil => simp [b64nat]
  | cons c cs ih =>
    rw [b64nat_cons]
    have h1 := b64digit_lt c (h c (by simp))
    have h2 := ih (fun x hx => h x (by simp [hx]))
    simp only [List.length_cons, Nat.pow_succ]
    have : b64digit c * 64 ^ cs.length ≤ 63 * 64 ^ cs.length := Nat.mul_le_mul_right _ (by omega)
    omega

end Ron
