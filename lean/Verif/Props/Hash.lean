import Verif.Lemmas.BitCodec
/-!
Properties C11 (bit codec and hash text forms) and C12 (hash matching).
-/
namespace Ron.Props
open Ron

/-! ## C11 -/

/-- C11, hex. Encoding any byte string into hex and decoding the text restores it. -/
theorem C11_hex_round_trip (raw : List Byte) :
    ∃ code, encode 4 HEX_PUNCT raw (8 * raw.length) = some code ∧
      code.length = 2 * raw.length ∧
      decode 4 ABC16 code (4 * code.length) = some (true, raw) := by
  obtain ⟨code, k, h1, h2, h3, h4, h5, h6⟩ := codec_round_trip 4 HEX_PUNCT ABC16 (by decide)
    (by decide) (fun d hd => abc16_hex ⟨d, hd⟩) raw
  refine ⟨code, h1, by omega, ?_⟩
  have : k = 0 := by omega
  subst this
  simpa using h4

/-- C11, Base64 (partial: the bytes come back exactly only for lengths divisible by three;
otherwise a zero byte of padding is appended). -/
theorem C11_base64_round_trip_partial (raw : List Byte) :
    ∃ code, encode 6 BASE_PUNCT raw (8 * raw.length) = some code ∧
      code.length = (8 * raw.length + 5) / 6 ∧
      decode 6 ABC64 code (6 * code.length) =
        some (true, if raw.length % 3 = 0 then raw else raw ++ [0]) := by
  obtain ⟨code, k, h1, h2, h3, h4, h5, h6⟩ := codec_round_trip 6 BASE_PUNCT ABC64 (by decide)
    (by decide) (fun d hd => abc64_base ⟨d, hd⟩) raw
  refine ⟨code, h1, by omega, ?_⟩
  by_cases hm : raw.length % 3 = 0
  · have : k = 0 := by omega
    subst this
    rw [if_pos hm]
    simpa using h4
  · have : k = 1 := by
      have h7 : raw.length = 3 * (raw.length / 3) + raw.length % 3 := (Nat.div_add_mod _ _).symm
      have h8 : raw.length % 3 = 1 ∨ raw.length % 3 = 2 := by omega
      generalize raw.length / 3 = q at *
      rcases h8 with h8 | h8 <;> rw [h8] at h7 <;> rw [h7] at h2 h3 h5 h6 <;> omega
    subst this
    rw [if_neg hm]
    simpa using h4

/-- The claim for Base64: for some bit size computed from the length of the original, decoding
the encoded bytes restores them. -/
def C11_base64_claim : Prop := ∃ size : Nat → Nat, ∀ raw : List Byte,
  ∃ code, encode 6 BASE_PUNCT raw (8 * raw.length) = some code ∧
    decode 6 ABC64 code (size raw.length) = some (true, raw)

/-- It is false: a single byte takes two characters, and reading one character loses two bits
while reading two yields an extra byte. -/
theorem C11_base64_violated : ¬ C11_base64_claim := by
  rintro ⟨size, h⟩
  obtain ⟨code, h1, h2⟩ := h [1]
  have e1 : encode 6 BASE_PUNCT [1] 8 = some [48, 71] := by decide +kernel
  rw [show 8 * [(1 : Byte)].length = 8 from rfl, e1] at h1
  obtain rfl := Option.some.inj h1
  unfold decode at h2
  rcases Nat.lt_or_ge (size [(1 : Byte)].length / 6) 3 with h3 | h3
  · have key : ∀ n : Fin 3, decodeLoop 6 ABC64 n.val 0 0 [48, 71] ≠ some (true, [1]) := by
      decide +kernel
    exact key ⟨_, h3⟩ h2
  · obtain ⟨m, hm⟩ : ∃ m, size [(1 : Byte)].length / 6 = m + 3 := ⟨_, (Nat.sub_add_cancel h3).symm⟩
    rw [hm] at h2
    have a1 : ABC64 48 = some 0 := by decide +kernel
    have a2 : ABC64 71 = some 16 := by decide +kernel
    simp [decodeLoop, a1, a2] at h2

/-- C11, hash texts. The claim: the text form of a full hash parses back to the same hash. -/
def C11_hash_claim : Prop := ∀ h : SHA2, h.known = 256 → h.bits.length = 32 →
  (∀ t, h.hex = some t → SHA2.parseHex t = some h) ∧
  (∀ t, h.base64 = some t → SHA2.parseBase64 t = some h)

/-- What the hash parsers do instead: every text of legal size parses to an all-zero hash, with
the bit count of the text. -/
theorem C11_hash_parse_zero (t : List Byte) :
    (t.length ≤ 64 → SHA2.parseHex t = some ⟨4 * t.length, List.replicate 32 0⟩) ∧
    (t.length ≤ 43 → SHA2.parseBase64 t = some ⟨min (6 * t.length) 256, List.replicate 32 0⟩) := by
  have hd4 : ∀ t : List Byte, decode 4 ABC16 t 0 = some (true, []) := by
    intro t; simp [decode, decodeLoop]
  have hd6 : ∀ t : List Byte, decode 6 ABC64 t 0 = some (true, []) := by
    intro t; simp [decode, decodeLoop]
  constructor
  · intro h
    simp only [SHA2.parseHex, SHA2.parseWith, if_pos h, SHA2.new, hd4]
    simp; omega
  · intro h
    simp only [SHA2.parseBase64, SHA2.parseWith, if_pos h, SHA2.new, hd6]
    simp; omega

/-- The claim is false. -/
theorem C11_hash_violated : ¬ C11_hash_claim := by
  intro h
  have h1 := (h ⟨256, List.replicate 32 1⟩ rfl (by simp)).1
  have hh : SHA2.hex ⟨256, List.replicate 32 1⟩ =
    some (List.replicate 32 [48, 49]).flatten := by decide +kernel
  have h2 := h1 _ hh
  rw [(C11_hash_parse_zero _).1 (by decide)] at h2
  exact absurd h2 (by decide +kernel)

/-- C11, printing. The hex text of a full hash does carry all of its bits: two full hashes with
the same hex text are the same. -/
theorem C11_hex_faithful (a b : SHA2) (ha : a.bits.length = 32) (hb : b.bits.length = 32)
    (ka : a.known = 256) (kb : b.known = 256) (h : a.hex = b.hex) : a = b := by
  obtain ⟨ca, a1, _, a3⟩ := C11_hex_round_trip a.bits
  obtain ⟨cb, b1, _, b3⟩ := C11_hex_round_trip b.bits
  unfold SHA2.hex at h
  rw [ka, kb, show 256 = 8 * a.bits.length by omega, a1, show 8 * a.bits.length = 8 * b.bits.length
    by omega, b1] at h
  obtain rfl := Option.some.inj h
  rw [a3] at b3
  cases a; cases b
  simp_all

/-- Same for Base64. -/
theorem C11_base64_faithful (a b : SHA2) (ha : a.bits.length = 32) (hb : b.bits.length = 32)
    (ka : a.known = 256) (kb : b.known = 256) (h : a.base64 = b.base64) : a = b := by
  obtain ⟨ca, a1, _, a3⟩ := C11_base64_round_trip_partial a.bits
  obtain ⟨cb, b1, _, b3⟩ := C11_base64_round_trip_partial b.bits
  unfold SHA2.base64 at h
  rw [ka, kb, show 256 = 8 * a.bits.length by omega, a1, show 8 * a.bits.length = 8 * b.bits.length
    by omega, b1] at h
  obtain rfl := Option.some.inj h
  rw [a3] at b3
  rw [ha, hb] at b3
  have : a.bits = b.bits := by simpa using b3
  cases a; cases b
  simp_all

example : encode 4 HEX_PUNCT (lit "Hi!") 24 = some (lit "486921") ∧
    encode 6 BASE_PUNCT (lit "Hi!") 24 = some (lit "I6_X") := by decide +kernel

/-! ## C12 -/

/-- Bit `i` of a byte string, most significant bit of the first byte first. -/
def bitAt (bs : List Byte) (i : Nat) : Bool :=
  (bs.getD (i / 8) 0).toNat / 2 ^ (7 - i % 8) % 2 == 1

theorem bitAt_byte_eq (x y : Byte) (t : Nat) (ht : t ≤ 8) :
    (∀ j, j < t → (x.toNat / 2 ^ (7 - j) % 2 == 1) = (y.toNat / 2 ^ (7 - j) % 2 == 1)) ↔
      x.toNat / 2 ^ (8 - t) = y.toNat / 2 ^ (8 - t) := by
  induction t with
  | zero =>
    have hx : x.toNat < 256 := x.toNat_lt
    have hy : y.toNat < 256 := y.toNat_lt
    simp; omega
  | succ t ih =>
    have ih := ih (by omega)
    have e : ∀ n : Nat, n / 2 ^ (8 - t) = n / 2 ^ (8 - (t + 1)) / 2 := by
      intro n
      rw [Nat.div_div_eq_div_mul, ← Nat.pow_succ]
      congr 2; omega
    have e7 : 7 - t = 8 - (t + 1) := by omega
    constructor
    · intro h
      have h1 := ih.mp (fun j hj => h j (by omega))
      have h2 := h t (by omega)
      rw [e7] at h2
      rw [e, e] at h1
      generalize x.toNat / 2 ^ (8 - (t + 1)) = p at *
      generalize y.toNat / 2 ^ (8 - (t + 1)) = q at *
      have h3 : (p % 2 = 1) ↔ (q % 2 = 1) := by
        have := congrArg (fun b : Bool => b = true) h2
        simpa using this
      omega
    · intro h j hj
      rcases Nat.lt_or_ge j t with h1 | h1
      · exact ih.mpr (by rw [e, e, h]) j h1
      · have : j = t := by omega
        subst this
        rw [e7, h]

/-- C12. Two hashes (of 32 bytes) match exactly if they agree on every bit known to both. -/
theorem C12_matches (a b : SHA2) (ha : a.bits.length = 32) (hb : b.bits.length = 32)
    (ka : a.known ≤ 256) (kb : b.known ≤ 256) :
    ∃ r, a.matches b = some r ∧
      (r = true ↔ ∀ i, i < min a.known b.known → bitAt a.bits i = bitAt b.bits i) := by
  unfold SHA2.matches
  generalize hn : min a.known b.known = n
  have hn' : n ≤ 256 := by omega
  rw [if_neg (by omega)]
  have hd : ∀ (l : List Byte) k, k < l.length → l.getD k 0 = l[k]?.getD 0 := by
    intro l k _; simp
  have whole : (∀ i, i < n / 8 * 8 → bitAt a.bits i = bitAt b.bits i) ↔
      a.bits.take (n / 8) = b.bits.take (n / 8) := by
    constructor
    · intro h
      apply List.ext_getElem (by simp; omega)
      intro k h1 h2
      rw [List.length_take] at h1
      rw [List.getElem_take, List.getElem_take]
      have hk := (bitAt_byte_eq (a.bits[k]'(by omega)) (b.bits[k]'(by omega)) 8 (by omega)).mp (by
        intro j hj
        have := h (8 * k + j) (by omega)
        unfold bitAt at this
        have e1 : (8 * k + j) / 8 = k := by omega
        have e2 : (8 * k + j) % 8 = j := by omega
        rw [e1, e2] at this
        rw [List.getD_eq_getElem?_getD, List.getD_eq_getElem?_getD,
          List.getElem?_eq_getElem (by omega), List.getElem?_eq_getElem (by omega)] at this
        exact this)
      rw [← UInt8.toNat_inj]
      simpa using hk
    · intro h i hi
      unfold bitAt
      have hlt : i / 8 < n / 8 := by omega
      have := congrArg (fun l : List Byte => l[i / 8]?) h
      simp only [List.getElem?_take_of_lt hlt] at this
      rw [List.getD_eq_getElem?_getD, List.getD_eq_getElem?_getD, this]
  by_cases ht : a.bits.take (n / 8) = b.bits.take (n / 8)
  · rw [if_neg (by simpa using ht)]
    by_cases h0 : n % 8 = 0
    · rw [if_pos h0]
      refine ⟨true, rfl, ?_⟩
      simp only [true_iff]
      intro i hi
      exact whole.mpr ht i (by omega)
    · rw [if_neg h0]
      have hl1 : n / 8 < a.bits.length := by omega
      have hl2 : n / 8 < b.bits.length := by omega
      rw [List.getElem?_eq_getElem hl1, List.getElem?_eq_getElem hl2]
      refine ⟨_, rfl, ?_⟩
      rw [decide_eq_true_eq, ← bitAt_byte_eq _ _ (n % 8) (by omega)]
      constructor
      · intro h i hi
        rcases Nat.lt_or_ge i (n / 8 * 8) with h1 | h1
        · exact whole.mpr ht i h1
        · have := h (i % 8) (by omega)
          unfold bitAt
          have e : i / 8 = n / 8 := by omega
          rw [e, List.getD_eq_getElem?_getD, List.getD_eq_getElem?_getD,
            List.getElem?_eq_getElem hl1, List.getElem?_eq_getElem hl2]
          exact this
      · intro h j hj
        have := h (n / 8 * 8 + j) (by omega)
        unfold bitAt at this
        have e1 : (n / 8 * 8 + j) / 8 = n / 8 := by omega
        have e2 : (n / 8 * 8 + j) % 8 = j := by omega
        rw [e1, e2, List.getD_eq_getElem?_getD, List.getD_eq_getElem?_getD,
            List.getElem?_eq_getElem hl1, List.getElem?_eq_getElem hl2] at this
        exact this
  · rw [if_pos (by simpa using ht)]
    refine ⟨false, rfl, ?_⟩
    simp only [Bool.false_eq_true, false_iff]
    intro h
    exact ht (whole.mp (fun i hi => h i (by omega)))

/-- C12. Matching is reflexive and symmetric. -/
theorem C12_matches_refl_symm (a b : SHA2) (ha : a.bits.length = 32) (hb : b.bits.length = 32)
    (ka : a.known ≤ 256) (kb : b.known ≤ 256) :
    a.matches a = some true ∧ a.matches b = b.matches a := by
  obtain ⟨r, h1, h2⟩ := C12_matches a a ha ha ka ka
  obtain ⟨s, h3, h4⟩ := C12_matches a b ha hb ka kb
  obtain ⟨t, h5, h6⟩ := C12_matches b a hb ha kb ka
  have hr : r = true := h2.mpr (fun _ _ => rfl)
  refine ⟨by rw [h1, hr], ?_⟩
  rw [h3, h5]
  congr 1
  rw [Bool.eq_iff_iff, h4, h6, Nat.min_comm]
  exact ⟨fun h i hi => (h i hi).symm, fun h i hi => (h i hi).symm⟩

/-- C12. On full hashes matching is equality. -/
theorem C12_matches_full (a b : SHA2) (ha : a.bits.length = 32) (hb : b.bits.length = 32)
    (ka : a.known = 256) (kb : b.known = 256) : a.matches b = some (a.eq b) := by
  unfold SHA2.matches SHA2.eq
  rw [ka, kb]
  show (if a.bits.length < 32 ∨ b.bits.length < 32 then none
    else if a.bits.take 32 ≠ b.bits.take 32 then some false else some true) = _
  rw [List.take_of_length_le (by omega), List.take_of_length_le (by omega), if_neg (by omega)]
  by_cases h : a.bits = b.bits
  · simp [h]
  · rw [if_pos h]; simp [h]

/-- The bit counts the parsers produce and the constructor sets are within bounds, so the
hypotheses hold for every hash made by the public constructors. -/
theorem C12_bounds (t : List Byte) (h : SHA2) (hh : SHA2.parseHex t = some h) :
    h.bits.length = 32 ∧ h.known ≤ 256 := by
  rcases Nat.lt_or_ge 64 t.length with h1 | h1
  · rw [SHA2.parseHex, SHA2.parseWith, if_neg (by omega)] at hh
    exact absurd hh (by simp)
  · rw [(C11_hash_parse_zero t).1 h1] at hh
    obtain rfl := Option.some.inj hh
    exact ⟨by simp, by simp; omega⟩

/-- Non-vacuity: an abbreviated hash of 12 bits and a full one that agree, and two that differ
in the twelfth bit. -/
example : (SHA2.mk 12 (0xAB :: 0xC0 :: List.replicate 30 0)).matches
      ⟨256, 0xAB :: 0xCF :: List.replicate 30 7⟩ = some true ∧
    (SHA2.mk 12 (0xAB :: 0xC0 :: List.replicate 30 0)).matches
      ⟨256, 0xAB :: 0xD0 :: List.replicate 30 7⟩ = some false := by decide +kernel

end Ron.Props
