import Verif.Lemmas.Key
import Verif.Lemmas.Clock
/-!
Properties C08, C09 (storage keys), C10 (forms).
-/
namespace Ron.Props
open Ron Spec

/-! ## C08 -/

/-- An event id: a TIME UUID with a plain timestamp as the value. -/
structure IsEvent (u : Uuid) : Prop where
  value : u.value.toNat < 2 ^ 60
  origin : u.origin.toNat / 2 ^ 60 = 2

/-- C08. The key of an event id and a form gives both back. -/
theorem C08_key_round_trip (id : Uuid) (f : Form) (h : IsEvent id) :
    (Key.mk' id f).id = id ∧ (Key.mk' id f).form = f := by
  have hf : f.toNat < 256 := f.toNat_lt
  obtain ⟨hv, ho⟩ := h
  have e1 := Key.mk_hi id f
  have e2 := Key.mk_lo id f
  constructor
  · have hval : ((Key.mk' id f).id).value = id.value := by
      apply BitVec.eq_of_toNat_eq
      rw [Key.id_value, e2]; omega
    have hor : ((Key.mk' id f).id).origin = id.origin := by
      apply BitVec.eq_of_toNat_eq
      rw [Key.id_origin _ _ (by decide), e1, e2]
      show 2 * 2 ^ 60 + _ + _ = _
      omega
    cases hk : (Key.mk' id f).id
    rw [hk] at hval hor
    cases id
    simp only at hval hor
    rw [hval, hor]
  · rw [← UInt8.toNat_inj, Key.form_eq, e1]; omega

/-- C08. Different (event id, form) pairs have different keys. -/
theorem C08_key_injective (a b : Uuid) (f g : Form) (ha : IsEvent a) (hb : IsEvent b)
    (h : Key.mk' a f = Key.mk' b g) : a = b ∧ f = g := by
  obtain ⟨a1, a2⟩ := C08_key_round_trip a f ha
  obtain ⟨b1, b2⟩ := C08_key_round_trip b g hb
  rw [h] at a1 a2
  exact ⟨a1.symm.trans b1, a2.symm.trans b2⟩

/-- The precondition is exact: an id that is not an event id does not survive. -/
theorem C08_only_events (id : Uuid) (f : Form) : (Key.mk' id f).id = id ↔ IsEvent id := by
  constructor
  · intro h
    have hv := Key.id_value (Key.mk' id f) Uuid.vTIME
    have ho := Key.id_origin (Key.mk' id f) Uuid.vTIME (by decide)
    have e1 := Key.mk_hi id f
    have e2 := Key.mk_lo id f
    have hf : f.toNat < 256 := f.toNat_lt
    have hl := id.value.isLt
    rw [show (Key.mk' id f).id Uuid.vTIME = id from h] at hv ho
    rw [e1, e2] at ho
    rw [e2] at hv
    have : Uuid.vTIME = 2 := rfl
    rw [this] at ho
    exact ⟨by omega, by omega⟩
  · exact fun h => (C08_key_round_trip id f h).1

example : IsEvent ⟨0x00ABCDEF12345678#64, 0x2000000000000123#64⟩ := ⟨by decide, by decide⟩

/-! ## C09 -/

/-- C09. Keys order by form, then by yarn (origin), then by time. Holds for all UUIDs; only the
60-bit payloads count. -/
theorem C09_key_order (a b : Uuid) (f g : Form) :
    (Key.mk' a f).lt (Key.mk' b g) = true ↔
      lexNat [f.toNat, a.origin.toNat % 2 ^ 60, a.value.toNat % 2 ^ 60]
             [g.toNat, b.origin.toNat % 2 ^ 60, b.value.toNat % 2 ^ 60] := by
  unfold Key.lt
  rw [Key.mk_hi, Key.mk_hi, Key.mk_lo, Key.mk_lo]
  have ha : a.origin.toNat % 16 = a.origin.toNat % 2 ^ 60 % 16 := by omega
  have hb : b.origin.toNat % 16 = b.origin.toNat % 2 ^ 60 % 16 := by omega
  rw [ha, hb]
  have h1 : a.origin.toNat % 2 ^ 60 < 2 ^ 60 := Nat.mod_lt _ (by decide)
  have h2 : b.origin.toNat % 2 ^ 60 < 2 ^ 60 := Nat.mod_lt _ (by decide)
  have h3 : a.value.toNat % 2 ^ 60 < 2 ^ 60 := Nat.mod_lt _ (by decide)
  have h4 : b.value.toNat % 2 ^ 60 < 2 ^ 60 := Nat.mod_lt _ (by decide)
  generalize a.origin.toNat % 2 ^ 60 = ao at *
  generalize b.origin.toNat % 2 ^ 60 = bo at *
  generalize a.value.toNat % 2 ^ 60 = av at *
  generalize b.value.toNat % 2 ^ 60 = bv at *
  simp only [Bool.or_eq_true, decide_eq_true_eq, Bool.and_eq_true, Bool.not_eq_true',
    decide_eq_false_iff_not, lexNat, and_false, or_false]
  have p1 : f.toNat * 2 ^ 56 + ao / 16 < g.toNat * 2 ^ 56 + bo / 16 ↔
      f.toNat < g.toNat ∨ (f.toNat = g.toNat ∧ ao / 16 < bo / 16) := pos_lt (by omega) (by omega)
  have p2 : g.toNat * 2 ^ 56 + bo / 16 < f.toNat * 2 ^ 56 + ao / 16 ↔
      g.toNat < f.toNat ∨ (g.toNat = f.toNat ∧ bo / 16 < ao / 16) := pos_lt (by omega) (by omega)
  have p3 : ao % 16 * 2 ^ 60 + av < bo % 16 * 2 ^ 60 + bv ↔
      ao % 16 < bo % 16 ∨ (ao % 16 = bo % 16 ∧ av < bv) := pos_lt (by omega) (by omega)
  rw [p1, p2, p3]
  clear p1 p2 p3
  omega

/-- C09. The 16 bytes handed to the storage engine sort byte-wise exactly as the keys do. -/
theorem C09_key_bytes (a b : Key) : lexLt a.bytes b.bytes ↔ a.lt b = true := by
  unfold Key.bytes
  rw [Key.bswap_bytes, Key.bswap_bytes, Key.bswap_bytes, Key.bswap_bytes,
    Key.lexLt_append_eq _ _ _ _ (by simp [Key.memLE_length]), Key.memLE_rev_lt, Key.memLE_rev_lt,
    Key.memLE_rev_eq]
  unfold Key.lt
  simp only [Bool.or_eq_true, decide_eq_true_eq, Bool.and_eq_true, Bool.not_eq_true',
    decide_eq_false_iff_not]
  omega

/-- C09. The byte image is 16 bytes long and reads back as the same key. -/
theorem C09_key_bytes_round_trip (k : Key) :
    k.bytes.length = 16 ∧ Key.ofBytes k.bytes = some k := by
  have hl : k.bytes.length = 16 := by simp [Key.bytes, Key.memLE_length]
  refine ⟨hl, ?_⟩
  unfold Key.ofBytes
  rw [if_pos hl]
  have t : k.bytes.take 8 = Key.memLE (Key.bswap k.hi) := by
    unfold Key.bytes
    rw [List.take_append_of_le_length (by simp [Key.memLE_length])]
    rw [List.take_of_length_le (by simp [Key.memLE_length])]
  have d : k.bytes.drop 8 = Key.memLE (Key.bswap k.lo) := by
    unfold Key.bytes
    rw [List.drop_append_of_le_length (by simp [Key.memLE_length]),
      List.drop_of_length_le (by simp [Key.memLE_length]), List.nil_append]
  rw [t, d, Key.loadLE_mem, Key.loadLE_mem, BitVec.ofNat_toNat, BitVec.ofNat_toNat,
    BitVec.setWidth_eq, BitVec.setWidth_eq, Key.bswap_bswap, Key.bswap_bswap]

/-- C09. All records of one yarn under one form are contiguous: a key between two of them is
one of them. -/
theorem C09_yarn_contiguous (a b c : Uuid) (f g : Form) (y : Nat)
    (ha : a.origin.toNat % 2 ^ 60 = y) (hb : b.origin.toNat % 2 ^ 60 = y)
    (h1 : (Key.mk' a f).lt (Key.mk' c g) = true) (h2 : (Key.mk' c g).lt (Key.mk' b f) = true) :
    g = f ∧ c.origin.toNat % 2 ^ 60 = y ∧
      a.value.toNat % 2 ^ 60 < c.value.toNat % 2 ^ 60 ∧
      c.value.toNat % 2 ^ 60 < b.value.toNat % 2 ^ 60 := by
  rw [C09_key_order] at h1 h2
  simp only [lexNat, and_false, or_false] at h1 h2
  rw [← UInt8.toNat_inj]
  omega

/-- The zero key is the least and the END key the greatest key there is. -/
theorem C09_bounds (k : Key) : k.lt Key.ZERO = false ∧ Key.END.lt k = false := by
  have h1 := k.hi.isLt
  have h2 := k.lo.isLt
  have z1 : Key.ZERO.hi.toNat = 0 := by decide
  have z2 : Key.ZERO.lo.toNat = 0 := by decide
  have e1 : Key.END.hi.toNat = 2 ^ 64 - 1 := by decide
  have e2 : Key.END.lo.toNat = 2 ^ 64 - 1 := by decide
  unfold Key.lt
  rw [z1, z2, e1, e2]
  constructor
  · simp
  · simp only [Bool.or_eq_false_iff, Bool.and_eq_false_iff, decide_eq_false_iff_not]
    omega

example : (Key.mk' ⟨7#64, 0x2000000000000001#64⟩ Form.LWW).lt
    (Key.mk' ⟨5#64, 0x2000000000000002#64⟩ Form.LWW) = true := by decide

/-! ## C10 -/

/-- The published names of the forms, by code (`ron/forms.txt`, comments of `form.hpp`). -/
def formNames : List (List Byte) := [lit "zero", lit "yarn", lit "log", lit "tail", lit "patch",
  lit "span", lit "chain", lit "graph", lit "meta", lit "prev", lit "obj", lit "sha3", lit "vv",
  lit "lww", lit "rga", lit "mx", lit "json", lit "csv", lit "txt", lit "max"]

/-- The name UUID of a published name. -/
def nameUuid (n : List Byte) : Option Uuid := (Word.parse 0 n).map (fun w : Word => ⟨w, 0#64⟩)

/-- C10 (partial: codes 20 to 159 are excluded, see `C10_violated`). On the published table the
two lookups are mutually inverse and agree with the published names; any other UUID except
FATAL maps to the zero form; codes from 160 on map to FATAL. -/
theorem C10_forms_partial :
    (∀ f : Form, f.toNat < 20 → ∃ u, form2uuid f = some u ∧ uuid2form u = f ∧
        (formNames[f.toNat]?).bind nameUuid = some u) ∧
    (∀ u : Uuid, (∃ f : Nat, f < 20 ∧ formName f = some u) → form2uuid (uuid2form u) = some u) ∧
    (∀ u : Uuid, (¬ ∃ f : Nat, f < 20 ∧ formName f = some u) → u ≠ Uuid.FATAL →
        uuid2form u = Form.ZERO) ∧
    uuid2form Uuid.FATAL = Form.ERROR ∧
    (∀ f : Form, 160 ≤ f.toNat → form2uuid f = some Uuid.FATAL) := by
  have A : ∀ f : Fin 20, ∃ u, form2uuid (UInt8.ofNat f.val) = some u ∧
      uuid2form u = UInt8.ofNat f.val ∧
      (formNames[f.val]?).bind nameUuid = some u ∧ formName f.val = some u := by
    intro f
    have h : (form2uuid (UInt8.ofNat f.val)).isSome = true ∧
      (form2uuid (UInt8.ofNat f.val)).map uuid2form = some (UInt8.ofNat f.val) ∧
      (formNames[f.val]?).bind nameUuid = form2uuid (UInt8.ofNat f.val) ∧
      formName f.val = form2uuid (UInt8.ofNat f.val) := by
      revert f; decide +kernel
    obtain ⟨h1, h2, h3, h4⟩ := h
    obtain ⟨u, hu⟩ := Option.isSome_iff_exists.mp h1
    rw [hu] at h2 h3 h4
    exact ⟨u, hu, by simpa using h2, h3, h4⟩
  have hcast : ∀ f : Form, UInt8.ofNat f.toNat = f := fun f => UInt8.ofNat_toNat
  refine ⟨?_, ?_, ?_, by decide +kernel, ?_⟩
  · intro f hf
    obtain ⟨u, h1, h2, h3, _⟩ := A ⟨f.toNat, hf⟩
    simp only [hcast] at h1 h2
    exact ⟨u, h1, h2, h3⟩
  · rintro u ⟨f, hf, hu⟩
    obtain ⟨u', h1, h2, _, h4⟩ := A ⟨f, hf⟩
    rw [hu] at h4
    obtain rfl := Option.some.inj h4
    rw [h2, h1]
  · intro u hu hF
    unfold uuid2form
    have : UUID2FORM.find? (fun e => e.1 == u) = none := by
      rw [List.find?_eq_none]
      intro e he heq
      have he' : e.1 = u := by simpa using heq
      have hT : ∀ e ∈ UUID2FORM, e.1 = Uuid.FATAL ∨ ∃ f : Fin 20, formName f.val = some e.1 := by
        decide +kernel
      rcases hT e he with h | ⟨f, h⟩
      · exact hF (he' ▸ h)
      · exact hu ⟨f.val, f.isLt, he' ▸ h⟩
    rw [this]
  · intro f hf
    unfold form2uuid
    rw [if_neg]
    have : FORMS.length = 20 := rfl
    rw [this]; omega

/-- The full claim about codes: a code outside of the table is rejected (with FATAL) and never
read out of bounds. -/
def C10_claim : Prop := ∀ f : Form, 20 ≤ f.toNat → form2uuid f = some Uuid.FATAL

/-- The claim is false of the code: the bounds check compares with the size in bytes, so codes
20 to 159 read past the end of the table. -/
theorem C10_violated : ¬ C10_claim ∧
    ∀ f : Form, 20 ≤ f.toNat → f.toNat < 160 → form2uuid f = none := by
  have hB : ∀ f : Form, 20 ≤ f.toNat → f.toNat < 160 → form2uuid f = none := by
    intro f h1 h2
    have hl : FORMS.length = 20 := rfl
    unfold form2uuid formName
    rw [if_pos (by rw [hl]; omega), List.getElem?_eq_none (by rw [hl]; omega)]
    rfl
  refine ⟨?_, hB⟩
  intro h
  have h1 := h 20 (by decide)
  rw [hB 20 (by decide) (by decide)] at h1
  exact absurd h1 (by decide)

example : form2uuid Form.LWW = some ⟨881557636825219072#64, 0#64⟩ := by decide +kernel

end Ron.Props
