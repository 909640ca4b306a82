import Verif.Model.BitCodec
import Verif.Lemmas.Bytes
import Verif.Lemmas.Bits
/-!
Helper lemmas: the codec loop as a change of radix.
-/
namespace Ron

/-- Big-endian numeral in radix `2^w`. -/
def radix (w : Nat) (ds : List Nat) : Nat := ds.foldl (fun a d => a * 2 ^ w + d) 0

theorem radix_foldl (w : Nat) (ds : List Nat) (a : Nat) :
    ds.foldl (fun a d => a * 2 ^ w + d) a = a * 2 ^ (w * ds.length) + radix w ds := by
  unfold radix
  induction ds generalizing a with
  | nil => simp
  | cons d ds ih =>
    simp only [List.foldl_cons, List.length_cons]
    rw [ih, ih (0 * 2 ^ w + d), Nat.mul_succ, Nat.pow_add]
    grind

theorem radix_cons (w d : Nat) (ds : List Nat) :
    radix w (d :: ds) = d * 2 ^ (w * ds.length) + radix w ds := by
  have := radix_foldl w ds d
  simpa [radix] using this

theorem radix_append (w : Nat) (a b : List Nat) :
    radix w (a ++ b) = radix w a * 2 ^ (w * b.length) + radix w b := by
  unfold radix
  rw [List.foldl_append, radix_foldl]
  rfl

theorem radix_lt (w : Nat) (ds : List Nat) (h : ∀ d ∈ ds, d < 2 ^ w) :
    radix w ds < 2 ^ (w * ds.length) := by
  induction ds with
  | nil => simp [radix]
  | cons d ds ih =>
    rw [radix_cons, List.length_cons, Nat.mul_succ, Nat.pow_add]
    have h1 := ih (fun x hx => h x (List.mem_cons_of_mem _ hx))
    have h2 : d + 1 ≤ 2 ^ w := h d (List.mem_cons_self ..)
    have h3 := Nat.mul_le_mul_left (2 ^ (w * ds.length)) h2
    rw [Nat.mul_comm d]
    rw [Nat.mul_succ] at h3
    omega

/-- A numeral determines its digits. -/
theorem radix_inj (w : Nat) (a b : List Nat) (hl : a.length = b.length)
    (ha : ∀ d ∈ a, d < 2 ^ w) (hb : ∀ d ∈ b, d < 2 ^ w) (h : radix w a = radix w b) : a = b := by
  induction a generalizing b with
  | nil => exact (List.eq_nil_of_length_eq_zero (by simpa using hl.symm)).symm
  | cons x xs ih =>
    cases b with
    | nil => simp at hl
    | cons y ys =>
      have hl' : xs.length = ys.length := by simpa using hl
      have hx := radix_lt w xs (fun d hd => ha d (List.mem_cons_of_mem _ hd))
      have hy := radix_lt w ys (fun d hd => hb d (List.mem_cons_of_mem _ hd))
      rw [radix_cons, radix_cons, hl'] at h
      rw [hl'] at hx
      have hxy : x = y := by
        have e1 : (x * 2 ^ (w * ys.length) + radix w xs) / 2 ^ (w * ys.length) = x := by
          rw [Nat.mul_comm, Nat.mul_add_div (Nat.two_pow_pos _), Nat.div_eq_of_lt hx]; simp
        have e2 : (y * 2 ^ (w * ys.length) + radix w ys) / 2 ^ (w * ys.length) = y := by
          rw [Nat.mul_comm, Nat.mul_add_div (Nat.two_pow_pos _), Nat.div_eq_of_lt hy]; simp
        rw [h, e2] at e1
        exact e1.symm
      subst hxy
      rw [ih ys hl' (fun d hd => ha d (List.mem_cons_of_mem _ hd))
        (fun d hd => hb d (List.mem_cons_of_mem _ hd)) (by omega)]

theorem drain_spec (w bits : Nat) (hw : 0 < w) : ∀ fuel bc, bc ≤ fuel →
    (drain w bits fuel bc).2 < w ∧
    bc = w * (drain w bits fuel bc).1.length + (drain w bits fuel bc).2 ∧
    (∀ d ∈ (drain w bits fuel bc).1, d < 2 ^ w) ∧
    bits % 2 ^ bc = radix w (drain w bits fuel bc).1 * 2 ^ (drain w bits fuel bc).2
      + bits % 2 ^ (drain w bits fuel bc).2 := by
  intro fuel
  induction fuel with
  | zero => intro bc h; simp [drain, radix]; omega
  | succ n ih =>
    intro bc h
    unfold drain
    by_cases hb : w ≤ bc
    · rw [if_pos hb]
      obtain ⟨i1, i2, i3, i4⟩ := ih (bc - w) (by omega)
      generalize drain w bits n (bc - w) = r at *
      refine ⟨i1, ?_, ?_, ?_⟩
      · simp only [List.length_cons, Nat.mul_succ]; omega
      · intro d hd
        rcases List.mem_cons.mp hd with rfl | hd
        · exact Nat.mod_lt _ (Nat.two_pow_pos _)
        · exact i3 d hd
      · simp only
        rw [radix_cons]
        have e : bc = (bc - w) + w := by omega
        have e2 : bits % 2 ^ bc = bits % 2 ^ (bc - w) + 2 ^ (bc - w) * (bits / 2 ^ (bc - w) % 2 ^ w) := by
          rw (occs := [1]) [e]
          rw [Nat.pow_add, Nat.mod_mul]
        rw [e2, i4, i2]
        have : w * r.1.length + r.2 - r.2 = w * r.1.length := by omega
        rw [Nat.pow_add]
        grind
    · rw [if_neg hb]
      refine ⟨by simp; omega, by simp, by simp, by simp [radix]⟩

theorem codecTurn_spec (wi wo bits bc v : Nat) (hwo : 0 < wo) (hbc : bc < wo)
    (hw : wo + wi ≤ 32) (hv : v < 2 ^ wi) :
    let r := codecTurn wi wo bits bc v
    r.2.2 < wo ∧ bc + wi = wo * r.1.length + r.2.2 ∧ (∀ d ∈ r.1, d < 2 ^ wo) ∧
    bits % 2 ^ bc * 2 ^ wi + v = radix wo r.1 * 2 ^ r.2.2 + r.2.1 % 2 ^ r.2.2 := by
  have hb : bits * 2 ^ wi % 2 ^ 32 = bits % 2 ^ (32 - wi) * 2 ^ wi := by
    have : 32 = (32 - wi) + wi := by omega
    rw (occs := [1]) [this]
    rw [Nat.pow_add, Nat.mul_mod_mul_right]
  obtain ⟨d1, d2, d3, d4⟩ := drain_spec wo ((bits * 2 ^ wi % 2 ^ 32) ||| v) hwo (bc + wi) (bc + wi)
    (Nat.le_refl _)
  refine ⟨d1, d2, d3, ?_⟩
  have key : ((bits * 2 ^ wi % 2 ^ 32) ||| v) % 2 ^ (bc + wi) = bits % 2 ^ bc * 2 ^ wi + v := by
    rw [hb, or_mul_pow _ _ _ hv, Nat.add_comm bc wi, Nat.pow_add, Nat.mod_mul]
    rw [Nat.mul_comm, Nat.mul_add_mod, Nat.mod_eq_of_lt hv, Nat.mul_add_div (Nat.two_pow_pos _),
      Nat.div_eq_of_lt hv, Nat.add_zero, Nat.mod_mod_of_dvd]
    · grind
    · exact Nat.pow_dvd_pow 2 (by omega)
  show bits % 2 ^ bc * 2 ^ wi + v = radix wo _ * 2 ^ _ + ((bits * 2 ^ wi % 2 ^ 32) ||| v) % 2 ^ _
  rw [← key]; exact d4

end Ron

namespace Ron

/-- The numeral of a byte string. -/
def bytesNat (bs : List Byte) : Nat := radix 8 (bs.map UInt8.toNat)

theorem encodeLoop_spec (w : Nat) (coding : List Byte) (hw : 0 < w) (hw2 : w ≤ 8) :
    ∀ n bits bc raw, bc < w → n ≤ raw.length →
    ∃ (ds : List Nat) (pad : Nat), encodeLoop w coding n bits bc raw
        = some (ds.map (fun d => coding.getD d 0)) ∧
      (∀ d ∈ ds, d < 2 ^ w) ∧ pad < w ∧ bc + 8 * n + pad = w * ds.length ∧
      radix w ds = (bits % 2 ^ bc * 2 ^ (8 * n) + bytesNat (raw.take n)) * 2 ^ pad := by
  intro n
  induction n with
  | zero =>
    intro bits bc raw hbc _
    unfold encodeLoop
    by_cases h : 0 < bc
    · rw [if_pos h]
      refine ⟨[bits * 2 ^ (w - bc) % 2 ^ 32 % 2 ^ w], w - bc, rfl, ?_, by omega, ?_, ?_⟩
      · intro d hd
        rw [List.mem_singleton.mp hd]
        exact Nat.mod_lt _ (Nat.two_pow_pos _)
      · simp; omega
      · have e : bits * 2 ^ (w - bc) % 2 ^ 32 % 2 ^ w = bits % 2 ^ bc * 2 ^ (w - bc) := by
          rw [Nat.mod_mod_of_dvd _ (Nat.pow_dvd_pow 2 (by omega))]
          have : w = bc + (w - bc) := by omega
          rw (occs := [2]) [this]
          rw [Nat.pow_add, Nat.mul_mod_mul_right]
        rw [e]
        simp [radix, bytesNat]
    · rw [if_neg h]
      refine ⟨[], 0, rfl, by simp, by omega, by simp; omega, ?_⟩
      have : bc = 0 := by omega
      subst this
      simp [radix, bytesNat, Nat.mod_one]
  | succ n ih =>
    intro bits bc raw hbc hlen
    cases raw with
    | nil => simp at hlen
    | cons b raw =>
      have hb : b.toNat < 2 ^ 8 := b.toNat_lt
      obtain ⟨t1, t2, t3, t4⟩ := codecTurn_spec 8 w bits bc b.toNat hw hbc (by omega) hb
      simp only [encodeLoop]
      generalize codecTurn 8 w bits bc b.toNat = r at *
      obtain ⟨ds, pad, e1, e2, e3, e4, e5⟩ := ih r.2.1 r.2.2 raw t1 (by simpa using hlen)
      refine ⟨r.1 ++ ds, pad, ?_, ?_, e3, ?_, ?_⟩
      · rw [e1]; simp
      · intro d hd
        rcases List.mem_append.mp hd with h | h
        · exact t3 d h
        · exact e2 d h
      · rw [List.length_append, Nat.mul_add w]; omega
      · rw [radix_append, e5]
        have hl : w * ds.length = r.2.2 + 8 * n + pad := e4.symm
        rw [hl, List.take_succ_cons]
        unfold bytesNat
        rw [List.map_cons, radix_cons]
        have hlen2 : (List.map UInt8.toNat (List.take n raw)).length = n := by
          simp at hlen ⊢; omega
        rw [hlen2, Nat.mul_succ, Nat.pow_add 2 (8 * n) 8]
        have hpow : 2 ^ (r.2.2 + 8 * n + pad) = 2 ^ r.2.2 * 2 ^ (8 * n) * 2 ^ pad := by
          rw [Nat.pow_add, Nat.pow_add]
        rw [hpow]
        have t4' := congrArg (fun x => x * 2 ^ (8 * n)) t4
        simp only [Nat.add_mul] at t4'
        grind

theorem decodeLoop_spec (w : Nat) (table : Byte → Option Nat) (hw : 0 < w) (hw2 : w ≤ 8) :
    ∀ (vs : List Nat) (coded : List Byte) (bits bc : Nat), bc < 8 →
    coded.map table = vs.map some → (∀ v ∈ vs, v < 2 ^ w) →
    ∃ (out : List Byte) (pad : Nat), decodeLoop w table vs.length bits bc coded
        = some (true, out) ∧
      pad < 8 ∧ bc + w * vs.length + pad = 8 * out.length ∧
      bytesNat out = (bits % 2 ^ bc * 2 ^ (w * vs.length) + radix w vs) * 2 ^ pad := by
  intro vs
  induction vs with
  | nil =>
    intro coded bits bc hbc _ _
    simp only [List.length_nil, decodeLoop]
    by_cases h : 0 < bc
    · rw [if_pos h]
      refine ⟨[UInt8.ofNat (bits * 2 ^ (8 - bc) % 2 ^ 32)], 8 - bc, rfl, by omega, by simp; omega, ?_⟩
      have e : bits * 2 ^ (8 - bc) % 2 ^ 32 % 2 ^ 8 = bits % 2 ^ bc * 2 ^ (8 - bc) := by
        rw [Nat.mod_mod_of_dvd _ (Nat.pow_dvd_pow 2 (by omega))]
        have : 8 = bc + (8 - bc) := by omega
        rw (occs := [2]) [this]
        rw [Nat.pow_add, Nat.mul_mod_mul_right]
      unfold bytesNat
      rw [List.map_cons, UInt8.toNat_ofNat', e]
      simp [radix]
    · rw [if_neg h]
      refine ⟨[], 0, rfl, by omega, by simp; omega, ?_⟩
      have : bc = 0 := by omega
      subst this
      simp [radix, bytesNat, Nat.mod_one]
  | cons v vs ih =>
    intro coded bits bc hbc hco hv
    cases coded with
    | nil => simp at hco
    | cons c coded =>
      simp only [List.map_cons, List.cons.injEq] at hco
      have hv1 : v < 2 ^ w := hv v (List.mem_cons_self ..)
      obtain ⟨t1, t2, t3, t4⟩ := codecTurn_spec w 8 bits bc v (by decide) hbc (by omega) hv1
      simp only [List.length_cons, decodeLoop, hco.1]
      generalize codecTurn w 8 bits bc v = r at *
      obtain ⟨out, pad, e1, e3, e4, e5⟩ := ih coded r.2.1 r.2.2 t1 hco.2
        (fun x hx => hv x (List.mem_cons_of_mem _ hx))
      refine ⟨r.1.map UInt8.ofNat ++ out, pad, ?_, e3, ?_, ?_⟩
      · rw [e1]; simp
      · rw [List.length_append, List.length_map, Nat.mul_add, Nat.mul_succ]; omega
      · unfold bytesNat at e5 ⊢
        have hmap : (r.1.map UInt8.ofNat).map UInt8.toNat = r.1 := by
          rw [List.map_map]
          conv => rhs; rw [← List.map_id r.1]
          apply List.map_congr_left
          intro d hd
          have := t3 d hd
          show (UInt8.ofNat d).toNat = d
          rw [UInt8.toNat_ofNat', Nat.mod_eq_of_lt this]
        rw [List.map_append, hmap, radix_append, e5, List.length_map]
        have hl : 8 * out.length = r.2.2 + w * vs.length + pad := e4.symm
        rw [hl, radix_cons, Nat.mul_succ, Nat.pow_add 2 (w * vs.length) w]
        have hpow : 2 ^ (r.2.2 + w * vs.length + pad) = 2 ^ r.2.2 * 2 ^ (w * vs.length) * 2 ^ pad := by
          rw [Nat.pow_add, Nat.pow_add]
        rw [hpow]
        have t4' := congrArg (fun x => x * 2 ^ (w * vs.length)) t4
        simp only [Nat.add_mul] at t4'
        grind

theorem bytesNat_inj (a b : List Byte) (hl : a.length = b.length) (h : bytesNat a = bytesNat b) :
    a = b := by
  have : a.map UInt8.toNat = b.map UInt8.toNat := by
    refine radix_inj 8 _ _ (by simpa using hl) ?_ ?_ h <;>
    · intro d hd
      obtain ⟨x, _, rfl⟩ := List.mem_map.mp hd
      exact x.toNat_lt
  exact (List.map_inj_right (fun x y h => UInt8.toNat_inj.mp h)).mp this

theorem bytesNat_zeros (a : List Byte) (k : Nat) :
    bytesNat (a ++ List.replicate k 0) = bytesNat a * 2 ^ (8 * k) := by
  unfold bytesNat
  rw [List.map_append, radix_append]
  have : radix 8 ((List.replicate k (0 : Byte)).map UInt8.toNat) = 0 := by
    induction k with
    | zero => rfl
    | succ k ih => rw [List.replicate_succ, List.map_cons, radix_cons, ih]; simp
  rw [this]; simp

theorem abc16_hex : ∀ d : Fin 16, ABC16 (HEX_PUNCT.getD d.val 0) = some d.val := by decide +kernel
theorem abc64_base : ∀ d : Fin 64, ABC64 (BASE_PUNCT.getD d.val 0) = some d.val := by
  decide +kernel

/-- Encode, then decode all characters: the bytes come back, followed by zero bytes if the code
string holds a whole extra byte of padding. -/
theorem codec_round_trip (w : Nat) (coding : List Byte) (table : Byte → Option Nat)
    (hw : 0 < w) (hw2 : w ≤ 8) (htab : ∀ d, d < 2 ^ w → table (coding.getD d 0) = some d)
    (raw : List Byte) :
    ∃ (code : List Byte) (k : Nat), encode w coding raw (8 * raw.length) = some code ∧
      8 * raw.length ≤ w * code.length ∧ w * code.length < 8 * raw.length + w ∧
      decode w table code (w * code.length) = some (true, raw ++ List.replicate k 0) ∧
      w * code.length ≤ 8 * (raw.length + k) ∧ 8 * (raw.length + k) < w * code.length + 8 := by
  obtain ⟨ds, pad, e1, e2, e3, e4, e5⟩ :=
    encodeLoop_spec w coding hw hw2 raw.length 0 0 raw hw (Nat.le_refl _)
  have htabs : (ds.map (fun d => coding.getD d 0)).map table = ds.map some := by
    rw [List.map_map]
    apply List.map_congr_left
    intro d hd
    exact htab d (e2 d hd)
  obtain ⟨out, p, d1, d2, d3, d4⟩ := decodeLoop_spec w table hw hw2 ds _ 0 0 (by decide) htabs e2
  have hk : raw.length ≤ out.length := by omega
  refine ⟨ds.map (fun d => coding.getD d 0), out.length - raw.length, ?_, ?_, ?_, ?_, ?_, ?_⟩
  · unfold encode; rw [Nat.mul_div_cancel_left _ (by decide)]; exact e1
  · simp; omega
  · simp; omega
  · unfold decode
    rw [List.length_map, Nat.mul_div_cancel_left _ hw, d1]
    congr 2
    apply bytesNat_inj
    · simp; omega
    · rw [bytesNat_zeros, d4, e5]
      simp only [Nat.zero_mod, Nat.zero_mul, Nat.zero_add, List.take_length]
      rw [Nat.mul_assoc, ← Nat.pow_add]
      congr 2
      omega
  · simp; omega
  · simp; omega

end Ron
