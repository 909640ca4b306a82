import Verif.Model.Word
import Verif.Lemmas.Bytes
/-!
Helper lemmas about word printing and parsing.
-/
namespace Ron
namespace Word

theorem toNat_lt (w : Word) : w.toNat < 2 ^ 64 := w.isLt

theorem flags_lt (w : Word) : w.flags < 16 := by
  unfold flags; have := w.isLt; omega

theorem digit_lt (w : Word) (l : Nat) : w.digit l < 64 := Nat.mod_lt _ (by decide)

theorem writeFrom_b64 (w : Word) (len fuel : Nat) : ∀ c ∈ writeFrom w len fuel, isB64 c = true := by
  induction fuel generalizing len with
  | zero => simp [writeFrom]
  | succ n ih =>
    intro c hc
    simp only [writeFrom, List.mem_cons] at hc
    rcases hc with rfl | hc
    · exact base_punct_b64 _ (digit_lt w len)
    · split at hc
      · exact ih _ c hc
      · simp at hc

theorem writeFrom_length (w : Word) (len fuel : Nat) : (writeFrom w len fuel).length ≤ fuel := by
  induction fuel generalizing len with
  | zero => simp [writeFrom]
  | succ n ih =>
    simp only [writeFrom, List.length_cons]
    split
    · have := ih (len + 1); omega
    · simp

theorem writeFrom_val (w : Word) (fuel : Nat) : ∀ len, len + fuel = 10 →
    b64nat (writeFrom w len fuel) * 64 ^ (fuel - (writeFrom w len fuel).length)
      = w.toNat % 64 ^ fuel := by
  induction fuel with
  | zero => intro len _; simp [writeFrom, b64nat, Nat.mod_one]
  | succ n ih =>
    intro len hl
    have hlen := writeFrom_length w (len + 1) n
    have hd : w.digit len = w.toNat / 64 ^ n % 64 := by
      unfold digit
      have : 60 - 6 * (len + 1) = 6 * n := by omega
      rw [this, Nat.pow_mul]
    have hlow : w.lower6 (len + 1) = w.toNat % 64 ^ n := by
      unfold lower6
      have : 60 - 6 * (len + 1) = 6 * n := by omega
      rw [this, Nat.pow_mul]
    have key : w.toNat % 64 ^ (n + 1) = (w.toNat / 64 ^ n % 64) * 64 ^ n + w.toNat % 64 ^ n := by
      rw [Nat.pow_succ, Nat.mod_mul]; grind
    simp only [writeFrom]
    split
    · rename_i hne
      rw [b64nat_cons, base_punct_digit _ (digit_lt w len), hd, List.length_cons,
        Nat.add_sub_add_right, Nat.add_mul, ih (len + 1) (by omega), key, Nat.mul_assoc,
        ← Nat.pow_add, Nat.add_sub_cancel' hlen]
    · rename_i hne
      have h0 : w.toNat % 64 ^ n = 0 := by rw [← hlow]; simpa using hne
      rw [b64nat_cons, base_punct_digit _ (digit_lt w len), hd, key, h0]
      simp [b64nat]

theorem str_b64 (w : Word) : ∀ c ∈ w.str, isB64 c = true := writeFrom_b64 w 0 10

theorem str_length_le (w : Word) : w.str.length ≤ 10 := writeFrom_length w 0 10

theorem str_ne_nil (w : Word) : w.str ≠ [] := by simp [str, writeFrom]

theorem str_length_pos (w : Word) : 1 ≤ w.str.length :=
  List.length_pos_iff.mpr (str_ne_nil w)

theorem str_val (w : Word) : b64nat w.str * 64 ^ (10 - w.str.length) = w.payload := by
  have := writeFrom_val w 10 0 rfl
  simpa [str, payload] using this

theorem parseLoop_val (ds : List Byte) (hds : ∀ c ∈ ds, isB64 c = true) :
    ∀ acc : Word, acc.toNat * 64 ^ ds.length + 64 ^ ds.length ≤ 2 ^ 64 →
    ∃ r, parseLoop acc ds = some r ∧ r.toNat = acc.toNat * 64 ^ ds.length + b64nat ds := by
  induction ds with
  | nil => intro acc _; exact ⟨acc, rfl, by simp [b64nat]⟩
  | cons c cs ih =>
    intro acc hacc
    have hc := hds c (by simp)
    have hd := b64digit_lt c hc
    simp only [List.length_cons, Nat.pow_succ] at hacc
    have hpos : 0 < 64 ^ cs.length := Nat.pow_pos (by decide)
    have hacc2 : acc.toNat * 64 + 64 ≤ 2 ^ 64 := by
      have : (acc.toNat * 64 + 64) * 64 ^ cs.length ≤ 2 ^ 64 := by grind
      calc acc.toNat * 64 + 64 = (acc.toNat * 64 + 64) * 1 := by omega
        _ ≤ (acc.toNat * 64 + 64) * 64 ^ cs.length := Nat.mul_le_mul_left _ hpos
        _ ≤ 2 ^ 64 := this
    have hnew : ((acc <<< 6) ||| BitVec.ofNat 64 (b64digit c)).toNat
        = acc.toNat * 64 + b64digit c := by
      rw [BitVec.toNat_or, BitVec.toNat_shiftLeft, BitVec.toNat_ofNat, Nat.shiftLeft_eq,
        Nat.mod_eq_of_lt (by omega), Nat.mod_eq_of_lt (by omega : b64digit c < 2 ^ 64)]
      rw [Nat.mul_comm]
      exact (Nat.two_pow_add_eq_or_of_lt (i := 6) hd acc.toNat).symm
    obtain ⟨r, hr, hv⟩ := ih (fun x hx => hds x (by simp [hx]))
      ((acc <<< 6) ||| BitVec.ofNat 64 (b64digit c)) (by
        rw [hnew]
        have : (acc.toNat * 64 + b64digit c) * 64 ^ cs.length + 64 ^ cs.length
            = (acc.toNat * 64 + b64digit c + 1) * 64 ^ cs.length := by grind
        rw [this]
        calc (acc.toNat * 64 + b64digit c + 1) * 64 ^ cs.length
            ≤ (acc.toNat * 64 + 64) * 64 ^ cs.length := Nat.mul_le_mul_right _ (by omega)
          _ ≤ 2 ^ 64 := by grind)
    refine ⟨r, ?_, ?_⟩
    · simp only [parseLoop, ABC_b64 c hc]; exact hr
    · rw [hv, hnew, b64nat_cons, List.length_cons, Nat.pow_succ]; grind

/-- Parsing 1..10 Base64 characters: flags on top, the numeral left-aligned below. -/
theorem parse_val (f : Nat) (ds : List Byte) (hds : ∀ c ∈ ds, isB64 c = true)
    (hlen : ds.length ≤ 10) :
    ∃ r, parse f ds = some r ∧
      r.toNat = (f % 16) * 2 ^ 60 + b64nat ds * 64 ^ (10 - ds.length) := by
  have hf : f % 16 < 16 := Nat.mod_lt _ (by decide)
  have hp : (64:Nat) ^ ds.length * 64 ^ (10 - ds.length) = 64 ^ 10 := by
    rw [← Nat.pow_add]; congr 1; omega
  have hpow : (64:Nat) ^ ds.length ≤ 64 ^ 10 := Nat.pow_le_pow_right (by decide) hlen
  have hff : (BitVec.ofNat 64 (f % 16)).toNat = f % 16 := by
    rw [BitVec.toNat_ofNat, Nat.mod_eq_of_lt (by omega)]
  obtain ⟨r, hr, hv⟩ := parseLoop_val ds hds (BitVec.ofNat 64 (f % 16)) (by
    rw [hff]
    calc f % 16 * 64 ^ ds.length + 64 ^ ds.length = (f % 16 + 1) * 64 ^ ds.length := by grind
      _ ≤ 16 * 64 ^ 10 := Nat.mul_le_mul (by omega) hpow
      _ = 2 ^ 64 := by decide)
  refine ⟨r <<< (6 * (10 - ds.length)), by simp [parse, hlen, hr], ?_⟩
  have hb := b64nat_lt ds hds
  have htot : f % 16 * 64 ^ 10 + b64nat ds * 64 ^ (10 - ds.length) < 2 ^ 64 := by
    have h1 : b64nat ds * 64 ^ (10 - ds.length) < 64 ^ 10 := by
      rw [← hp]; exact Nat.mul_lt_mul_of_pos_right hb (Nat.pow_pos (by decide))
    omega
  rw [BitVec.toNat_shiftLeft, hv, hff, Nat.shiftLeft_eq, Nat.pow_mul]
  have : (f % 16 * 64 ^ ds.length + b64nat ds) * (2 ^ 6) ^ (10 - ds.length)
      = f % 16 * 64 ^ 10 + b64nat ds * 64 ^ (10 - ds.length) := by
    rw [← hp]; grind
  rw [this, Nat.mod_eq_of_lt htot]

theorem toNat_split (w : Word) : w.toNat = w.flags * 2 ^ 60 + w.payload := by
  unfold flags payload; omega

theorem parse_str (w : Word) : parse w.flags w.str = some w := by
  obtain ⟨r, hr, hv⟩ := parse_val w.flags w.str (str_b64 w) (str_length_le w)
  rw [hr]
  congr 1
  apply BitVec.eq_of_toNat_eq
  rw [hv, str_val, Nat.mod_eq_of_lt (flags_lt w), ← toNat_split]

end Word
end Ron
