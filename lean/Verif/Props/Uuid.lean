import Verif.Lemmas.UuidText
/-!
Properties C01-C05: words and UUIDs.
-/
namespace Ron.Props
open Ron Spec

/-! ## C01 — Base64 word text round trip -/

/-- C01. Printing the payload of any word gives one to ten Base64 characters, the text denotes
the payload, and parsing it with the same flag nibble restores the word. -/
theorem C01_word_round_trip (w : Word) :
    1 ≤ w.str.length ∧ w.str.length ≤ 10 ∧ (∀ c ∈ w.str, isB64 c = true) ∧
    wordVal w.str = w.toNat % 2 ^ 60 ∧
    Word.parse (w.toNat / 2 ^ 60) w.str = some w :=
  ⟨w.str_length_pos, w.str_length_le, w.str_b64, w.str_val, w.parse_str⟩

/-- C01, second half. No trailing zero digit is printed, except the sole digit of zero. -/
theorem C01_no_trailing_zero (w : Word) (pre : List Byte) (h : w.str = pre ++ [ch '0']) :
    pre = [] ∧ w.toNat % 2 ^ 60 = 0 := w.str_trim pre h

/-- The parser takes any text of up to ten digits, trimmed or not. -/
theorem C01_parse_any (f : Nat) (hf : f < 16) (ds : List Byte)
    (hds : ∀ c ∈ ds, isB64 c = true) (hlen : ds.length ≤ 10) :
    ∃ w, Word.parse f ds = some w ∧ w.toNat = f * 2 ^ 60 + wordVal ds := by
  obtain ⟨r, h1, h2⟩ := Word.parse_val f ds hds hlen
  exact ⟨r, h1, by rw [h2, Nat.mod_eq_of_lt hf]; rfl⟩

example : Word.str 0x5000000000000041#64 = lit "0000000011" ∧
    Word.str 0#64 = lit "0" ∧ Word.str (BitVec.ofNat 64 (36 * 2 ^ 54)) = lit "_" := by
  decide +kernel
example : (lit "1").length ≤ 10 ∧ ∀ c ∈ lit "1A_~", isB64 c = true := by decide +kernel

/-! ## C02 — UUID text round trip -/

/-- C02. The UUID constructor restores a printed UUID exactly when the two origin bits above
the version are clear. -/
theorem C02_uuid_round_trip (u : Uuid) :
    UuidParser.parse u.str = some u ↔ u.origin.toNat < 2 ^ 62 := by
  rw [Uuid.parse_str]
  have hs := u.origin.toNat_split
  have hp : u.origin.payload < 2 ^ 60 := Nat.mod_lt _ (by decide)
  have hf := u.origin.flags_lt
  constructor
  · intro h
    have h2 : BitVec.ofNat 64 (u.version * 2 ^ 60 + u.origin.payload) = u.origin := by
      have := congrArg (fun o : Option Uuid => o.map (·.origin)) h
      simpa using this
    have h3 := congrArg BitVec.toNat h2
    unfold Uuid.version at h3
    rw [BitVec.toNat_ofNat] at h3
    omega
  · intro h
    have : BitVec.ofNat 64 (u.version * 2 ^ 60 + u.origin.payload) = u.origin := by
      apply BitVec.eq_of_toNat_eq
      unfold Uuid.version
      rw [BitVec.toNat_ofNat]
      omega
    rw [this]

/-- C02, second half: in general exactly those two bits are lost, nothing else. -/
theorem C02_uuid_loss (u : Uuid) :
    ∃ r, UuidParser.parse u.str = some r ∧ r.value = u.value ∧
      r.origin.toNat = u.origin.toNat % 2 ^ 62 := by
  refine ⟨_, Uuid.parse_str u, rfl, ?_⟩
  have hs := u.origin.toNat_split
  have hp : u.origin.payload < 2 ^ 60 := Nat.mod_lt _ (by decide)
  have hf := u.origin.flags_lt
  unfold Uuid.version
  show (BitVec.ofNat 64 _).toNat = _
  rw [BitVec.toNat_ofNat]
  omega

/-- Printed UUIDs are injective on UUIDs with clear top origin bits. -/
theorem C02_str_injective (u v : Uuid) (hu : u.origin.toNat < 2 ^ 62)
    (hv : v.origin.toNat < 2 ^ 62) (h : u.str = v.str) : u = v := by
  have h1 := (C02_uuid_round_trip u).mpr hu
  have h2 := (C02_uuid_round_trip v).mpr hv
  rw [h, h2] at h1
  exact (Option.some.inj h1).symm

/-- Non-vacuity: an event UUID with a variety, and one that does lose a bit. -/
example : (Uuid.mk 0x1A2E000000000000#64 0x2000000000000001#64).origin.toNat < 2 ^ 62 ∧
    (Uuid.mk 0x1A2E000000000000#64 0x2000000000000001#64).str = lit "1/dj+0000000001" ∧
    ¬ (Uuid.mk 0#64 0x8000000000000000#64).origin.toNat < 2 ^ 62 := by decide +kernel

/-! ## C03 — the UUID constructor accepts exactly the grammar -/

/-- C03 (partial: truncated texts are excluded by hypothesis; see `C03_violated`). Any byte
string that is not a truncated UUID text yields the UUID it denotes if it is a complete text
with words of at most ten digits, and FATAL otherwise. The constructor is memory safe on all
byte strings. -/
theorem C03_uuid_grammar_partial (s : List Byte) :
    (∃ u, UuidParser.parse s = some u) ∧
    (∀ vr v ver o, UuidText s vr v ver o →
      UuidParser.parse s =
        if v.length ≤ 10 ∧ o.length ≤ 10 then some (denote vr v ver o) else some Uuid.FATAL) ∧
    (¬ Truncated s → (¬ ∃ vr v ver o, UuidText s vr v ver o) →
      UuidParser.parse s = some Uuid.FATAL) :=
  ⟨UuidParser.parse_total s, fun vr v ver o h => UuidParser.parse_text s vr v ver o h,
   fun h1 h2 => UuidParser.parse_reject s h1 h2⟩

/-- The full claim: whatever is not a complete UUID text with words of at most ten digits is
rejected with FATAL. -/
def C03_claim : Prop :=
  ∀ s, (¬ ∃ vr v ver o, UuidText s vr v ver o ∧ v.length ≤ 10 ∧ o.length ≤ 10) →
    UuidParser.parse s = some Uuid.FATAL

/-- The full claim is false of the code: the empty text is accepted (as NIL), and so are
"A/" and "abc+", cut off in the middle. -/
theorem C03_violated : ¬ C03_claim ∧
    UuidParser.parse [] = some Uuid.NIL ∧
    (∃ u, UuidParser.parse (lit "A/") = some u ∧ u ≠ Uuid.FATAL) ∧
    (∃ u, UuidParser.parse (lit "abc+") = some u ∧ u ≠ Uuid.FATAL) := by
  refine ⟨?_, by decide +kernel, ?_, ?_⟩
  · intro h
    have h1 := h [] (by
      rintro ⟨vr, v, ver, o, ⟨⟨pre, tail, hs, _⟩, hv⟩, _⟩
      have : v = [] := by
        have := congrArg List.length hs
        simp only [List.length_nil, List.length_append] at this
        exact List.eq_nil_of_length_eq_zero (by omega)
      exact hv.1 this)
    revert h1; decide +kernel
  · exact Option.isSome_iff_exists.mp (by decide +kernel) |>.imp fun u hu =>
      ⟨hu, by rintro rfl; revert hu; decide +kernel⟩
  · exact Option.isSome_iff_exists.mp (by decide +kernel) |>.imp fun u hu =>
      ⟨hu, by rintro rfl; revert hu; decide +kernel⟩

/-- Non-vacuity: a complete text, and a string that is neither complete nor truncated. -/
example : UuidText (lit "1/fm+A") 1 (lit "fm") 2 (lit "A") := by
  refine ⟨⟨lit "1/", lit "+A", by decide +kernel, ?_, ?_⟩, by decide, by decide +kernel⟩
  · exact IsVariety.some (ch '1') (by decide)
  · exact IsTail.some (ch '+') (lit "A") (by decide) ⟨by decide, by decide +kernel⟩
example : UuidParser.parse (lit "ab c") = some Uuid.FATAL := by decide +kernel

/-! ## C04 — UUID comparison -/

/-- C04. `<` on UUIDs is a strict total order... -/
theorem C04_uuid_order (a b c : Uuid) :
    a.lt a = false ∧ (a.lt b = true → b.lt c = true → a.lt c = true) ∧
    ((a.lt b = true ∧ a ≠ b ∧ b.lt a = false) ∨ (a.lt b = false ∧ a = b ∧ b.lt a = false) ∨
      (a.lt b = false ∧ a ≠ b ∧ b.lt a = true)) := by
  have ext : ∀ x y : Word, x = y ↔ x.toNat = y.toNat := fun x y => BitVec.toNat_inj.symm
  have uext : ∀ x y : Uuid, x = y ↔ x.value.toNat = y.value.toNat ∧
      x.origin.toNat = y.origin.toNat := by
    intro x y
    cases x; cases y
    simp [ext]
  refine ⟨?_, ?_, ?_⟩
  · simp [Uuid.lt]
  · simp only [Uuid.lt, Bool.or_eq_true, decide_eq_true_eq, Bool.and_eq_true, ext]
    omega
  · simp only [Uuid.lt, Bool.or_eq_true, decide_eq_true_eq, Bool.and_eq_true, ext, ne_eq, uext,
      ← Bool.not_eq_true]
    omega

/-- ... with the value compared first and the origin second. -/
theorem C04_value_first (a b : Uuid) :
    a.lt b = true ↔ a.value.toNat < b.value.toNat ∨
      (a.value.toNat = b.value.toNat ∧ a.origin.toNat < b.origin.toNat) := by
  simp only [Uuid.lt, Bool.or_eq_true, decide_eq_true_eq, Bool.and_eq_true, ← BitVec.toNat_inj]

/-- The other comparison operators agree with `<`. -/
theorem C04_operators (a b : Uuid) :
    a.gt b = b.lt a ∧ a.le b = (a.lt b || decide (a = b)) ∧
    a.ge b = (b.lt a || decide (a = b)) := by
  have h := (C04_uuid_order a b a).2.2
  refine ⟨rfl, ?_, ?_⟩ <;>
  · rcases h with ⟨h1, h2, h3⟩ | ⟨h1, h2, h3⟩ | ⟨h1, h2, h3⟩ <;>
      (try subst h2) <;> simp_all [Uuid.le, Uuid.ge]

example : Uuid.lt ⟨1#64, 9#64⟩ ⟨2#64, 3#64⟩ = true ∧ Uuid.lt ⟨2#64, 3#64⟩ ⟨2#64, 4#64⟩ = true ∧
    Uuid.lt ⟨2#64, 4#64⟩ ⟨2#64, 3#64⟩ = false := by decide

/-! ## C05 — text order equals numeric order -/

/-- C05. The byte-wise order of printed words is the numeric order of their payloads. -/
theorem C05_text_order (a b : Word) :
    lexLt a.str b.str ↔ a.toNat % 2 ^ 60 < b.toNat % 2 ^ 60 := a.str_lt b

/-- C05, equality. -/
theorem C05_text_eq (a b : Word) : a.str = b.str ↔ a.toNat % 2 ^ 60 = b.toNat % 2 ^ 60 := by
  have ha := a.str_val
  have hb := b.str_val
  constructor
  · intro h; rw [h] at ha; unfold Word.payload at ha hb; omega
  · intro h
    have h1 : ¬ lexLt a.str b.str := by rw [C05_text_order]; omega
    have h2 : ¬ lexLt b.str a.str := by rw [C05_text_order]; omega
    exact lexLt_total _ _ h1 h2

example : lexLt (Word.str 0x5000000000000041#64) (Word.str 0x0100000000000000#64) ∧
   ¬ lexLt (Word.str 0x0100000000000000#64) (Word.str 0x0100000000000000#64) := by decide +kernel

end Ron.Props
