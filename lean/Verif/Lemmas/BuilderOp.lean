import Verif.Lemmas.Builder
import Verif.Lemmas.Utf
import Verif.Lemmas.Atom
/-!
What an `Op` gives to the builder.
-/
namespace Ron
open Spec

/-! ### values as texts -/

theorem uuidLit_str {u : Uuid} (h : Plain62 u) : UuidLit u.str u := by
  have hl : u.originText.length ≤ 10 := by
    unfold Uuid.originText; split
    · exact u.origin.str_length_le
    · simp
  refine ⟨_, _, _, _, u.str_text, u.value.str_length_le, hl, ?_⟩
  have h1 : wordVal u.value.str = u.value.payload := wordVal_str _
  have h2 : wordVal u.originText = u.origin.payload := by
    unfold Uuid.originText; split
    · exact wordVal_str _
    · rename_i h
      have : u.origin = 0#64 := by
        by_cases h0 : u.origin = 0#64
        · exact h0
        · exact absurd (.inr h0) h
      rw [this]; decide
  unfold Spec.denote
  rw [h1, h2]
  have e1 : u.variety * 2 ^ 60 + u.value.payload = u.value.toNat := u.value.toNat_split.symm
  have e2 : u.version * 2 ^ 60 + u.origin.payload = u.origin.toNat := by
    have := u.origin.toNat_split
    unfold Plain62 at h
    unfold Uuid.version
    rw [Nat.mod_eq_of_lt (by unfold Word.flags; omega)]
    exact this.symm
  rw [e1, e2, BitVec.ofNat_toNat, BitVec.setWidth_eq, BitVec.ofNat_toNat, BitVec.setWidth_eq]

theorem type_plain62 {u : Uuid} (h : Plain62 u) : Atom.type u = Atom.tUUID := by
  unfold Plain62 at h
  unfold Atom.type Atom.tUUID
  omega

theorem allDigits_of_digits (w : Word) : ∀ fuel len, (∀ c ∈ Word.writeFrom w len fuel, IsDigit c) →
    Word.allDigitsFrom w len fuel = true := by
  intro fuel
  induction fuel with
  | zero => intros; rfl
  | succ n ih =>
    intro len h
    unfold Word.writeFrom at h
    unfold Word.allDigitsFrom
    have h0 : IsDigit (BASE_PUNCT.getD (w.digit len) 0) := h _ (List.mem_cons_self ..)
    unfold IsDigit at h0
    rw [if_pos h0]
    split
    · rename_i h1
      rw [if_pos h1] at h
      exact ih _ (fun c hc => h c (by simp [hc]))
    · rfl

theorem not_digits {u : Uuid} (h : Uuid.isAmbiguous u = false) : ¬ Digits u.str := by
  rintro ⟨-, hd⟩
  have hsep : ∀ k : Fin 4, ¬ IsDigit (UUID_PUNCT.getD k.val 0) := by unfold IsDigit; decide
  unfold Uuid.str at hd
  have h1 : ¬ (u.version ≠ 0 ∨ u.origin ≠ 0#64) := by
    intro hx
    rw [if_pos hx] at hd
    exact hsep ⟨u.version, Nat.mod_lt _ (by decide)⟩ (hd _ (by simp))
  have h2 : u.origin = 0#64 := by
    by_cases h0 : u.origin = 0#64
    · exact h0
    · exact absurd (.inr h0) h1
  have h3 := allDigits_of_digits u.value 10 0 (fun c hc => hd c (by
    simp only [List.mem_append]
    exact .inl (.inr hc)))
  unfold Uuid.isAmbiguous Word.isAllDigits at h
  rw [h3, h2] at h
  simp at h

theorem intLit_write {v : Int} (h1 : -922337203685477580 ≤ v) (h2 : v < 2 ^ 63) :
    ∃ t, writeInt v = some t ∧ IntLit t v := by
  obtain ⟨ha, hb, hc, _⟩ := decDigits_spec 20 v.natAbs (by omega) (by omega)
  have l18 := decDigits_length v.natAbs 18 (by omega) (by omega)
  have l19 := decDigits_length v.natAbs 19 (by omega) (by omega)
  unfold writeInt sprintfInt
  by_cases hn : v < 0
  · rw [if_pos hn]
    refine ⟨_, if_pos (by simp only [List.length_cons]; omega), ?_, ?_⟩
    · have := IntText.minus 45 _ (by decide) hc ha
      rw [hb] at this
      rwa [show -(v.natAbs : Int) = v by omega] at this
    · unfold IntFits
      simp only
      rw [if_pos (by decide), hb]
      omega
  · rw [if_neg hn]
    refine ⟨_, if_pos (by omega), ?_, ?_⟩
    · have := IntText.plain _ hc ha
      rw [hb] at this
      rwa [show (v.natAbs : Int) = v by omega] at this
    · unfold IntFits
      cases hd : decDigits 20 v.natAbs with
      | nil => exact absurd hd hc
      | cons c s =>
        rw [hd] at ha l18 l19 hb
        have := ha c (by simp)
        unfold IsDigit at this
        simp only
        rw [if_neg (by omega), hb]
        omega

theorem plain_high : ∀ b : Byte, 128 ≤ b.toNat → isPlain b = true := forall_byte (by decide +kernel)

theorem cpText_esc {c : Nat} (h : CpOk c) : CpText (utf8escAppend c) (c, false) := by
  obtain ⟨h0, h1, h2⟩ := h
  by_cases hc : c < 128
  · have key : ∀ c : Fin 128, 0 < c.val → c.val ≠ 12 →
        (utf8escAppend c.val = [toChar c.val] ∧ isPlain (toChar c.val) = true ∧ (toChar c.val).toNat = c.val) ∨
        ∃ e, utf8escAppend c.val = [92, e] ∧ (e, c.val) ∈ escapes := by
      intro c h0 h12
      by_cases hs : utf8escAppend c.val = [toChar c.val]
      · left
        revert c
        decide +kernel
      · right
        refine ⟨(utf8escAppend c.val).getD 1 0, ?_⟩
        revert c
        decide +kernel
    rcases key ⟨c, hc⟩ h0 h2 with ⟨k1, k2, k3⟩ | ⟨e, k1, k2⟩
    · simp only at k1 k2 k3
      rw [k1]
      have := CpText.char (Utf8Char.one (toChar c) (by rw [k3]; exact hc)) (by
        intro b hb; rw [List.mem_singleton.1 hb]; exact k2)
      rwa [k3] at this
    · rw [k1]; exact .esc e c k2
  · have : utf8escAppend c = utf8append c := by unfold utf8escAppend; rw [if_neg hc]
    rw [this]
    exact .char (utf8append_char c h1).1 fun b hb => plain_high b (utf8append_high c (by omega) b hb)

theorem strText_esc : ∀ {cps : List Nat}, (∀ c ∈ cps, CpOk c) →
    StrText (cps.flatMap utf8escAppend) (cps.map fun c => (c, false)) := by
  intro cps
  induction cps with
  | nil => intro _; exact .nil
  | cons c cs ih =>
    intro h
    rw [List.flatMap_cons]
    exact .cons (cpText_esc (h c (by simp))) (ih fun x hx => h x (by simp [hx]))

theorem chars_append (a b : List Byte) : chars (a ++ b) = chars a + chars b := by
  unfold chars; simp

theorem chars_one {bs : List Byte} {c : Nat} (h : Utf8Char bs c) : chars bs = 1 := by
  have hlead : ∀ a : Byte, (a.toNat < 0x80 ∨ 0xc0 ≤ a.toNat) →
      (!(Nat.ble 128 a.toNat && Nat.ble a.toNat 191)) = true := forall_byte (by decide +kernel)
  have hcont : ∀ a : Byte, (0x80 ≤ a.toNat ∧ a.toNat < 0xc0) →
      (!(Nat.ble 128 a.toNat && Nat.ble a.toNat 191)) = false := forall_byte (by decide +kernel)
  unfold chars
  cases h with
  | one a h => rw [List.filter_cons, if_pos (hlead a (.inl h))]; rfl
  | two a b ha hb =>
    rw [List.filter_cons, if_pos (hlead a (.inr ha.1)), List.filter_cons, hcont b hb]; rfl
  | three a b c ha hb hc =>
    rw [List.filter_cons, if_pos (hlead a (.inr (by omega))), List.filter_cons, hcont b hb, List.filter_cons, hcont c hc]; rfl
  | four a b c d ha hb hc hd =>
    rw [List.filter_cons, if_pos (hlead a (.inr (by omega))), List.filter_cons, hcont b hb, List.filter_cons, hcont c hc,
      List.filter_cons, hcont d hd]; rfl

theorem chars_flatMap : ∀ {cps : List Nat}, (∀ c ∈ cps, c < 2 ^ 21) →
    chars (cps.flatMap utf8append) = cps.length := by
  intro cps
  induction cps with
  | nil => intro _; rfl
  | cons c cs ih =>
    intro h
    rw [List.flatMap_cons, chars_append, chars_one (utf8append_char c (h c (by simp))).1,
      ih fun x hx => h x (by simp [hx]), List.length_cons]
    omega

theorem length_flatMap_ge : ∀ (cps : List Nat), cps.length ≤ (cps.flatMap utf8append).length := by
  intro cps
  induction cps with
  | nil => simp
  | cons c cs ih =>
    rw [List.flatMap_cons, List.length_append, List.length_cons]
    have : 1 ≤ (utf8append c).length := by
      unfold utf8append
      split
      · simp
      · split
        · simp
        · split <;> simp
    omega

attribute [local irreducible] Atom.type Atom.rBegin Atom.rEnd Atom.cp Atom.cpSize Atom.setCp
  Atom.setCpSize Atom.consume Atom.ofRange Atom.rawValid Uuid.inc

/-! ### strings of an `Op` -/
namespace Op

/-- The atom is at the code point `c` of a string, `rest` are the ones after it. -/
structure At (strings : List Nat) (a : Atom) (c : Nat) (rest : List Nat) : Prop where
  type : Atom.type a = Atom.tSTRING
  cp : Atom.cp a = c
  size : Atom.cpSize a = rest.length
  raw : Atom.RawOk a
  pos : ∃ i suf, a.origin.toNat % 2 ^ 32 = i ∧ i ≤ strings.length ∧ i + rest.length < 2 ^ 30 ∧
    strings.drop i = rest ++ suf

theorem At.mono {strings : List Nat} {a : Atom} {c : Nat} {rest : List Nat}
    (h : At strings a c rest) (t : List Nat) : At (strings ++ t) a c rest := by
  obtain ⟨h1, h2, h3, h4, i, suf, h5, h6, h7, h8⟩ := h
  refine ⟨h1, h2, h3, h4, i, suf ++ t, h5, by rw [List.length_append]; omega, h7, ?_⟩
  rw [List.drop_append_of_le_length h6, h8, List.append_assoc]

theorem At.next {o : Op} {a : Atom} {c d : Nat} {rest : List Nat} (hd : d < 2 ^ 32)
    (h : At o.strings a c (d :: rest)) :
    ∃ a', o.nextCodepoint a = .ok (a', true) ∧ At o.strings a' d rest := by
  obtain ⟨h1, h2, h3, h4, i, suf, h5, h6, h7, h8⟩ := h
  simp only [List.length_cons] at h3 h7
  have hb : Atom.rBegin a = i := by
    unfold Atom.rBegin; rw [h5]; exact Nat.mod_eq_of_lt (by omega)
  have hr2 : Atom.RawOk ((a.setCp d).setCpSize (Atom.cpSize a - 1)) := by
    unfold Atom.RawOk at *
    rw [Atom.origin_setCpSize, Atom.origin_setCp]; exact h4
  have hb2 : Atom.rBegin ((a.setCp d).setCpSize (Atom.cpSize a - 1)) = i := by simp [hb]
  obtain ⟨c1, c2, c3, c4⟩ := Atom.consume_spec ((a.setCp d).setCpSize (Atom.cpSize a - 1)) 1 hr2 (by omega)
  simp only [Atom.type_setCpSize, Atom.type_setCp] at c1
  refine ⟨((a.setCp d).setCpSize (Atom.cpSize a - 1)).consume 1, ?_, ?_, ?_, ?_, c4, i + 1, suf, ?_, ?_, by omega, ?_⟩
  · unfold nextCodepoint
    rw [if_neg (by omega), h5]
    have : o.strings[i]? = some d := by
      have := congrArg (·[0]?) h8
      simpa using this
    rw [this]
    simp only
    rw [if_pos (Atom.rawValid_string _ (by rw [c1, h1]) c4)]
  · rw [c1, h1]
  · rw [Atom.cp_consume, Atom.cp_setCpSize, Atom.cp_setCp _ _ hd]
  · rw [Atom.cpSize_consume, Atom.cpSize_setCpSize _ _ (by omega)]; omega
  · unfold Atom.RawOk at c4
    have : Atom.rBegin (((a.setCp d).setCpSize (Atom.cpSize a - 1)).consume 1) =
      (((a.setCp d).setCpSize (Atom.cpSize a - 1)).consume 1).origin.toNat % 2 ^ 32 := by
      unfold Atom.rBegin; exact Nat.mod_eq_of_lt c4
    rw [← this, c2, hb2]
  · have := congrArg List.length h8
    simp at this
    omega
  · have := congrArg (List.drop 1) h8
    simpa [List.drop_drop] using this

theorem obind {α β : Type} (a : α) (f : α → Out β) : (Out.ok a).bind f = f a := rfl

theorem writeCps_at (o : Op) : ∀ {rest : List Nat} {a : Atom} {c n : Nat}, At o.strings a c rest →
    c ≠ 0 → (∀ d ∈ rest, d ≠ 0 ∧ d < 2 ^ 32) → rest.length + 2 ≤ n →
    Builder.writeCps o.nextCodepoint n a = .ok ((c :: rest).flatMap utf8escAppend) := by
  intro rest
  induction rest with
  | nil =>
    intro a c n h hc _ hn
    obtain ⟨m, rfl⟩ : ∃ m, n = m + 1 + 1 := ⟨n - 2, by simp at hn; omega⟩
    have e1 : o.nextCodepoint a = .ok (a.setCp 0, false) := by
      unfold nextCodepoint
      rw [if_pos (by rw [h.size]; rfl)]
    rw [Builder.writeCps, if_neg (by rw [h.cp]; exact hc), e1, obind]
    have e2 : Builder.writeCps o.nextCodepoint (m + 1) (a.setCp 0) = .ok [] := by
      rw [Builder.writeCps, if_pos (Atom.cp_setCp _ _ (by decide))]
    rw [e2, obind, h.cp]
    simp only [List.flatMap_cons, List.flatMap_nil]
  | cons d rest ih =>
    intro a c n h hc hr hn
    obtain ⟨m, rfl⟩ : ∃ m, n = m + 1 := ⟨n - 1, by simp at hn; omega⟩
    obtain ⟨a', e1, h'⟩ := h.next (hr d (by simp)).2
    rw [Builder.writeCps, if_neg (by rw [h.cp]; exact hc), e1, obind]
    rw [ih h' (hr d (by simp)).1 (fun x hx => hr x (by simp [hx])) (by simp at hn; omega), obind, h.cp]
    rw [List.flatMap_cons (x := c)]

/-- The atom of an argument. -/
def AtomFor (strings : List Nat) (a : Atom) : Arg → Prop
  | .int i => a = Atom.integer i
  | .uuid u => a = u
  | .float w => a = floatAtom w
  | .str s => ∃ cps : List Nat, s = cps.flatMap utf8append ∧ (∀ c ∈ cps, CpOk c) ∧
      ((cps = [] ∧ Atom.type a = Atom.tSTRING ∧ Atom.cp a = 0 ∧ Atom.cpSize a = 0) ∨
        ∃ c rest, cps = c :: rest ∧ At strings a c rest)

theorem AtomFor.mono {strings : List Nat} {a : Atom} {g : Arg} (h : AtomFor strings a g) (t : List Nat) :
    AtomFor (strings ++ t) a g := by
  cases g with
  | int i => exact h
  | uuid u => exact h
  | float w => exact h
  | str s =>
    obtain ⟨cps, h1, h2, h3⟩ := h
    refine ⟨cps, h1, h2, ?_⟩
    rcases h3 with h3 | ⟨c, rest, h3, h4⟩
    · exact .inl h3
    · exact .inr ⟨c, rest, h3, h4.mono t⟩

theorem string_spec (c b e n : Nat) (hc : c < 2 ^ 32) (hb : b < 2 ^ 30) (he : e < 2 ^ 30) (hn : n < 2 ^ 32) :
    Atom.type (Atom.string c b e n) = Atom.tSTRING ∧ Atom.cp (Atom.string c b e n) = c ∧
    Atom.cpSize (Atom.string c b e n) = n ∧ Atom.RawOk (Atom.string c b e n) ∧
    (Atom.string c b e n).origin.toNat % 2 ^ 32 = b := by
  have ho : (Atom.string c b e n).origin.toNat = 2 * 2 ^ 62 + (e * 2 ^ 32 + b) :=
    Atom.rangeWord_toNat 2 b e (by decide) (by omega) he
  obtain ⟨f1, f2, f3⟩ := Atom.fields 2 b e (by omega) he
  refine ⟨?_, Atom.cp_valueWord _ _ _ hc, Atom.cpSize_valueWord _ _ _ hn, ?_, ?_⟩
  · unfold Atom.type; rw [ho, f1]; rfl
  · unfold Atom.RawOk; rw [ho, f3]; exact hb
  · rw [ho, f3]

theorem writeAtom_ok {fmt : Word → List Byte} {o : Op} {g : Arg} (hg : ArgOk fmt g)
    (hs : o.strings.length + strBytes [g] < 2 ^ 30) :
    ∃ o' a t, o.writeAtom g = .ok o' ∧ o'.atoms = o.atoms ++ [a] ∧ o'.strings = o.strings ++ t ∧
      AtomFor o'.strings a g ∧ t.length ≤ strBytes [g] := by
  cases g with
  | int i => exact ⟨_, _, [], rfl, rfl, by simp, rfl, by simp⟩
  | uuid u => exact ⟨_, _, [], rfl, rfl, by simp, rfl, by simp⟩
  | float w => exact ⟨_, _, [], rfl, rfl, by simp, rfl, by simp⟩
  | str s =>
    obtain ⟨cps, rfl, hc⟩ := hg
    have hp := Utf8Parser.parse_text (utf8append_text cps fun c h => (hc c h).2.1) o.strings
    have hlen := length_flatMap_ge cps
    simp only [strBytes, Nat.add_zero] at hs ⊢
    unfold writeAtom
    simp only
    rw [hp]
    simp only [Out.ofOption, obind, List.length_append, Nat.add_sub_cancel_left]
    cases cps with
    | nil =>
      rw [if_neg (by simp)]
      have hb : o.strings.length < 2 ^ 30 := by simp at hs; omega
      obtain ⟨s1, s2, s3, -, -⟩ := string_spec 0 o.strings.length o.strings.length 0 (by decide) hb hb (by decide)
      exact ⟨_, _, [], rfl, rfl, rfl, ⟨[], rfl, by simp, .inl ⟨rfl, s1, s2, s3⟩⟩, by simp⟩
    | cons c rest =>
      rw [if_pos (by simp)]
      simp only [List.length_cons] at hlen
      have hcc := (hc c (by simp)).2.1
      obtain ⟨s1, s2, s3, s4, s5⟩ := string_spec c (o.strings.length + 1) (o.strings.length + (rest.length + 1)) rest.length
        (by omega) (by omega) (by omega) (by omega)
      refine ⟨_, _, c :: rest, rfl, rfl, rfl, ⟨c :: rest, rfl, hc, .inr ⟨c, rest, rfl, ?_⟩⟩, hlen⟩
      have e : (o.strings ++ c :: rest).getD o.strings.length 0 = c := by simp
      simp only [e, List.length_cons, Nat.add_sub_cancel]
      refine ⟨s1, s2, s3, s4, _, [], s5, by simp, by omega, ?_⟩
      rw [List.append_nil, Nat.add_comm, ← List.drop_drop]
      simp

theorem strBytes_cons (g : Arg) (gs : List Arg) : strBytes (g :: gs) = strBytes [g] + strBytes gs := by
  cases g <;> simp [strBytes]

theorem writeAtoms_ok {fmt : Word → List Byte} : ∀ {gs : List Arg} {o : Op}, (∀ g ∈ gs, ArgOk fmt g) →
    o.strings.length + strBytes gs < 2 ^ 30 →
    ∃ o' as t, writeAtoms gs o = .ok o' ∧ o'.atoms = o.atoms ++ as ∧ o'.strings = o.strings ++ t ∧
      Same2 (AtomFor o'.strings) as gs := by
  intro gs
  induction gs with
  | nil => intro o _ _; exact ⟨o, [], [], rfl, by simp, by simp, .nil⟩
  | cons g gs ih =>
    intro o hg hs
    rw [strBytes_cons] at hs
    obtain ⟨o1, a, t, e1, e2, e3, e4, e5⟩ := writeAtom_ok (o := o) (hg g (by simp)) (by omega)
    obtain ⟨o2, as, t2, f1, f2, f3, f4⟩ := ih (o := o1) (fun x hx => hg x (by simp [hx]))
      (by rw [e3, List.length_append]; omega)
    refine ⟨o2, a :: as, t ++ t2, ?_, by rw [f2, e2, List.append_assoc]; rfl, by rw [f3, e3, List.append_assoc], ?_⟩
    · rw [writeAtoms, e1, obind, f1]
    · exact .cons (by rw [f3]; exact e4.mono t2) f4

end Op

namespace Builder
open Op

theorem type_integer (i : Int) : Atom.type (Atom.integer i) = Atom.tINT := by
  unfold Atom.type Atom.integer; simp only; decide
theorem type_float (w : Word) : Atom.type (floatAtom w) = Atom.tFLOAT := by
  unfold Atom.type floatAtom; simp only; decide

/-- A value of an `Op` is written as a text of its view. -/
theorem writeValue_ok {fmt : Word → List Byte} {o : Op} {a : Atom} {g : Arg}
    (h : AtomFor o.strings a g) (hg : ArgOk fmt g) :
    ∃ b t, writeValue fmt o.src a = .ok (32 :: t) ∧ AtomText b t (viewArg fmt g) ∧
      ∀ s, g = .str s → chars s = 1 → ∃ c, s = utf8append c ∧ CpOk c ∧
        t = 39 :: (utf8escAppend c ++ [39]) ∧ Atom.cp a = c := by
  unfold writeValue
  cases g with
  | int i =>
    have ht : Atom.type a = Atom.tINT := by rw [show a = Atom.integer i from h]; exact type_integer i
    rw [if_pos ht]
    have hv : a.value.toInt = i := by
      rw [show a = Atom.integer i from h]
      show (BitVec.ofInt 64 i).toInt = i
      rw [BitVec.toInt_ofInt]
      have := hg.1
      have := hg.2
      apply Int.bmod_eq_of_le <;> omega
    obtain ⟨t, e1, e2⟩ := intLit_write hg.1 hg.2
    rw [hv, e1]
    exact ⟨true, t, rfl, .int e2, by rintro s ⟨⟩⟩
  | uuid u =>
    have ha : a = u := h
    have ht : Atom.type a = Atom.tUUID := by rw [ha]; exact type_plain62 hg.1
    rw [if_neg (by rw [ht]; decide), if_pos ht, ha]
    cases hm : Uuid.isAmbiguous u with
    | true =>
      exact ⟨false, 62 :: u.str, rfl, .quuid (w := []) (by intro c hc; simp at hc) (uuidLit_str hg.1), by rintro s ⟨⟩⟩
    | false => exact ⟨true, u.str, rfl, .uuid (uuidLit_str hg.1) (not_digits hm) hg.2, by rintro s ⟨⟩⟩
  | float w =>
    have ha : a = floatAtom w := h
    have ht : Atom.type a = Atom.tFLOAT := by rw [ha]; exact type_float w
    rw [if_neg (by rw [ht]; decide), if_neg (by rw [ht]; decide), if_neg (by rw [ht]; decide), ha]
    exact ⟨true, fmt w, rfl, .float hg.1 hg.2, by rintro s ⟨⟩⟩
  | str s =>
    obtain ⟨cps, rfl, hc, h⟩ := h
    have ht : Atom.type a = Atom.tSTRING := by
      rcases h with ⟨-, h, -⟩ | ⟨_, _, -, h⟩
      · exact h
      · exact h.type
    rw [if_neg (by rw [ht]; decide), if_neg (by rw [ht]; decide), if_pos ht]
    have hw : writeCps o.src.nextCp (Atom.cpSize a + 2) a = .ok (cps.flatMap utf8escAppend) := by
      rcases h with ⟨rfl, -, h2, h3⟩ | ⟨c, rest, rfl, h⟩
      · rw [writeCps, if_pos h2]; rfl
      · exact writeCps_at o h (by have := (hc c (by simp)).1; omega)
          (fun d hd => ⟨by have := (hc d (by simp [hd])).1; omega, by have := (hc d (by simp [hd])).2.1; omega⟩)
          (by rw [h.size]; exact Nat.le_refl _)
    rw [hw, obind]
    refine ⟨false, _, rfl, ?_, ?_⟩
    · have := AtomText.str (strText_esc hc)
      rw [asRead_false] at this
      exact this
    · intro s hs h1
      injection hs with hs
      rw [← hs, chars_flatMap fun c h => (hc c h).2.1] at h1
      obtain ⟨c, rfl⟩ := List.length_eq_one_iff.1 h1
      refine ⟨c, by rw [← hs]; simp, hc c (by simp), by simp, ?_⟩
      rcases h with ⟨h, -⟩ | ⟨c', rest, h, h'⟩
      · simp at h
      · injection h with h1 h2
        rw [h'.cp, h1]

theorem writeAll_ok {fmt : Word → List Byte} {o : Op} {as : List Atom} {gs : List Arg}
    (h : Same2 (AtomFor o.strings) as gs) (hg : ∀ g ∈ gs, ArgOk fmt g) :
    ∃ d, writeAll (writeValue fmt o.src) as = .ok d ∧ AtomsText d (gs.map (viewArg fmt)) := by
  induction h with
  | nil => exact ⟨[], rfl, .nil⟩
  | cons h _ ih =>
    obtain ⟨d, e1, e2⟩ := ih fun x hx => hg x (by simp [hx])
    obtain ⟨b, t, f1, f2, -⟩ := writeValue_ok h (hg _ (by simp))
    refine ⟨32 :: t ++ d, ?_, ?_⟩
    · rw [writeAll, f1, obind, e1, obind]
    · have := AtomsText.cons blank_sp (by simp) f2 e2
      simpa using this

theorem sig_op {fmt : Word → List Byte} {id ref : Uuid} {o : Op} {as : List Atom} {gs : List Arg}
    (ho : o.atoms = [id, ref] ++ as) (h : Same2 (AtomFor o.strings) as gs) (hg : ∀ g ∈ gs, ArgOk fmt g) :
    spanSignature o.src = sig (gs.map (viewArg fmt)) := by
  have hop : o.src.op = id :: ref :: as := by rw [show o.src.op = o.atoms from rfl, ho]; rfl
  unfold spanSignature
  rw [hop]
  cases h with
  | nil => rfl
  | @cons a g as gs h hr =>
    cases hr with
    | cons h2 hr => simp [sig]
    | nil =>
      simp only [List.map_cons, List.map_nil]
      have hg := hg g (by simp)
      cases g with
      | int i =>
        have ht : Atom.type a = Atom.tINT := by rw [show a = Atom.integer i from h]; exact type_integer i
        rw [if_neg (by rw [ht]; decide), if_neg (by rw [ht]; decide)]
        rfl
      | uuid u =>
        have ha : a = u := h
        rw [if_pos (by rw [ha]; exact type_plain62 hg.1), ha]
        rfl
      | float w =>
        have ha : a = floatAtom w := h
        rw [if_neg (by rw [ha, type_float]; decide), if_neg (by rw [ha, type_float]; decide)]
        rfl
      | str s =>
        obtain ⟨cps, rfl, hc, h⟩ := h
        have hch := chars_flatMap fun c h => (hc c h).2.1
        have ht : Atom.type a = Atom.tSTRING := by
          rcases h with ⟨-, h, -⟩ | ⟨_, _, -, h⟩
          · exact h
          · exact h.type
        rw [if_neg (by rw [ht]; decide), if_pos ht]
        have hsz : stringSize (o.src.atom2 a) = cps.length := by
          show stringSize a = _
          unfold stringSize
          rcases h with ⟨rfl, -, h2, h3⟩ | ⟨c, rest, rfl, h⟩
          · rw [if_pos h2, h3]; rfl
          · rw [if_neg (by rw [h.cp]; have := (hc c (by simp)).1; omega), h.size]
            obtain ⟨i, suf, -, -, hi, -⟩ := h.pos
            rw [List.length_cons, Nat.mod_eq_of_lt (by omega)]
        rw [hsz, ← hch]
        rfl

/-- An `Op` as a source of the builder. -/
theorem shown_op {fmt : Word → List Byte} {id ref : Uuid} {gs : List Arg} (h : Spec.OpOk fmt id ref gs) :
    ∃ o x, Op.mk' id ref gs = .ok o ∧
      Shown (writeValue fmt o.src) o.src ⟨id, ref, gs.map (viewArg fmt)⟩ x ∧
      ((∃ t, gs.map (viewArg fmt) = [.text t]) → headOk (gs.map (viewArg fmt)) = true → x.length = 1) := by
  obtain ⟨o, as, t, e1, e2, e3, e4⟩ := writeAtoms_ok (o := ⟨[id, ref], []⟩) h.argsOk (by simpa using h.size)
  simp only at e2
  obtain ⟨d, d1, d2⟩ := writeAll_ok e4 h.argsOk
  have hvt : ∀ u, gs.map (viewArg fmt) = [.uuid u] → Atom.type u = Atom.tUUID := by
    intro u hu
    obtain ⟨g, rfl⟩ : ∃ g, gs = [g] := by
      have := congrArg List.length hu
      simp at this
      exact List.length_eq_one_iff.1 this
    have hg := h.argsOk g (by simp)
    cases g with
    | uuid v =>
      simp [viewArg] at hu
      rw [← hu]; exact type_plain62 hg.1
    | _ => simp [viewArg] at hu
  by_cases hx : ∃ s, gs = [.str s] ∧ chars s = 1
  · obtain ⟨s, rfl, hs⟩ := hx
    cases e4 with
    | @cons a _ as _ ha hr =>
      cases hr
      obtain ⟨b, t', f1, -, f2⟩ := writeValue_ok ha (h.argsOk _ (by simp))
      obtain ⟨c, rfl, c1, rfl, c2⟩ := f2 s rfl hs
      have hd : d = 32 :: 39 :: (utf8escAppend c ++ [39]) := by
        simp only [writeAll, f1, obind] at d1
        injection d1 with d1
        rw [← d1]; simp
      refine ⟨o, utf8escAppend c, e1, ⟨⟨[a], d, by rw [show o.src.op = o.atoms from rfl, e2]; rfl, d1, d2, ?_⟩, ?_, uuidLit_str h.idOk, uuidLit_str h.refOk, hvt⟩, ?_⟩
      · intro t ht _
        simp [viewArg] at ht
        refine ⟨c, ht.symm, cpText_esc c1, cpText_esc c1, by have := c1.1; omega, hd, a, (a, true), rfl, ?_, c2⟩
        rw [if_neg (by rw [c2]; have := c1.1; omega)]
      · exact sig_op e2 (.cons ha .nil) h.argsOk
      · intro _ hh
        simp only [List.map_cons, List.map_nil, viewArg] at hh
        have hlen : (utf8append c).length = 1 ∧ ∀ y, utf8append c = [y] → c < 128 := by
          by_cases h8 : c < 128
          · unfold utf8append; rw [if_pos h8]; exact ⟨rfl, fun _ _ => h8⟩
          · exfalso
            have : (utf8append c).length ≠ 1 := by
              unfold utf8append
              rw [if_neg h8]
              split
              · simp
              · split <;> simp
            unfold headOk at hh
            split at hh
            · rename_i heq
              simp at heq
              rw [heq] at this
              exact this rfl
            · simp at hh
            · rename_i n1 n2; exact n2 _ rfl
        obtain ⟨y, hy⟩ := List.length_eq_one_iff.1 hlen.1
        have h8 := hlen.2 y hy
        have hyc : y.toNat = c := by
          unfold utf8append at hy
          rw [if_pos h8] at hy
          injection hy with hy
          rw [← hy]
          exact toChar_toNat _ (by omega)
        rw [hy] at hh
        unfold headOk at hh
        simp only [Bool.and_eq_true, hyc] at hh
        have key : ∀ c : Fin 128, ([34, 39, 92, 8, 12, 10, 13, 9].contains c.val) = false →
            (utf8escAppend c.val).length = 1 := by decide +kernel
        exact key ⟨c, h8⟩ (by simpa using hh.2)
  · refine ⟨o, [], e1, ⟨⟨as, d, by rw [show o.src.op = o.atoms from rfl, e2]; rfl, d1, d2, ?_⟩, sig_op e2 e4 h.argsOk, uuidLit_str h.idOk, uuidLit_str h.refOk, hvt⟩, ?_⟩
    · intro t ht h1
      exfalso
      apply hx
      obtain ⟨g, rfl⟩ : ∃ g, gs = [g] := by
        have := congrArg List.length ht
        simp at this
        exact List.length_eq_one_iff.1 this
      cases g with
      | str s =>
        simp [viewArg] at ht
        exact ⟨s, rfl, by rw [ht]; exact h1⟩
      | _ => simp [viewArg] at ht
    · rintro ⟨t, ht⟩ hh
      exfalso
      apply hx
      obtain ⟨g, rfl⟩ : ∃ g, gs = [g] := by
        have := congrArg List.length ht
        simp at this
        exact List.length_eq_one_iff.1 this
      cases g with
      | str s =>
        simp only [List.map_cons, List.map_nil, viewArg] at hh
        refine ⟨s, rfl, ?_⟩
        unfold headOk at hh
        split at hh
        · rename_i c heq
          simp only [List.cons.injEq, View.text.injEq, and_true] at heq
          rw [heq]
          simp only [Bool.and_eq_true, Nat.ble_eq] at hh
          have : Nat.ble 128 c.toNat = false := by
            rw [Bool.eq_false_iff]; intro h; rw [Nat.ble_eq] at h; omega
          simp [chars, this]
        · simp at hh
        · rename_i n1 n2; exact absurd rfl (n2 _)
      | _ => simp [viewArg] at ht

end Builder
end Ron
