import Verif.Lemmas.TextGo
import Verif.Lemmas.Utf
import Verif.Lemmas.Compare
/-!
Reading the strings of a frame: `NextCodepoint` on texts that follow the grammar.
-/
namespace Ron
open Spec Act TextParser

attribute [local irreducible] Atom.type Atom.rBegin Atom.rEnd Atom.cp Atom.cpSize Atom.setCp
  Atom.setCpSize Atom.consume Atom.ofRange Atom.rawValid

namespace CpParser

/-- The first bytes of a written code point. -/
def isStart (c : Byte) : Bool :=
  (isPlain c && Nat.ble c.toNat 127) || Nat.beq c.toNat 92 ||
    (Nat.ble 192 c.toNat && Nat.ble c.toNat 247)

/-- The step at the end of a code point stops the automaton. -/
def stopsAt (s : Nat) (L : List Act) : Bool :=
  allBytes fun c => !isStart c ||
    match stepIn CpTable.rows s c with
    | some (as, t) => decide (as.take L.length = L) && decide (t ≠ 0)
    | none => false

theorem stop10 : stopsAt 10 [end_cp, end_cp_brk] = true := by decide +kernel
theorem stop11 : stopsAt 11 [string_uesc, end_cp, end_cp_brk] = true := by decide +kernel

theorem of_stopsAt {s : Nat} {L : List Act} (h : stopsAt s L = true) {c : Byte}
    (hc : isStart c = true) : ∃ as t, stepIn CpTable.rows s c = some (L ++ as, t) ∧ t ≠ 0 := by
  have := of_allBytes h c
  simp only [hc, Bool.not_true, Bool.false_or] at this
  split at this
  · rename_i as t hst
    simp only [Bool.and_eq_true, decide_eq_true_eq] at this
    refine ⟨as.drop L.length, t, ?_, this.2⟩
    rw [hst]
    congr 2
    conv => lhs; rw [← List.take_append_drop L.length as, this.1]
  · cases this

/-- Bytes of one kind lead from one state to another. -/
def kind (P : Byte → Bool) (s : Nat) (as : List Act) (t : Nat) : Bool :=
  allBytes fun c => !P c || decide (stepIn CpTable.rows s c = some (as, t))

theorem of_kind {P : Byte → Bool} {s t : Nat} {as : List Act} (h : kind P s as t = true) {c : Byte}
    (hc : P c = true) : stepIn CpTable.rows s c = some (as, t) := by
  have := of_allBytes h c
  simpa [hc] using this

def lead1 (c : Byte) : Bool := isPlain c && Nat.ble c.toNat 127
def lead2 (c : Byte) : Bool := Nat.ble 192 c.toNat && Nat.ble c.toNat 223
def lead3 (c : Byte) : Bool := Nat.ble 224 c.toNat && Nat.ble c.toNat 239
def lead4 (c : Byte) : Bool := Nat.ble 240 c.toNat && Nat.ble c.toNat 247

theorem k1 : kind lead1 9 [string_lead1] 10 = true := by decide +kernel
theorem k2 : kind lead2 9 [string_lead2] 6 = true := by decide +kernel
theorem k3 : kind lead3 9 [string_lead3] 7 = true := by decide +kernel
theorem k4 : kind lead4 9 [string_lead4] 8 = true := by decide +kernel
theorem kc6 : kind Utf8Parser.isCont 6 [string_cont] 10 = true := by decide +kernel
theorem kc7 : kind Utf8Parser.isCont 7 [string_cont] 6 = true := by decide +kernel
theorem kc8 : kind Utf8Parser.isCont 8 [string_cont] 7 = true := by decide +kernel
theorem kh2 : kind isHexDigit 2 [] 3 = true := by decide +kernel
theorem kh3 : kind isHexDigit 3 [] 4 = true := by decide +kernel
theorem kh4 : kind isHexDigit 4 [] 5 = true := by decide +kernel
theorem kh5 : kind isHexDigit 5 [] 11 = true := by decide +kernel

theorem bits2 : ∀ c : Byte, lead2 c = true → c.toNat &&& 0x1f = c.toNat - 0xc0 :=
  forall_byte (by decide +kernel)
theorem bits3 : ∀ c : Byte, lead3 c = true → c.toNat &&& 0xf = c.toNat - 0xe0 :=
  forall_byte (by decide +kernel)
theorem bits4 : ∀ c : Byte, lead4 c = true → c.toNat &&& 7 = c.toNat - 0xf0 :=
  forall_byte (by decide +kernel)
theorem abc16 : ∀ c : Byte, isHexDigit c = true → ABC16 c = some (hexDigit c) ∧ hexDigit c < 16 :=
  forall_byte (by decide +kernel)

theorem escapes_table : ∀ x ∈ escapes, stepIn CpTable.rows 1 x.1 = some ([string_esc], 10) ∧
    (decodeEsc x.1).toNat = x.2 := by decide +kernel

theorem hex_val {a b c d : Byte} (ha : isHexDigit a = true) (hb : isHexDigit b = true)
    (hc : isHexDigit c = true) (hd : isHexDigit d = true) :
    decodeHexCp 0 [a, b, c, d] =
      ((hexDigit a * 16 + hexDigit b) * 16 + hexDigit c) * 16 + hexDigit d := by
  obtain ⟨a1, a2⟩ := abc16 a ha
  obtain ⟨b1, b2⟩ := abc16 b hb
  obtain ⟨c1, c2⟩ := abc16 c hc
  obtain ⟨d1, d2⟩ := abc16 d hd
  simp only [decodeHexCp, a1, b1, c1, d1]
  simp only [Nat.zero_mul, Nat.zero_mod, Nat.zero_or]
  rw [Nat.mod_eq_of_lt (a := hexDigit a * 2 ^ 4) (by omega), or_mul_pow _ _ _ (by omega),
    Nat.mod_eq_of_lt (a := (hexDigit a * 2 ^ 4 + hexDigit b) * 2 ^ 4) (by omega),
    or_mul_pow _ _ _ (by omega),
    Nat.mod_eq_of_lt (a := ((hexDigit a * 2 ^ 4 + hexDigit b) * 2 ^ 4 + hexDigit c) * 2 ^ 4)
      (by omega),
    or_mul_pow _ _ _ (by omega)]

theorem run_one {str rest : List Byte} {s t : Nat} {r r1 : Regs} {c : Byte} {as : List Act}
    (hs : stepIn CpTable.rows s c = some (as, t)) (ha : acts str c r as = .cont r1) :
    run str (c :: rest) s r = run str rest t { r1 with p := r1.p + 1 } := by
  simp only [run, hs, ha]

/-- The bytes of one code point. -/
theorem run_cp {c : List Byte} {x : Nat × Bool} (h : CpText c x) (str rest : List Byte) :
    run str (c ++ rest) 9 ⟨0, 0⟩ =
      run str rest (if x.2 then 11 else 10) ⟨c.length, if x.2 then 0 else x.1⟩ := by
  cases h with
  | @char bs cp h hp =>
    simp only [Bool.false_eq_true, if_false]
    cases h with
    | one a h =>
      have h1 : lead1 a = true := by
        unfold lead1; rw [hp a (by simp)]; simp; omega
      rw [List.singleton_append, run_one (of_kind k1 h1) rfl]; rfl
    | two a b ha hb =>
      have h1 : lead2 a = true := by unfold lead2; simp; omega
      have h2 := (Utf8Parser.isCont_iff b).2 hb
      simp only [List.cons_append, List.nil_append]
      rw [run_one (of_kind k2 h1) rfl, run_one (of_kind kc6 h2) rfl]
      simp only [bits2 a h1]
      rw [Utf8Parser.cont_val _ b (by omega) h2]
      rfl
    | three a b c ha hb hc =>
      have h1 : lead3 a = true := by unfold lead3; simp; omega
      have h2 := (Utf8Parser.isCont_iff b).2 hb
      have h3 := (Utf8Parser.isCont_iff c).2 hc
      simp only [List.cons_append, List.nil_append]
      rw [run_one (of_kind k3 h1) rfl, run_one (of_kind kc7 h2) rfl, run_one (of_kind kc6 h3) rfl]
      simp only [bits3 a h1]
      rw [Utf8Parser.cont_val _ b (by omega) h2, Utf8Parser.cont_val _ c (by omega) h3,
        show ((a.toNat - 0xe0) * 64 + (b.toNat - 0x80)) * 64 + (c.toNat - 0x80) =
          (a.toNat - 0xe0) * 4096 + (b.toNat - 0x80) * 64 + (c.toNat - 0x80) by omega]
      rfl
    | four a b c d ha hb hc hd =>
      have h1 : lead4 a = true := by unfold lead4; simp; omega
      have h2 := (Utf8Parser.isCont_iff b).2 hb
      have h3 := (Utf8Parser.isCont_iff c).2 hc
      have h4 := (Utf8Parser.isCont_iff d).2 hd
      simp only [List.cons_append, List.nil_append]
      rw [run_one (of_kind k4 h1) rfl, run_one (of_kind kc8 h2) rfl, run_one (of_kind kc7 h3) rfl,
        run_one (of_kind kc6 h4) rfl]
      simp only [bits4 a h1]
      rw [Utf8Parser.cont_val _ b (by omega) h2, Utf8Parser.cont_val _ c (by omega) h3,
        Utf8Parser.cont_val _ d (by omega) h4,
        show (((a.toNat - 0xf0) * 64 + (b.toNat - 0x80)) * 64 + (c.toNat - 0x80)) * 64 +
          (d.toNat - 0x80) = (a.toNat - 0xf0) * 262144 + (b.toNat - 0x80) * 4096 +
          (c.toNat - 0x80) * 64 + (d.toNat - 0x80) by omega]
      rfl
  | esc e v h =>
    obtain ⟨h1, h2⟩ := escapes_table _ h
    have h0 : stepIn CpTable.rows 9 92 = some ([], 1) := by decide +kernel
    simp only [List.cons_append, List.nil_append]
    rw [run_one h0 rfl, run_one h1 rfl]
    simp only [h2]
    rfl
  | uni a b c d ha hb hc hd =>
    have h0 : stepIn CpTable.rows 9 92 = some ([], 1) := by decide +kernel
    have h1 : stepIn CpTable.rows 1 117 = some ([], 2) := by decide +kernel
    simp only [List.cons_append, List.nil_append]
    rw [run_one h0 rfl, run_one h1 rfl, run_one (of_kind kh2 ha) rfl, run_one (of_kind kh3 hb) rfl,
      run_one (of_kind kh4 hc) rfl, run_one (of_kind kh5 hd) rfl]
    rfl

theorem _root_.Ron.Spec.CpText.start {c : List Byte} {x : Nat × Bool} (h : CpText c x) :
    ∃ b l, c = b :: l ∧ isStart b = true := by
  cases h with
  | char h hp =>
    cases h with
    | one a h =>
      refine ⟨a, [], rfl, ?_⟩
      unfold isStart; rw [hp a (by simp)]; simp; omega
    | two a b ha hb => exact ⟨a, _, rfl, by unfold isStart; simp; omega⟩
    | three a b c ha hb hc => exact ⟨a, _, rfl, by unfold isStart; simp; omega⟩
    | four a b c d ha hb hc hd => exact ⟨a, _, rfl, by unfold isStart; simp; omega⟩
  | esc e v h => exact ⟨92, _, rfl, by decide⟩
  | uni a b c d _ _ _ _ => exact ⟨92, _, rfl, by decide⟩

/-- `NextCodepoint`'s automaton at the start of a string. -/
theorem run_str {c s : List Byte} {x : Nat × Bool} {xs : List (Nat × Bool)} (h : CpText c x)
    (hs : StrText s xs) : ∃ t, t ≠ 0 ∧
    run (c ++ s) (c ++ s) CpTable.start ⟨0, 0⟩ =
      some (t, ⟨c.length, if xs = [] ∧ x.2 = true then 0 else x.1⟩) := by
  show ∃ t, t ≠ 0 ∧ run (c ++ s) (c ++ s) 9 ⟨0, 0⟩ = _
  rw [run_cp h]
  cases hs with
  | nil =>
    refine ⟨if x.2 then 11 else 10, by split <;> decide, ?_⟩
    simp [run]
  | @cons c2 s2 x2 xs2 h2 hs2 =>
    obtain ⟨b, l, rfl, hb⟩ := h2.start
    by_cases hx : x.2 = true
    · obtain ⟨as, t, hst, ht⟩ := of_stopsAt stop11 hb
      refine ⟨t, ht, ?_⟩
      cases h with
      | char => simp at hx
      | esc => simp at hx
      | uni a b' c d ha hb' hc hd =>
        simp only [List.cons_append, if_true, run, hst, List.nil_append, acts, act]
        simp only [List.length_cons, List.length_nil, slice]
        simp [hex_val ha hb' hc hd]
    · obtain ⟨as, t, hst, ht⟩ := of_stopsAt stop10 hb
      refine ⟨t, ht, ?_⟩
      simp only [hx, Bool.false_eq_true, if_false, and_false, List.cons_append, run, hst,
        List.nil_append, acts, act]

end CpParser

theorem _root_.Ron.Spec.CpText.lt {c : List Byte} {x : Nat × Bool} (h : CpText c x) : x.1 < 2 ^ 21 := by
  cases h with
  | char h _ => exact Utf8Char.lt h
  | esc e v h =>
    have : ∀ y ∈ escapes, y.2 < 2 ^ 21 := by decide
    exact this _ h
  | uni a b c d ha hb hc hd =>
    have a2 := (CpParser.abc16 a ha).2
    have b2 := (CpParser.abc16 b hb).2
    have c2 := (CpParser.abc16 c hc).2
    have d2 := (CpParser.abc16 d hd).2
    simp only; omega

/-- A string atom over a text: its range, and the number of code points left. -/
structure StrAtom (buf : List Byte) (a : Atom) (s : List Byte) (n : Nat) : Prop where
  type : Atom.type a = Atom.tSTRING
  raw : Atom.RawOk a
  le : Atom.rBegin a ≤ Atom.rEnd a
  inside : Atom.rEnd a ≤ buf.length
  text : slice buf (Atom.rBegin a) (Atom.rEnd a) = s
  size : Atom.cpSize a = n

/-- `NextCodepoint` on a string atom. -/
theorem nextCodepoint_str {buf : List Byte} (hn : buf.length < 2 ^ 30) {a : Atom} {c s : List Byte}
    {x : Nat × Bool} {xs : List (Nat × Bool)} (h : CpText c x) (hs : StrText s xs)
    (ha : StrAtom buf a (c ++ s) (xs.length + 1)) :
    ∃ a', nextCodepoint buf a = .ok (a', true) ∧ StrAtom buf a' s xs.length ∧
      Atom.cp a' = if xs = [] ∧ x.2 = true then 0 else x.1 := by
  obtain ⟨ht, hr, hle, hin, htx, hsz⟩ := ha
  obtain ⟨t, ht0, hrun⟩ := CpParser.run_str h hs
  have hlen := slice_length (buf := buf) (m := Atom.rBegin a) (p := Atom.rEnd a) hin
  rw [htx, List.length_append] at hlen
  have hcp : (if xs = [] ∧ x.2 = true then 0 else x.1) < 2 ^ 32 := by
    have := h.lt; split <;> omega
  have hsz2 : xs.length < 2 ^ 32 := by have := Atom.cpSize_lt a; omega
  obtain ⟨a2, ha2⟩ : ∃ a2, (Atom.setCp a (if xs = [] ∧ x.2 = true then 0 else x.1)).setCpSize
      (Atom.cpSize a - 1) = a2 := ⟨_, rfl⟩
  have ho : a2.origin = a.origin := by rw [← ha2, Atom.origin_setCpSize, Atom.origin_setCp]
  have hb2 : Atom.rBegin a2 = Atom.rBegin a := by rw [← ha2]; simp
  have he2 : Atom.rEnd a2 = Atom.rEnd a := by rw [← ha2]; simp
  have ht2 : Atom.type a2 = Atom.type a := by rw [← ha2]; simp
  have hraw : Atom.RawOk a2 := by unfold Atom.RawOk; rw [ho]; exact hr
  have hc := Atom.consume_spec a2 c.length hraw (by rw [hb2]; omega)
  have hv := Atom.rawValid_string (Atom.consume a2 c.length) (by rw [hc.1, ht2, ht]) hc.2.2.2
  refine ⟨Atom.consume a2 c.length, ?_, ⟨by rw [hc.1, ht2, ht], hc.2.2.2, by omega, by omega, ?_, ?_⟩, ?_⟩
  · unfold nextCodepoint
    rw [if_neg (by omega), atomData_string hle hin]
    simp only [Out.bind]
    rw [htx, hrun]
    split
    · rename_i e; simp at e
    · rename_i e; simp only [Option.some.injEq, Prod.mk.injEq] at e; exact absurd e.1 ht0
    · rename_i e
      simp only [Option.some.injEq, Prod.mk.injEq] at e
      rw [← e.2]
      simp only [ha2, hv]; rfl
  · rw [hc.2.1, hc.2.2.1, hb2, he2]
    have := slice_append (buf := buf) (m := Atom.rBegin a) (k := Atom.rBegin a + c.length)
      (p := Atom.rEnd a) (by omega) (by omega)
    have h1 : (slice buf (Atom.rBegin a) (Atom.rBegin a + c.length)).length = c.length := by
      rw [slice_length (by omega)]; omega
    rw [htx] at this
    exact (List.append_inj this.symm h1).2
  · rw [Atom.cpSize_consume, ← ha2, Atom.cpSize_setCpSize _ _ (by omega)]; omega
  · rw [Atom.cp_consume, ← ha2, Atom.cp_setCpSize, Atom.cp_setCp _ _ hcp]

theorem asRead_cons (x : Nat × Bool) (xs : List (Nat × Bool)) :
    asRead (x :: xs) = (if xs = [] ∧ x.2 = true then 0 else x.1) :: asRead xs := by
  cases xs with
  | nil => simp [asRead]
  | cons y ys => simp [asRead]

theorem asRead_length (xs : List (Nat × Bool)) : (asRead xs).length = xs.length := by
  induction xs with
  | nil => rfl
  | cons x xs ih => rw [asRead_cons]; simp [ih]

/-- Reading a whole string. -/
theorem readCps_str {buf : List Byte} (hn : buf.length < 2 ^ 30) {s : List Byte}
    {xs : List (Nat × Bool)} (hs : StrText s xs) : ∀ (a : Atom), StrAtom buf a s xs.length →
    ∀ fuel, xs.length < fuel → Cursor.readCps buf fuel a = .ok (asRead xs) := by
  induction hs with
  | nil =>
    intro a ha fuel hf
    cases fuel with
    | zero => simp at hf
    | succ f =>
      have h0 : nextCodepoint buf a = .ok (a.setCp 0, false) := by
        unfold nextCodepoint; rw [if_pos (by simpa using ha.size)]
      simp [Cursor.readCps, h0, Out.bind, asRead]
  | @cons c s x xs h hs ih =>
    intro a ha fuel hf
    cases fuel with
    | zero => simp at hf
    | succ f =>
      obtain ⟨a', h1, h2, h3⟩ := nextCodepoint_str hn h hs ha
      have h4 := ih a' h2 f (by simp at hf; omega)
      rw [asRead_cons, ← h3]
      simp [Cursor.readCps, h1, h4, Out.bind]

end Ron
