import Verif.Model.Utf
import Verif.Spec.Utf
import Verif.Lemmas.Bytes
import Verif.Lemmas.Bits
/-!
Helper lemmas about the UTF-8 automaton and the encoders.
-/
namespace Ron
open Spec

namespace Utf8Parser

def isCont (b : Byte) : Bool := Nat.ble 128 b.toNat && Nat.ble b.toNat 191

theorem tbl_cont1 : ∀ c : Byte, stepIn Utf8Table.rows 1 c =
    if isCont c then some ([.string_cont], 5) else none := forall_byte (by decide +kernel)
theorem tbl_cont2 : ∀ c : Byte, stepIn Utf8Table.rows 2 c =
    if isCont c then some ([.string_cont], 1) else none := forall_byte (by decide +kernel)
theorem tbl_cont3 : ∀ c : Byte, stepIn Utf8Table.rows 3 c =
    if isCont c then some ([.string_cont], 2) else none := forall_byte (by decide +kernel)

/-- Class of a lead byte: state after it, the lead action, and the byte's payload. -/
def lead (c : Byte) : Option (Act × Nat) :=
  bif Nat.ble c.toNat 127 then some (.string_lead1, 5)
  else bif Nat.ble c.toNat 191 then none
  else bif Nat.ble c.toNat 223 then some (.string_lead2, 1)
  else bif Nat.ble c.toNat 239 then some (.string_lead3, 2)
  else bif Nat.ble c.toNat 247 then some (.string_lead4, 3)
  else none

theorem tbl_lead4 : ∀ c : Byte, stepIn Utf8Table.rows 4 c =
    (lead c).map (fun l => ([l.1], l.2)) := forall_byte (by decide +kernel)
theorem tbl_lead5 : ∀ c : Byte, stepIn Utf8Table.rows 5 c =
    (lead c).map (fun l => ([.push_cp, l.1], l.2)) := forall_byte (by decide +kernel)

theorem cont_bits : ∀ b : Byte, isCont b = true → b.toNat &&& 0x3f = b.toNat - 0x80 :=
  forall_byte (by decide +kernel)

theorem isCont_iff (b : Byte) : isCont b = true ↔ 0x80 ≤ b.toNat ∧ b.toNat < 0xc0 := by
  unfold isCont
  rw [Bool.and_eq_true, Nat.ble_eq, Nat.ble_eq]; omega

/-- Payload of a lead byte. -/
def leadVal (c : Byte) : Nat :=
  bif Nat.ble c.toNat 127 then c.toNat
  else bif Nat.ble c.toNat 223 then c.toNat - 192
  else bif Nat.ble c.toNat 239 then c.toNat - 224
  else c.toNat - 240

/-- What the class of a lead byte says about the byte. -/
def LeadFact (c : Byte) : Option (Act × Nat) → Prop
  | some (.string_lead1, t) => t = 5 ∧ c.toNat < 0x80 ∧ leadVal c = c.toNat
  | some (.string_lead2, t) => t = 1 ∧ (0xc0 ≤ c.toNat ∧ c.toNat < 0xe0) ∧
      c.toNat &&& 0x1f = c.toNat - 0xc0 ∧ leadVal c = c.toNat - 0xc0
  | some (.string_lead3, t) => t = 2 ∧ (0xe0 ≤ c.toNat ∧ c.toNat < 0xf0) ∧
      c.toNat &&& 0xf = c.toNat - 0xe0 ∧ leadVal c = c.toNat - 0xe0
  | some (.string_lead4, t) => t = 3 ∧ (0xf0 ≤ c.toNat ∧ c.toNat < 0xf8) ∧
      c.toNat &&& 7 = c.toNat - 0xf0 ∧ leadVal c = c.toNat - 0xf0
  | none => (0x80 ≤ c.toNat ∧ c.toNat < 0xc0) ∨ 0xf8 ≤ c.toNat
  | _ => False

instance (c : Byte) (o : Option (Act × Nat)) : Decidable (LeadFact c o) := by
  unfold LeadFact; split <;> infer_instance

theorem lead_act : ∀ c : Byte, LeadFact c (lead c) := forall_byte (by decide +kernel)

theorem lead_one (a : Byte) (h : a.toNat < 0x80) : lead a = some (.string_lead1, 5) := by
  unfold lead
  rw [show Nat.ble a.toNat 127 = true by rw [Nat.ble_eq]; omega]; rfl

theorem ble_false {a b : Nat} (h : b < a) : Nat.ble a b = false := by
  rw [Bool.eq_false_iff, Ne, Nat.ble_eq]; omega
theorem ble_true {a b : Nat} (h : a ≤ b) : Nat.ble a b = true := by rw [Nat.ble_eq]; exact h

theorem lead_two (a : Byte) (h : 0xc0 ≤ a.toNat ∧ a.toNat < 0xe0) :
    lead a = some (.string_lead2, 1) := by
  unfold lead
  rw [ble_false (by omega : 127 < a.toNat), ble_false (by omega : 191 < a.toNat),
    ble_true (by omega : a.toNat ≤ 223)]; rfl

theorem lead_three (a : Byte) (h : 0xe0 ≤ a.toNat ∧ a.toNat < 0xf0) :
    lead a = some (.string_lead3, 2) := by
  unfold lead
  rw [ble_false (by omega : 127 < a.toNat), ble_false (by omega : 191 < a.toNat),
    ble_false (by omega : 223 < a.toNat), ble_true (by omega : a.toNat ≤ 239)]; rfl

theorem lead_four (a : Byte) (h : 0xf0 ≤ a.toNat ∧ a.toNat < 0xf8) :
    lead a = some (.string_lead4, 3) := by
  unfold lead
  rw [ble_false (by omega : 127 < a.toNat), ble_false (by omega : 191 < a.toNat),
    ble_false (by omega : 223 < a.toNat), ble_false (by omega : 239 < a.toNat),
    ble_true (by omega : a.toNat ≤ 247)]; rfl

theorem cont_val (cp : Nat) (b : Byte) (hcp : cp < 2 ^ 26) (hb : isCont b = true) :
    (cp * 2 ^ 6) % 2 ^ 32 ||| (b.toNat &&& 0x3f) = cp * 64 + (b.toNat - 0x80) := by
  have hb' := (isCont_iff b).1 hb
  rw [cont_bits b hb, Nat.mod_eq_of_lt (by omega), or_mul_pow _ _ _ (by omega)]

/-- A lead byte read from a boundary state (4: start, 5: a code point is pending). -/
theorem step_lead4 (c : Byte) (x : Nat) (into : List Nat) :
    step (some (4, ⟨x, into⟩)) c =
      match lead c with
      | some (_, t) => some (t, ⟨leadVal c, into⟩)
      | none => some (0, ⟨x, into⟩) := by
  have h := lead_act c
  unfold step
  simp only [tbl_lead4]
  cases hl : lead c with
  | none => simp
  | some l =>
    obtain ⟨a, t⟩ := l
    rw [hl] at h
    cases a <;> simp only [LeadFact] at h <;>
      simp [List.foldlM, act, h.2]

theorem step_lead5 (c : Byte) (x : Nat) (into : List Nat) :
    step (some (5, ⟨x, into⟩)) c =
      match lead c with
      | some (_, t) => some (t, ⟨leadVal c, into ++ [x]⟩)
      | none => some (0, ⟨x, into⟩) := by
  have h := lead_act c
  unfold step
  simp only [tbl_lead5]
  cases hl : lead c with
  | none => simp
  | some l =>
    obtain ⟨a, t⟩ := l
    rw [hl] at h
    cases a <;> simp only [LeadFact] at h <;>
      simp [List.foldlM, act, h.2]

/-- State reached by a continuation byte from the state waiting for `k` of them. -/
def nxt (k : Nat) : Nat := if k = 1 then 5 else k - 1

theorem step_cont (k : Nat) (hk : 1 ≤ k ∧ k ≤ 3) (c : Byte) (x : Nat) (into : List Nat)
    (hx : x < 2 ^ 26) :
    step (some (k, ⟨x, into⟩)) c =
      if isCont c then some (nxt k, ⟨x * 64 + (c.toNat - 0x80), into⟩)
      else some (0, ⟨x, into⟩) := by
  have : k = 1 ∨ k = 2 ∨ k = 3 := by omega
  rcases this with rfl | rfl | rfl <;> unfold step <;>
    simp only [tbl_cont1, tbl_cont2, tbl_cont3] <;>
    by_cases hc : isCont c = true <;>
    simp [hc, List.foldlM, act, nxt, ← cont_val x c hx]

theorem step_zero (r : Regs) (cs : List Byte) :
    cs.foldl step (some (0, r)) = some (0, r) := by
  induction cs with
  | nil => rfl
  | cons c cs ih => simpa [step] using ih

/-- A complete code point read from a boundary state. -/
theorem step_char {bs : List Byte} {cp : Nat} (h : Utf8Char bs cp) (x : Nat)
    (into : List Nat) :
    bs.foldl step (some (4, ⟨x, into⟩)) = some (5, ⟨cp, into⟩) ∧
    bs.foldl step (some (5, ⟨x, into⟩)) = some (5, ⟨cp, into ++ [x]⟩) := by
  cases h with
  | one a h =>
    have hl := lead_one a h
    have ha := lead_act a
    rw [hl] at ha
    simp only [List.foldl_cons, List.foldl_nil, step_lead4, step_lead5, hl, ha.2.2, and_self]
  | two a b ha hb =>
    have hl := lead_two a ha
    have h1 := lead_act a
    rw [hl] at h1
    have hb' := (isCont_iff b).2 hb
    simp only [List.foldl_cons, List.foldl_nil, step_lead4, step_lead5, hl, h1.2.2.2]
    rw [step_cont 1 (by omega) _ _ _ (by omega), step_cont 1 (by omega) _ _ _ (by omega),
      if_pos hb', if_pos hb']
    exact ⟨rfl, rfl⟩
  | three a b c ha hb hc =>
    have hl := lead_three a ha
    have h1 := lead_act a
    rw [hl] at h1
    have hb' := (isCont_iff b).2 hb
    have hc' := (isCont_iff c).2 hc
    simp only [List.foldl_cons, List.foldl_nil, step_lead4, step_lead5, hl, h1.2.2.2]
    rw [step_cont 2 (by omega) _ _ _ (by omega), step_cont 2 (by omega) _ _ _ (by omega),
      if_pos hb', if_pos hb', show nxt 2 = 1 from rfl,
      step_cont 1 (by omega) _ _ _ (by omega), step_cont 1 (by omega) _ _ _ (by omega),
      if_pos hc', if_pos hc', show nxt 1 = 5 from rfl]
    rw [show ((a.toNat - 0xe0) * 64 + (b.toNat - 0x80)) * 64 + (c.toNat - 0x80) =
      (a.toNat - 0xe0) * 4096 + (b.toNat - 0x80) * 64 + (c.toNat - 0x80) by omega]
    exact ⟨rfl, rfl⟩
  | four a b c d ha hb hc hd =>
    have hl := lead_four a ha
    have h1 := lead_act a
    rw [hl] at h1
    have hb' := (isCont_iff b).2 hb
    have hc' := (isCont_iff c).2 hc
    have hd' := (isCont_iff d).2 hd
    simp only [List.foldl_cons, List.foldl_nil, step_lead4, step_lead5, hl, h1.2.2.2]
    rw [step_cont 3 (by omega) _ _ _ (by omega), step_cont 3 (by omega) _ _ _ (by omega),
      if_pos hb', if_pos hb', show nxt 3 = 2 from rfl,
      step_cont 2 (by omega) _ _ _ (by omega), step_cont 2 (by omega) _ _ _ (by omega),
      if_pos hc', if_pos hc', show nxt 2 = 1 from rfl,
      step_cont 1 (by omega) _ _ _ (by omega), step_cont 1 (by omega) _ _ _ (by omega),
      if_pos hd', if_pos hd', show nxt 1 = 5 from rfl]
    rw [show (((a.toNat - 0xf0) * 64 + (b.toNat - 0x80)) * 64 + (c.toNat - 0x80)) * 64 +
        (d.toNat - 0x80) =
      (a.toNat - 0xf0) * 262144 + (b.toNat - 0x80) * 4096 + (c.toNat - 0x80) * 64 +
          (d.toNat - 0x80) by omega]
    exact ⟨rfl, rfl⟩

theorem run_text5 {bs : List Byte} {cps : List Nat} (h : Utf8Text bs cps) :
    ∀ (x : Nat) (into : List Nat), ∃ y : Nat, ∃ ys : List Nat,
      bs.foldl step (some (5, ⟨x, into⟩)) = some (5, ⟨y, into ++ ys⟩) ∧
      ys ++ [y] = x :: cps := by
  induction h with
  | nil => intro x into; exact ⟨x, [], by simp, rfl⟩
  | cons hc _ ih =>
    rename_i c cp s cps _
    intro x into
    rw [List.foldl_append, (step_char hc x into).2]
    obtain ⟨y, ys, h1, h2⟩ := ih cp (into ++ [x])
    exact ⟨y, x :: ys, by rw [h1]; simp, by rw [List.cons_append, h2]⟩

theorem parse_text {bs : List Byte} {cps : List Nat} (h : Utf8Text bs cps)
    (into : List Nat) : parse into bs = some (into ++ cps, true) := by
  cases h with
  | nil => simp [parse, Utf8Table.start, Utf8Table.eofActs, Utf8Table.firstFinal]
  | cons hc ht =>
    rename_i c cp s cps
    obtain ⟨y, ys, h1, h2⟩ := run_text5 ht cp into
    unfold parse
    rw [List.foldl_append, show Utf8Table.start = 4 from rfl, (step_char hc 0 into).1, h1]
    simp [Utf8Table.eofActs, Utf8Table.firstFinal, List.foldlM, act, h2]

/-- A started code point: `k` continuation bytes are missing. -/
inductive Pend : Nat → List Byte → Nat → Prop
  | two (a : Byte) (ha : 0xc0 ≤ a.toNat ∧ a.toNat < 0xe0) : Pend 1 [a] (a.toNat - 0xc0)
  | three (a : Byte) (ha : 0xe0 ≤ a.toNat ∧ a.toNat < 0xf0) : Pend 2 [a] (a.toNat - 0xe0)
  | three2 (a b : Byte) (ha : 0xe0 ≤ a.toNat ∧ a.toNat < 0xf0)
      (hb : 0x80 ≤ b.toNat ∧ b.toNat < 0xc0) :
      Pend 1 [a, b] ((a.toNat - 0xe0) * 64 + (b.toNat - 0x80))
  | four (a : Byte) (ha : 0xf0 ≤ a.toNat ∧ a.toNat < 0xf8) : Pend 3 [a] (a.toNat - 0xf0)
  | four2 (a b : Byte) (ha : 0xf0 ≤ a.toNat ∧ a.toNat < 0xf8)
      (hb : 0x80 ≤ b.toNat ∧ b.toNat < 0xc0) :
      Pend 2 [a, b] ((a.toNat - 0xf0) * 64 + (b.toNat - 0x80))
  | four3 (a b c : Byte) (ha : 0xf0 ≤ a.toNat ∧ a.toNat < 0xf8)
      (hb : 0x80 ≤ b.toNat ∧ b.toNat < 0xc0) (hc : 0x80 ≤ c.toNat ∧ c.toNat < 0xc0) :
      Pend 1 [a, b, c] (((a.toNat - 0xf0) * 64 + (b.toNat - 0x80)) * 64 + (c.toNat - 0x80))

/-- What was consumed when the automaton is in a state. -/
inductive Inv (into : List Nat) : List Byte → Nat → Regs → Prop
  | start : Inv into [] 4 ⟨0, into⟩
  | err (pre : List Byte) (r : Regs) : Inv into pre 0 r
  | full (d : List Byte) (cps : List Nat) (l : List Byte) (cp : Nat) (hd : Utf8Text d cps)
      (hl : Utf8Char l cp) : Inv into (d ++ l) 5 ⟨cp, into ++ cps⟩
  | pend (d : List Byte) (cps : List Nat) (l : List Byte) (k cp : Nat) (hd : Utf8Text d cps)
      (hl : Pend k l cp) : Inv into (d ++ l) k ⟨cp, into ++ cps⟩

theorem Pend.bounds {k : Nat} {l : List Byte} {cp : Nat} (h : Pend k l cp) :
    (1 ≤ k ∧ k ≤ 3) ∧ cp < 2 ^ 26 := by
  cases h <;> omega

theorem Utf8Text.snoc {d : List Byte} {cps : List Nat} {l : List Byte} {cp : Nat}
    (h : Utf8Text d cps) (hl : Utf8Char l cp) : Utf8Text (d ++ l) (cps ++ [cp]) := by
  induction h with
  | nil => simpa using Utf8Text.cons hl Utf8Text.nil
  | cons hc _ ih => rw [List.append_assoc, List.cons_append]; exact .cons hc ih

theorem Inv.lead {into : List Nat} {d : List Byte} {cps : List Nat} (hd : Utf8Text d cps)
    (c : Byte) (r : Regs) : ∃ s' r', (match Utf8Parser.lead c with
      | some (_, t) => some (t, (⟨leadVal c, into ++ cps⟩ : Regs))
      | none => some (0, r)) = some (s', r') ∧ Inv into (d ++ [c]) s' r' := by
  have h := lead_act c
  cases hl : Utf8Parser.lead c with
  | none => exact ⟨_, _, rfl, .err _ _⟩
  | some l =>
    obtain ⟨a, t⟩ := l
    rw [hl] at h
    cases a <;> simp only [LeadFact] at h
    · obtain ⟨rfl, h1, h2⟩ := h
      exact ⟨_, _, rfl, h2 ▸ .full d cps [c] _ hd (.one c h1)⟩
    · obtain ⟨rfl, h1, _, h2⟩ := h
      exact ⟨_, _, rfl, h2 ▸ .pend d cps [c] _ _ hd (.two c h1)⟩
    · obtain ⟨rfl, h1, _, h2⟩ := h
      exact ⟨_, _, rfl, h2 ▸ .pend d cps [c] _ _ hd (.three c h1)⟩
    · obtain ⟨rfl, h1, _, h2⟩ := h
      exact ⟨_, _, rfl, h2 ▸ .pend d cps [c] _ _ hd (.four c h1)⟩

theorem Inv.step {into : List Nat} {pre : List Byte} {s : Nat} {r : Regs}
    (h : Inv into pre s r) (c : Byte) :
    ∃ s' r', Utf8Parser.step (some (s, r)) c = some (s', r') ∧ Inv into (pre ++ [c]) s' r' := by
  cases h with
  | start =>
    rw [step_lead4]
    simpa using Inv.lead (into := into) Utf8Text.nil c ⟨0, into⟩
  | err => exact ⟨0, r, rfl, .err _ _⟩
  | full d cps l cp hd hl =>
    rw [step_lead5]
    simpa using Inv.lead (into := into) (Utf8Text.snoc hd hl) c ⟨cp, into ++ cps⟩
  | pend d cps l k cp hd hl =>
    have hb := hl.bounds
    rw [step_cont s hb.1 c cp _ hb.2]
    by_cases hc : isCont c = true
    · rw [if_pos hc]
      refine ⟨_, _, rfl, ?_⟩
      have hc' := (isCont_iff c).1 hc
      rw [List.append_assoc]
      cases hl with
      | two a ha => exact .full _ _ _ _ hd (.two a c ha hc')
      | three a ha => exact .pend _ _ _ _ _ hd (.three2 a c ha hc')
      | three2 a b ha hb2 =>
        have := Inv.full (into := into) _ _ _ _ hd (.three a b c ha hb2 hc')
        rw [show ((a.toNat - 0xe0) * 64 + (b.toNat - 0x80)) * 64 + (c.toNat - 0x80) =
          (a.toNat - 0xe0) * 4096 + (b.toNat - 0x80) * 64 + (c.toNat - 0x80) by omega]
        exact this
      | four a ha => exact .pend _ _ _ _ _ hd (.four2 a c ha hc')
      | four2 a b ha hb2 => exact .pend _ _ _ _ _ hd (.four3 a b c ha hb2 hc')
      | four3 a b d ha hb2 hd' =>
        have := Inv.full (into := into) _ _ _ _ hd (.four a b d c ha hb2 hd' hc')
        rw [show (((a.toNat - 0xf0) * 64 + (b.toNat - 0x80)) * 64 + (d.toNat - 0x80)) * 64 +
            (c.toNat - 0x80) =
          (a.toNat - 0xf0) * 262144 + (b.toNat - 0x80) * 4096 + (d.toNat - 0x80) * 64 +
          (c.toNat - 0x80) by omega]
        exact this
    · rw [if_neg hc]; exact ⟨_, _, rfl, .err _ _⟩

theorem Inv.run {into : List Nat} (bs : List Byte) : ∀ {pre : List Byte} {s : Nat} {r : Regs},
    Inv into pre s r → ∃ s' r', bs.foldl Utf8Parser.step (some (s, r)) = some (s', r') ∧
      Inv into (pre ++ bs) s' r' := by
  induction bs with
  | nil => intro pre s r h; exact ⟨s, r, rfl, by simpa using h⟩
  | cons c bs ih =>
    intro pre s r h
    obtain ⟨s1, r1, e1, h1⟩ := h.step c
    obtain ⟨s2, r2, e2, h2⟩ := ih h1
    exact ⟨s2, r2, by rw [List.foldl_cons, e1, e2], by simpa using h2⟩

/-- The parser never reaches undefined behaviour; it accepts only texts. -/
theorem parse_cases (into : List Nat) (bs : List Byte) :
    (∃ cps, parse into bs = some (into ++ cps, true) ∧ Utf8Text bs cps) ∨
    (∃ cps, parse into bs = some (cps, false)) := by
  obtain ⟨s, r, e, h⟩ := Inv.run bs (Inv.start (into := into))
  unfold parse
  rw [show Utf8Table.start = 4 from rfl, e]
  rw [List.nil_append] at h
  cases h with
  | start => left; exact ⟨[], by simp [Utf8Table.eofActs, Utf8Table.firstFinal], .nil⟩
  | err => right; exact ⟨_, rfl⟩
  | full d cps l cp hd hl =>
    left
    exact ⟨cps ++ [cp], by simp [Utf8Table.eofActs, Utf8Table.firstFinal, List.foldlM, act],
      Utf8Text.snoc hd hl⟩
  | pend d cps l k cp hd hl =>
    right
    have hb := hl.bounds.1
    have : s = 1 ∨ s = 2 ∨ s = 3 := by omega
    rcases this with rfl | rfl | rfl <;>
      exact ⟨_, by simp [Utf8Table.eofActs, Utf8Table.firstFinal]; rfl⟩

end Utf8Parser

/-! ### The encoder -/

theorem toChar_toNat (n : Nat) (h : n < 256) : (toChar n).toNat = n := by
  unfold toChar
  rw [Nat.mod_eq_of_lt h, UInt8.toNat_ofNat']
  omega

theorem and_mask (x k : Nat) : x &&& (2 ^ k - 1) = x % 2 ^ k := Nat.and_two_pow_sub_one_eq_mod x k

theorem and63 (x : Nat) : x &&& 63 = x % 64 := and_mask x 6
theorem or128 (x : Nat) (h : x < 64) : x ||| 128 = 128 + x := by
  simpa using or_mul_pow' 1 x 7 (by omega)
theorem or192 (x : Nat) (h : x < 32) : x ||| 192 = 192 + x := by
  simpa using or_mul_pow' 3 x 6 (by omega)
theorem or224 (x : Nat) (h : x < 16) : x ||| 224 = 224 + x := by
  simpa using or_mul_pow' 7 x 5 (by omega)
theorem or240 (x : Nat) (h : x < 8) : x ||| 240 = 240 + x := by
  simpa using or_mul_pow' 15 x 4 (by omega)

theorem Utf8Char.cast {l : List Byte} {m n : Nat} (h : Utf8Char l m) (e : m = n) :
    Utf8Char l n := e ▸ h

theorem utf8append_char (cp : Nat) (h : cp < 2 ^ 21) :
    Utf8Char (utf8append cp) cp ∧ (utf8append cp).length = utf8len cp := by
  unfold utf8append utf8len
  simp only [Nat.shiftRight_eq_div_pow, and63]
  rw [show cp / 2 ^ 18 &&& 7 = cp / 2 ^ 18 % 8 from and_mask _ 3]
  by_cases h1 : cp < 128
  · rw [if_pos h1, if_pos h1]
    have e := toChar_toNat cp (by omega)
    have := Utf8Char.one (toChar cp) (by omega)
    rw [e] at this
    exact ⟨this, rfl⟩
  · rw [if_neg h1, if_neg h1]
    by_cases h2 : cp < 2048
    · rw [if_pos h2, if_pos h2, or192 _ (by omega), or128 _ (by omega)]
      have e1 := toChar_toNat (192 + cp / 2 ^ 6) (by omega)
      have e2 := toChar_toNat (128 + cp % 64) (by omega)
      have := Utf8Char.two (toChar (192 + cp / 2 ^ 6)) (toChar (128 + cp % 64)) (by omega)
        (by omega)
      rw [e1, e2] at this
      exact ⟨Utf8Char.cast this (by omega), rfl⟩
    · rw [if_neg h2, if_neg h2]
      by_cases h3 : cp < 65536
      · rw [if_pos h3, if_pos h3, or224 _ (by omega), or128 _ (by omega), or128 _ (by omega)]
        have e1 := toChar_toNat (224 + cp / 2 ^ 12) (by omega)
        have e2 := toChar_toNat (128 + cp / 2 ^ 6 % 64) (by omega)
        have e3 := toChar_toNat (128 + cp % 64) (by omega)
        have := Utf8Char.three (toChar (224 + cp / 2 ^ 12)) (toChar (128 + cp / 2 ^ 6 % 64))
          (toChar (128 + cp % 64)) (by omega) (by omega) (by omega)
        rw [e1, e2, e3] at this
        exact ⟨Utf8Char.cast this (by omega), rfl⟩
      · rw [if_neg h3, if_neg h3, or240 _ (by omega), or128 _ (by omega), or128 _ (by omega),
          or128 _ (by omega)]
        have e1 := toChar_toNat (240 + cp / 2 ^ 18 % 8) (by omega)
        have e2 := toChar_toNat (128 + cp / 2 ^ 12 % 64) (by omega)
        have e3 := toChar_toNat (128 + cp / 2 ^ 6 % 64) (by omega)
        have e4 := toChar_toNat (128 + cp % 64) (by omega)
        have := Utf8Char.four (toChar (240 + cp / 2 ^ 18 % 8)) (toChar (128 + cp / 2 ^ 12 % 64))
          (toChar (128 + cp / 2 ^ 6 % 64))
          (toChar (128 + cp % 64)) (by omega) (by omega) (by omega) (by omega)
        rw [e1, e2, e3, e4] at this
        exact ⟨Utf8Char.cast this (by omega), rfl⟩

theorem utf8append_text (cps : List Nat) (h : ∀ cp ∈ cps, cp < 2 ^ 21) :
    Utf8Text (cps.flatMap utf8append) cps := by
  induction cps with
  | nil => exact .nil
  | cons cp cps ih =>
    rw [List.flatMap_cons]
    exact .cons (utf8append_char cp (h cp (by simp))).1 (ih (fun x hx => h x (by simp [hx])))

theorem Utf8Char.lt {bs : List Byte} {cp : Nat} (h : Utf8Char bs cp) : cp < 2 ^ 21 := by
  cases h <;> omega

/-- `utf8read` on a well-shaped code point followed by anything. -/
theorem utf8read_char {bs : List Byte} {cp : Nat} (h : Utf8Char bs cp) (rest : List Byte) :
    utf8read (bs ++ rest) = some (cp, rest) := by
  cases h with
  | one a h => simp [utf8read]; omega
  | two a b ha hb =>
    have h1 := Utf8Parser.lead_act a
    rw [Utf8Parser.lead_two a ha] at h1
    have hb' := (Utf8Parser.isCont_iff b).2 hb
    simp only [List.cons_append, List.nil_append, utf8read]
    rw [if_neg (by omega), if_pos (by omega), if_neg (by simp), h1.2.2.1]
    simp only [utf8readCont]
    rw [Utf8Parser.cont_val _ _ (by omega) hb']
  | three a b c ha hb hc =>
    have h1 := Utf8Parser.lead_act a
    rw [Utf8Parser.lead_three a ha] at h1
    have hb' := (Utf8Parser.isCont_iff b).2 hb
    have hc' := (Utf8Parser.isCont_iff c).2 hc
    simp only [List.cons_append, List.nil_append, utf8read]
    rw [if_neg (by omega), if_neg (by omega), if_pos (by omega), if_neg (by simp), h1.2.2.1]
    simp only [utf8readCont]
    rw [Utf8Parser.cont_val _ _ (by omega) hb', Utf8Parser.cont_val _ _ (by omega) hc']
    exact congrArg (fun n => some (n, rest)) (by omega)
  | four a b c d ha hb hc hd =>
    have h1 := Utf8Parser.lead_act a
    rw [Utf8Parser.lead_four a ha] at h1
    have hb' := (Utf8Parser.isCont_iff b).2 hb
    have hc' := (Utf8Parser.isCont_iff c).2 hc
    have hd' := (Utf8Parser.isCont_iff d).2 hd
    simp only [List.cons_append, List.nil_append, utf8read]
    rw [if_neg (by omega), if_neg (by omega), if_neg (by omega), if_pos (by omega),
      if_neg (by simp), h1.2.2.1]
    simp only [utf8readCont]
    rw [Utf8Parser.cont_val _ _ (by omega) hb', Utf8Parser.cont_val _ _ (by omega) hc',
      Utf8Parser.cont_val _ _ (by omega) hd']
    exact congrArg (fun n => some (n, rest)) (by omega)

end Ron
