import Verif.Lemmas.TextCursor
/-!
The invariant of the automaton of `Cursor.next`.
-/
namespace Ron
open Spec Act

attribute [local irreducible] Atom.type Atom.rBegin Atom.rEnd Atom.cp Atom.cpSize Atom.setCp
  Atom.setCpSize Atom.consume Atom.ofRange Atom.rawValid Uuid.inc

/-- The atoms of an op: two UUIDs and sound values. -/
def OpOk (buf : List Byte) (op : List Atom) : Prop :=
  ∃ i r vals, op = i :: r :: vals ∧ Atom.type i = Atom.tUUID ∧ Atom.type r = Atom.tUUID ∧
    ∀ a ∈ vals, AtomOk buf a ∧ (Atom.type a = Atom.tSTRING → Atom.RawOk a)

theorem Spec.AtomOk.of_uuid {buf : List Byte} {a : Atom} (h : Atom.type a = Atom.tUUID) :
    AtomOk buf a :=
  ⟨fun h' => absurd (h.symm.trans h') (by decide), fun h' => absurd (h.symm.trans h') (by decide),
    fun h' => absurd (h.symm.trans h') (by decide)⟩

theorem OpOk.all {buf : List Byte} {op : List Atom} (h : OpOk buf op) : ∀ a ∈ op, AtomOk buf a := by
  obtain ⟨i, r, vals, rfl, hi, hr, hv⟩ := h
  intro a ha
  simp only [List.mem_cons] at ha
  rcases ha with rfl | rfl | ha
  · exact .of_uuid hi
  · exact .of_uuid hr
  · exact (hv a ha).1

theorem OpOk.push {buf : List Byte} {op : List Atom} (h : OpOk buf op) {a : Atom}
    (ha : AtomOk buf a) (hr : Atom.type a = Atom.tSTRING → Atom.RawOk a) :
    OpOk buf (op ++ [a]) := by
  obtain ⟨i, r, vals, rfl, hi, hr', hv⟩ := h
  refine ⟨i, r, vals ++ [a], rfl, hi, hr', ?_⟩
  intro x hx
  rw [List.mem_append, List.mem_singleton] at hx
  rcases hx with hx | rfl
  · exact hv x hx
  · exact ⟨ha, hr⟩

theorem OpOk.pushUuid {buf : List Byte} {op : List Atom} (h : OpOk buf op) {a : Atom}
    (ha : Atom.type a = Atom.tUUID) : OpOk buf (op ++ [a]) :=
  h.push (.of_uuid ha) fun h' => absurd (ha.symm.trans h') (by decide)

theorem OpOk.set0 {buf : List Byte} {op : List Atom} (h : OpOk buf op) {a : Atom}
    (ha : Atom.type a = Atom.tUUID) : OpOk buf (op.set 0 a) := by
  obtain ⟨i, r, vals, rfl, hi, hr', hv⟩ := h
  exact ⟨a, r, vals, rfl, ha, hr', hv⟩

theorem OpOk.set1 {buf : List Byte} {op : List Atom} (h : OpOk buf op) {a : Atom}
    (ha : Atom.type a = Atom.tUUID) : OpOk buf (op.set 1 a) := by
  obtain ⟨i, r, vals, rfl, hi, hr', hv⟩ := h
  exact ⟨i, a, vals, rfl, hi, ha, hv⟩

/-- A string at the end of an op is one of its values. -/
theorem OpOk.last_string {buf : List Byte} {op : List Atom} (h : OpOk buf op) {a : Atom}
    (hl : op.getLast? = some a) (ht : Atom.type a = Atom.tSTRING) :
    AtomOk buf a ∧ Atom.RawOk a ∧
      ∀ a', AtomOk buf a' → (Atom.type a' = Atom.tSTRING → Atom.RawOk a') →
        OpOk buf (TextParser.setLast op a') := by
  obtain ⟨i, r, vals, rfl, hi, hr', hv⟩ := h
  rcases List.eq_nil_or_concat vals with rfl | ⟨vs, x, rfl⟩
  · simp at hl; subst hl; rw [hr'] at ht; exact absurd ht (by decide)
  · rw [List.concat_eq_append] at *
    have hx : x = a := by
      rw [show i :: r :: (vs ++ [x]) = (i :: r :: vs) ++ [x] from rfl] at hl
      rw [List.getLast?_concat] at hl
      exact Option.some.inj hl
    subst hx
    have := hv x (by simp)
    refine ⟨this.1, this.2 ht, fun a' h1 h2 => ⟨i, r, vs ++ [a'], ?_, hi, hr', ?_⟩⟩
    · unfold TextParser.setLast
      rw [show i :: r :: (vs ++ [x]) = (i :: r :: vs) ++ [x] from rfl, List.dropLast_concat]
      rfl
    · intro y hy
      rw [List.mem_append, List.mem_singleton] at hy
      rcases hy with hy | rfl
      · exact hv y (by simp [hy])
      · exact ⟨h1, h2⟩

namespace TextParser

/-- The UUID registers are usable. -/
def Ready (r : Regs) : Prop := isB64 r.variety = true ∧ isSep r.version = true

theorem sep_abc : ∀ c : Byte, isSep c = true → ∃ v, ABC c = some v ∧ v < 4 := by
  intro c
  have : ∀ c : Byte, isSep c = true → (ABC c).isSome ∧ (ABC c).getD 9 < 4 :=
    forall_byte (by decide +kernel)
  intro h
  obtain ⟨h1, h2⟩ := this c h
  cases hc : ABC c with
  | none => simp [hc] at h1
  | some v => exact ⟨v, rfl, by simpa [hc] using h2⟩

theorem mkUuid_abort {r : Regs} (h : mkUuid r = .abort) :
    10 < r.value.length ∨ 10 < r.origin.length := by
  unfold mkUuid at h
  split at h
  · assumption
  · unfold Out.ofOption at h; split at h <;> simp at h

theorem mkUuid_safe {r : Regs} (hr : Ready r) (hv : ∀ x ∈ r.value, isB64 x = true)
    (ho : ∀ x ∈ r.origin, isB64 x = true) :
    mkUuid r = .abort ∨ ∃ u, mkUuid r = .ok u ∧ Atom.type u = Atom.tUUID := by
  unfold mkUuid
  by_cases h : r.value.length > 10 ∨ r.origin.length > 10
  · rw [if_pos h]; exact .inl rfl
  · rw [if_neg h]
    right
    obtain ⟨v, hv1, hv2⟩ := sep_abc _ hr.2
    obtain ⟨a, ha, _⟩ := Word.parse_val (b64digit r.variety) r.value hv (by omega)
    obtain ⟨b, hb, hbv⟩ := Word.parse_val v r.origin ho (by omega)
    refine ⟨⟨a, b⟩, ?_, ?_⟩
    · unfold Uuid.parts
      rw [ABC_b64 _ hr.1, hv1]
      simp only [ha, hb, Out.ofOption]
    · have hb2 := b64nat_lt r.origin ho
      have hlt : b64nat r.origin * 64 ^ (10 - r.origin.length) < 2 ^ 60 := by
        calc b64nat r.origin * 64 ^ (10 - r.origin.length)
            < 64 ^ r.origin.length * 64 ^ (10 - r.origin.length) :=
              Nat.mul_lt_mul_of_pos_right hb2 (Nat.pow_pos (by decide))
          _ = 64 ^ 10 := by rw [← Nat.pow_add]; congr 1; omega
          _ = 2 ^ 60 := by decide
      unfold Atom.type Atom.tUUID
      show b.toNat / 2 ^ 62 = 0
      rw [hbv, Nat.mod_eq_of_lt (show v < 16 by omega)]
      apply Nat.div_eq_of_lt
      calc v * 2 ^ 60 + _ < v * 2 ^ 60 + 2 ^ 60 := Nat.add_lt_add_left hlt _
        _ ≤ 3 * 2 ^ 60 + 2 ^ 60 := Nat.add_le_add_right (Nat.mul_le_mul_right _ (by omega)) _
        _ = 2 ^ 62 := by decide

/-! ### classes of states -/

/-- States that follow a possible variety digit. -/
def varS (s : Nat) : Bool := [29, 40, 50, 62, 65].contains s
/-- States inside of a Base64 word started at `wordb`. -/
def wordS (s : Nat) : Bool :=
  [29, 31, 39, 40, 42, 44, 45, 46, 48, 49, 50, 62, 65, 67, 69, 71, 73].contains s
/-- States inside of a UUID. -/
def uS (s : Nat) : Bool :=
  [29, 30, 31, 38, 39, 40, 41, 42, 43, 44, 45, 46, 47, 48, 49, 50,
   62, 65, 66, 67, 68, 69, 70, 71, 72, 73].contains s
/-- After the sign of an integer. -/
def signS (s : Nat) : Bool := [21, 26].contains s
/-- Inside of the digits of a possible integer. -/
def intS (s : Nat) : Bool := [22, 27, 40, 45].contains s
/-- Right after an opening quote. -/
def openS (s : Nat) : Bool := [1, 6].contains s
/-- Inside of a string, the last byte not being a protecting backslash. -/
def strS (s : Nat) : Bool :=
  [2, 52, 53, 54, 55, 56, 57, 58, 59, 7, 12, 13, 14, 15, 16, 17, 18, 19].contains s
/-- Right after a backslash of a string. -/
def escS (s : Nat) : Bool := [51, 11].contains s
/-- Number of bytes the current `Next` has certainly consumed. -/
def pmin (s : Nat) : Nat :=
  if [16, 56].contains s then 4 else if [15, 55].contains s then 3
  else if [14, 54].contains s then 2 else if s = 74 then 0 else 1

/-- Where a state is: outside of quotes, within, after a backslash. -/
def qS (s : Nat) : Nat :=
  if [1, 2, 6, 7, 12, 13, 14, 15, 16, 17, 18, 19, 52, 53, 54, 55, 56, 57, 58, 59].contains s then 1
  else if [11, 51].contains s then 2 else 0

def qRow (s : Nat) (row : TRow) : Bool :=
  let lo := row.1
  let hi := row.2.1
  let t := row.2.2.2
  let one (n : Nat) := Nat.beq lo n && Nat.beq hi n
  let out (n : Nat) := Nat.ble (hi + 1) n || Nat.ble (n + 1) lo
  (if Nat.beq (qS s) 0 then (Nat.beq (qS t) 0 && out 39) || (Nat.beq (qS t) 1 && one 39)
   else if Nat.beq (qS s) 2 then Nat.beq (qS t) 1
   else (Nat.beq (qS t) 0 && one 39) || (Nat.beq (qS t) 2 && one 92) ||
     (Nat.beq (qS t) 1 && out 39 && out 92)) &&
  (!(wordS t || intS t || signS t) || Nat.beq (qS s) 0)

theorem qTable : allRows TextTable.rows 76 qRow = true := by decide +kernel

theorem qS_cases (s : Nat) : qS s = 0 ∨ qS s = 1 ∨ qS s = 2 := by
  unfold qS; split
  · simp
  · split <;> simp

/-- Quotes are followed by the automaton. -/
structure QRow (s : Nat) (c : Byte) (t : Nat) : Prop where
  step : quoteStep (qS s) c = qS t
  out : wordS t = true ∨ intS t = true ∨ signS t = true → qS s = 0

theorem qrow_of {s : Nat} {c : Byte} {as : List Act} {t : Nat}
    (h : stepIn TextTable.rows s c = some (as, t)) : QRow s c t := by
  obtain ⟨lo, hi, h1, h2, h'⟩ := TextTable.step qTable h
  simp only [qRow, Bool.and_eq_true] at h'
  obtain ⟨ha, hb⟩ := h'
  constructor
  · rcases qS_cases s with e | e | e
    · simp only [e, Nat.beq_refl, if_true] at ha
      simp only [Bool.or_eq_true, Bool.and_eq_true, Nat.ble_eq, Nat.beq_eq] at ha
      simp only [quoteStep, e, if_true]
      split <;> omega
    · have h10 : Nat.beq 1 0 = false := rfl
      have h12 : Nat.beq 1 2 = false := rfl
      simp only [e, h10, h12, Bool.false_eq_true, if_false] at ha
      simp only [Bool.or_eq_true, Bool.and_eq_true, Nat.ble_eq, Nat.beq_eq] at ha
      simp only [quoteStep, e]
      rw [if_neg (by decide), if_neg (by decide)]
      split
      · omega
      · split <;> omega
    · have h20 : Nat.beq 2 0 = false := rfl
      simp only [e, h20, Nat.beq_refl, Bool.false_eq_true, if_false, if_true] at ha
      simp only [Nat.beq_eq] at ha
      simp only [quoteStep, e, ha]
      rfl
  · intro hx
    have : (wordS t || intS t || signS t) = true := by
      simp only [Bool.or_eq_true]
      rcases hx with h | h | h
      · exact .inl (.inl h)
      · exact .inl (.inr h)
      · exact .inr h
    rw [this] at hb
    simpa only [Bool.not_true, Bool.false_or, Nat.beq_eq] using hb

/-- The state of quotes after a text. -/
def quoteOf (u : List Byte) : Nat := u.foldl quoteStep 0

theorem outside_get {buf : List Byte} {p : Nat} {c : Byte} (hc : buf[p]? = some c)
    (hq : quoteOf (buf.take p) = 0) : (outside 0 buf)[p]? = some c := by
  have key : ∀ (buf : List Byte) (p q : Nat), buf[p]? = some c →
      (buf.take p).foldl quoteStep q = 0 → (outside q buf)[p]? = some c := by
    intro buf
    induction buf with
    | nil => intro p q hc; simp at hc
    | cons x buf ih =>
      intro p q hc hq
      cases p with
      | zero =>
        simp only [List.take_zero, List.foldl_nil] at hq
        simpa only [outside, hq, if_true, List.getElem?_cons_zero] using hc
      | succ p =>
        simp only [List.take_succ_cons, List.foldl_cons] at hq
        simp only [List.getElem?_cons_succ] at hc
        simp only [outside, List.getElem?_cons_succ]
        exact ih p _ hc hq
  exact key buf p 0 hc hq

theorem quoteOf_succ {buf : List Byte} {p : Nat} {c : Byte} (hc : buf[p]? = some c) :
    quoteOf (buf.take (p + 1)) = quoteStep (quoteOf (buf.take p)) c := by
  rw [List.take_add_one, hc]
  simp [quoteOf]

/-- A piece of the text without quotes. -/
def Plain (buf : List Byte) (b e : Nat) : Prop := slice (outside 0 buf) b e = slice buf b e

theorem Plain.empty {buf : List Byte} {b : Nat} : Plain buf b b := by simp [Plain, slice_self]

theorem Plain.snoc {buf : List Byte} {b p : Nat} {c : Byte} (h : Plain buf b p) (hb : b ≤ p)
    (hc : buf[p]? = some c) (hq : quoteOf (buf.take p) = 0) : Plain buf b (p + 1) := by
  unfold Plain at h ⊢
  rw [slice_snoc hb hc, slice_snoc hb (outside_get hc hq), h]

theorem Plain.infix {buf : List Byte} {b e : Nat} (h : Plain buf b e) :
    slice buf b e <:+: outside 0 buf := by
  rw [← h]
  exact ((List.take_prefix _ _).isInfix).trans (List.drop_suffix _ _).isInfix

def isBW (a : Act) : Bool := a = .begin_value || a = .begin_origin

/-- The mutual position of marks, actions and states, per table row. -/
def okRow (s : Nat) (row : TRow) : Bool :=
  let lo := row.1
  let hi := row.2.1
  let as := row.2.2.1
  let t := row.2.2.2
  let has (a : Act) := as.contains a
  let bw := has .begin_value || has .begin_origin
  let b64r := (Nat.ble 48 lo && Nat.ble hi 57) || (Nat.ble 65 lo && Nat.ble hi 90) ||
    (Nat.beq lo 95 && Nat.beq hi 95) || (Nat.ble 97 lo && Nat.ble hi 122) ||
    (Nat.beq lo 126 && Nat.beq hi 126)
  let hexr := (Nat.ble 48 lo && Nat.ble hi 57) || (Nat.ble 65 lo && Nat.ble hi 70)
  let digr := Nat.ble 48 lo && Nat.ble hi 57
  let one (n : Nat) := Nat.beq lo n && Nat.beq hi n
  let sepr := (Nat.ble 36 lo && Nat.ble hi 37) || one 43 || one 45
  let nohas (a : Act) := !(has a)
  -- progress
  Nat.ble (pmin t) (pmin s + 1) && Nat.ble t 75 && Nat.ble 1 t &&
  -- reads before p
  (nohas .string_uesc || Nat.ble 4 (pmin s)) &&
  (nohas .variety || varS s) && (!varS t || hexr) &&
  -- words
  (!wordS t || (b64r && (bw || wordS s))) &&
  ((nohas .end_value && nohas .end_origin) || (wordS s && !bw)) &&
  (nohas .version || sepr) &&
  (!uS t || has .begin_uuid || uS s) &&
  ((nohas .end_id && nohas .end_ref && nohas .end_quoted_uuid && nohas .end_bare_uuid) || uS s) &&
  -- integers
  (nohas .end_int || (intS s && nohas .begin_int)) &&
  (!signS t || ((one 43 || one 45) && has .begin_int)) &&
  (!intS t || (digr && (has .begin_int || signS s || intS s))) &&
  -- strings
  (!openS t || one 39) &&
  (nohas .begin_string || (openS s && as.head? == some .begin_string &&
    !as.tail.contains .begin_string)) &&
  (!openS s || has .begin_string) &&
  (nohas .end_string || (one 39 && (openS s || strS s))) &&
  (!strS t || (openS s && (Nat.ble 14 lo && Nat.ble hi 38 || Nat.ble 11 lo && Nat.ble hi 12 ||
      Nat.ble 1 lo && Nat.ble hi 9 || Nat.ble 40 lo && Nat.ble hi 91 || Nat.ble 93 lo)) ||
    (strS s && (Nat.ble 14 lo && Nat.ble hi 38 || Nat.ble 11 lo && Nat.ble hi 12 ||
      Nat.ble 1 lo && Nat.ble hi 9 || Nat.ble 40 lo && Nat.ble hi 91 || Nat.ble 93 lo)) ||
    (escS s && Nat.ble 14 lo)) &&
  (!escS t || (one 92 && (openS s || strS s))) &&
  -- spread
  (nohas .end_spread || (Nat.beq s 8 && nohas .end_string && nohas .end_float)) &&
  (!Nat.beq t 8 || as.getLast? == some .end_string) &&
  -- terminators
  (nohas .op_term || ((one 33 || one 44 || one 59 || one 63) && Nat.beq t 74 &&
    as.getLast? == some .op_term && !as.dropLast.contains .op_term)) &&
  -- lines
  (nohas .newline || (as.getLast? == some .newline && !as.dropLast.contains .newline)) &&
  -- a UUID starts together with other marks only
  (nohas .begin_uuid || as.all fun a =>
    [Act.begin_int, .begin_float, .begin_uuid, .begin_value].contains a) &&
  -- actions of the other grammars
  (nohas .push_cp && nohas .end_cp_brk)

theorem okTable : allRows TextTable.rows 76 okRow = true := by decide +kernel

/-- All the columns of `okRow` for a transition on a byte. -/
structure Row (s : Nat) (c : Byte) (as : List Act) (t : Nat) : Prop where
  min : pmin t ≤ pmin s + 1
  tgt : 1 ≤ t ∧ t ≤ 75
  uesc : Act.string_uesc ∈ as → 4 ≤ pmin s
  var : Act.variety ∈ as → varS s = true
  varT : varS t = true → isHex c = true
  wordT : wordS t = true → isB64 c = true ∧
    ((Act.begin_value ∈ as ∨ Act.begin_origin ∈ as) ∨ wordS s = true)
  wordE : (Act.end_value ∈ as ∨ Act.end_origin ∈ as) →
    wordS s = true ∧ Act.begin_value ∉ as ∧ Act.begin_origin ∉ as
  ver : Act.version ∈ as → isSep c = true
  uT : uS t = true → Act.begin_uuid ∈ as ∨ uS s = true
  uE : (Act.end_id ∈ as ∨ Act.end_ref ∈ as ∨ Act.end_quoted_uuid ∈ as ∨
    Act.end_bare_uuid ∈ as) → uS s = true
  intE : Act.end_int ∈ as → intS s = true ∧ Act.begin_int ∉ as
  signT : signS t = true → isSign c = true ∧ Act.begin_int ∈ as
  intT : intS t = true → IsDigit c ∧ (Act.begin_int ∈ as ∨ signS s = true ∨ intS s = true)
  openT : openS t = true → c.toNat = 39
  strB : Act.begin_string ∈ as → openS s = true ∧
    ∃ as', as = Act.begin_string :: as' ∧ Act.begin_string ∉ as'
  openB : openS s = true → Act.begin_string ∈ as
  strE : Act.end_string ∈ as → c.toNat = 39 ∧ (openS s = true ∨ strS s = true)
  strT : strS t = true → ((openS s = true ∨ strS s = true) ∧ scanStep (some false) c = some false) ∨
    (escS s = true ∧ scanStep (some true) c = some false)
  escT : escS t = true → c.toNat = 92 ∧ (openS s = true ∨ strS s = true)
  spread : Act.end_spread ∈ as → s = 8 ∧ Act.end_string ∉ as ∧ Act.end_float ∉ as
  spreadT : t = 8 → ∃ as', as = as' ++ [Act.end_string]
  term : Act.op_term ∈ as → (c.toNat = 33 ∨ c.toNat = 44 ∨ c.toNat = 59 ∨ c.toNat = 63) ∧
    t = 74 ∧ ∃ as', as = as' ++ [Act.op_term] ∧ Act.op_term ∉ as'
  line : Act.newline ∈ as → ∃ as', as = as' ++ [Act.newline] ∧ Act.newline ∉ as'
  ubegin : Act.begin_uuid ∈ as →
    ∀ a ∈ as, a ∈ [Act.begin_int, .begin_float, .begin_uuid, .begin_value]
  other : Act.push_cp ∉ as ∧ Act.end_cp_brk ∉ as
  quo : QRow s c t

theorem getLast_split {as : List Act} {a : Act} (h : as.getLast? = some a) :
    as = as.dropLast ++ [a] := by
  rw [List.getLast?_eq_some_iff] at h
  obtain ⟨ys, rfl⟩ := h
  simp

theorem row_of {s : Nat} {c : Byte} {as : List Act} {t : Nat}
    (h : stepIn TextTable.rows s c = some (as, t)) : Row s c as t := by
  obtain ⟨lo, hi, hlo, hhi, hrow⟩ := TextTable.step okTable h
  simp only [okRow, Bool.and_eq_true, Bool.or_eq_true, Bool.not_eq_true', Nat.ble_eq,
    List.contains_iff_mem, ← Bool.not_eq_true, beq_iff_eq, Nat.beq_eq, List.all_eq_true] at hrow
  obtain ⟨⟨⟨⟨⟨⟨⟨⟨⟨⟨⟨⟨⟨⟨⟨⟨⟨⟨⟨⟨⟨⟨⟨⟨⟨h1, h2⟩, h3⟩, h4⟩, h5⟩, h6⟩, h7⟩, h8⟩, h9⟩, h10⟩, h11⟩, h12⟩, h13⟩, h14⟩, h15⟩, h16⟩, h17⟩, h18⟩, h19⟩, h20⟩, h21⟩, h22⟩, h23⟩, h24⟩, h25⟩, h26, h27⟩ := hrow
  have cc : ∀ n, lo = n ∧ hi = n → c.toNat = n := fun n hh => by omega
  have hb64 : ∀ c : Byte, ((48 ≤ c.toNat ∧ c.toNat ≤ 57) ∨ (65 ≤ c.toNat ∧ c.toNat ≤ 90) ∨
      c.toNat = 95 ∨ (97 ≤ c.toNat ∧ c.toNat ≤ 122) ∨ c.toNat = 126) → isB64 c = true :=
    forall_byte (by decide +kernel)
  have hhex : ∀ c : Byte, ((48 ≤ c.toNat ∧ c.toNat ≤ 57) ∨ (65 ≤ c.toNat ∧ c.toNat ≤ 70)) →
      isHex c = true := forall_byte (by decide +kernel)
  have hsep : ∀ c : Byte, (36 ≤ c.toNat ∧ c.toNat ≤ 37 ∨ c.toNat = 43 ∨ c.toNat = 45) →
      isSep c = true := forall_byte (by decide +kernel)
  have hsign : ∀ c : Byte, (c.toNat = 43 ∨ c.toNat = 45) → isSign c = true :=
    forall_byte (by decide +kernel)
  have hscan : ∀ c : Byte, (14 ≤ c.toNat ∧ c.toNat ≤ 38 ∨ 11 ≤ c.toNat ∧ c.toNat ≤ 12 ∨
      1 ≤ c.toNat ∧ c.toNat ≤ 9 ∨ 40 ≤ c.toNat ∧ c.toNat ≤ 91 ∨ 93 ≤ c.toNat) →
      scanStep (some false) c = some false := forall_byte (by decide +kernel)
  have hscan2 : ∀ c : Byte, 14 ≤ c.toNat → scanStep (some true) c = some false :=
    forall_byte (by decide +kernel)
  constructor
  · exact h1
  · exact ⟨h3, h2⟩
  · intro hh; rcases h4 with h | h
    · exact absurd hh h
    · exact h
  · intro hh; rcases h5 with h | h
    · exact absurd hh h
    · exact h
  · intro hh; rcases h6 with h | h
    · exact absurd hh h
    · exact hhex c (by omega)
  · intro hh; rcases h7 with h | ⟨h, h'⟩
    · exact absurd hh h
    · exact ⟨hb64 c (by omega), h'⟩
  · intro hh; rcases h8 with ⟨h, h'⟩ | ⟨h, h'⟩
    · exact absurd hh (by simp [h, h'])
    · exact ⟨h, fun x => h' (.inl x), fun x => h' (.inr x)⟩
  · intro hh; rcases h9 with h | h
    · exact absurd hh h
    · exact hsep c (by omega)
  · intro hh; rcases h10 with (h | h) | h
    · exact absurd hh h
    · exact .inl h
    · exact .inr h
  · intro hh; rcases h11 with ⟨⟨⟨a, b⟩, d⟩, e⟩ | h
    · exact absurd hh (by simp [a, b, d, e])
    · exact h
  · intro hh; rcases h12 with h | h
    · exact absurd hh h
    · exact h
  · intro hh; rcases h13 with h | ⟨h, h'⟩
    · exact absurd hh h
    · exact ⟨hsign c (by omega), h'⟩
  · intro hh; rcases h14 with h | ⟨h, h'⟩
    · exact absurd hh h
    · refine ⟨by unfold IsDigit; omega, ?_⟩
      rcases h' with (h' | h') | h'
      · exact .inl h'
      · exact .inr (.inl h')
      · exact .inr (.inr h')
  · intro hh; rcases h15 with h | h
    · exact absurd hh h
    · exact cc _ h
  · intro hh; rcases h16 with h | ⟨⟨h, h'⟩, h''⟩
    · exact absurd hh h
    · refine ⟨h, as.tail, ?_, h''⟩
      cases as with
      | nil => simp at h'
      | cons a as => simp at h'; simp [h']
  · intro hh; rcases h17 with h | h
    · exact absurd hh h
    · exact h
  · intro hh; rcases h18 with h | ⟨h, h'⟩
    · exact absurd hh h
    · exact ⟨cc _ h, h'⟩
  · intro hh; rcases h19 with ((h | ⟨h, h'⟩) | ⟨h, h'⟩) | ⟨h, h'⟩
    · exact absurd hh h
    · exact .inl ⟨.inl h, hscan c (by omega)⟩
    · exact .inl ⟨.inr h, hscan c (by omega)⟩
    · exact .inr ⟨h, hscan2 c (by omega)⟩
  · intro hh; rcases h20 with h | ⟨h, h'⟩
    · exact absurd hh h
    · exact ⟨cc _ h, h'⟩
  · intro hh; rcases h21 with h | ⟨⟨h, h'⟩, h''⟩
    · exact absurd hh h
    · exact ⟨h, h', h''⟩
  · intro hh; rcases h22 with h | h
    · exact absurd hh h
    · exact ⟨_, getLast_split h⟩
  · intro hh; rcases h23 with h | ⟨⟨⟨h, h'⟩, h''⟩, h3'⟩
    · exact absurd hh h
    · exact ⟨by omega, h', _, getLast_split h'', h3'⟩
  · intro hh; rcases h24 with h | ⟨h, h'⟩
    · exact absurd hh h
    · exact ⟨_, getLast_split h, h'⟩
  · intro hh; rcases h25 with h | h
    · exact absurd hh h
    · exact h
  · exact ⟨h26, h27⟩
  · exact qrow_of h

/-! ### one transition -/

/-- `P` holds whether the action list goes on or breaks; an assert fails only in the case
`A`; no undefined behaviour. -/
def ResP (A : Prop) (P : Regs → Prop) : Res → Prop
  | .cont r => P r
  | .brk r => P r
  | .abort => A
  | .ub => False

theorem acts_ind {A : Prop} {P : Regs → Prop} {buf : List Byte} {c : Byte} : ∀ (as : List Act) (r : Regs),
    (∀ a ∈ as, ∀ r, P r → ResP A P (act buf c r a)) → P r → ResP A P (acts buf c r as) := by
  intro as
  induction as with
  | nil => intro r _ h; exact h
  | cons a as ih =>
    intro r h hr
    have h1 := h a (by simp) r hr
    unfold acts
    cases he : act buf c r a with
    | cont r' => rw [he] at h1; exact ih r' (fun b hb => h b (by simp [hb])) h1
    | brk r' => rw [he] at h1; exact h1
    | abort => rw [he] at h1; exact h1
    | ub => rw [he] at h1; exact h1

/-- The bytes of a word found in the frame. -/
def WordOf (buf w : List Byte) : Prop := (∀ x ∈ w, isB64 x = true) ∧ w <:+: outside 0 buf

theorem wordOf_slice {buf : List Byte} {b e : Nat} (h : ∀ x ∈ slice buf b e, isB64 x = true)
    (hp : Plain buf b e) : WordOf buf (slice buf b e) := ⟨h, hp.infix⟩

theorem wordOf_nil {buf : List Byte} : WordOf buf [] := ⟨by simp, List.nil_infix⟩

/-- The last atom is a string. -/
def LastStr (r : Regs) : Prop := ∃ a, r.op.getLast? = some a ∧ Atom.type a = Atom.tSTRING

/-- What holds between the actions of one transition that started with `r0`. -/
structure Mid (buf : List Byte) (r0 : Regs) (as : List Act) (r : Regs) : Prop where
  p : r.p = r0.p
  op : OpOk buf r.op
  val : WordOf buf r.value
  org : WordOf buf r.origin
  ready : Ready r0 → Ready r
  wordb : Act.begin_value ∉ as → Act.begin_origin ∉ as → r.wordb = r0.wordb
  intb : Act.begin_int ∉ as → r.intb = r0.intb
  strb : Act.begin_string ∉ as → r.strb = r0.strb
  floatb : r.floatb ≤ r0.p
  last : Act.end_spread ∈ as → LastStr r

/-- What a transition may rely on. -/
structure Pre (buf : List Byte) (c : Byte) (as : List Act) (r0 : Regs) : Prop where
  at_p : buf[r0.p]? = some c
  small : buf.length < 2 ^ 30
  var : Act.variety ∈ as → 1 ≤ r0.p ∧ ∃ v, buf[r0.p - 1]? = some v ∧ isHex v = true
  ver : Act.version ∈ as → isSep c = true
  word : (Act.end_value ∈ as ∨ Act.end_origin ∈ as) →
    Act.begin_value ∉ as ∧ Act.begin_origin ∉ as ∧ r0.wordb ≤ r0.p ∧
      (∀ x ∈ slice buf r0.wordb r0.p, isB64 x = true) ∧ Plain buf r0.wordb r0.p
  uuid : (Act.end_id ∈ as ∨ Act.end_ref ∈ as ∨ Act.end_quoted_uuid ∈ as ∨
    Act.end_bare_uuid ∈ as) → Ready r0
  int : Act.end_int ∈ as → Act.begin_int ∉ as ∧ r0.intb ≤ r0.p ∧
    (∃ v, IntText (slice buf r0.intb r0.p) v) ∧ Plain buf r0.intb r0.p
  uesc : Act.string_uesc ∈ as → 4 ≤ r0.p
  str : Act.end_string ∈ as → Act.begin_string ∉ as ∧ c = ch '\'' ∧ 1 ≤ r0.strb ∧
    r0.strb ≤ r0.p ∧ buf[r0.strb - 1]? = some (ch '\'') ∧
    scanSt (slice buf r0.strb r0.p) = some false
  spread : Act.end_spread ∈ as → Act.end_string ∉ as ∧ Act.end_float ∉ as ∧ Act.end_int ∉ as ∧
    Act.end_quoted_uuid ∉ as ∧ Act.end_bare_uuid ∉ as ∧ Act.end_id ∉ as ∧ Act.end_ref ∉ as
  other : Act.push_cp ∉ as ∧ Act.end_cp_brk ∉ as

theorem lt_of_get {buf : List Byte} {p : Nat} {c : Byte} (h : buf[p]? = some c) :
    p < buf.length := by
  rcases Nat.lt_or_ge p buf.length with h' | h'
  · exact h'
  · rw [List.getElem?_eq_none h'] at h; exact absurd h (by simp)

theorem atomOk_int {buf : List Byte} {b e : Nat} (hn : buf.length < 2 ^ 30) (h1 : b ≤ e)
    (h2 : e ≤ buf.length) (hi : ∃ v, IntText (slice buf b e) v)
    (ha : intAccepted (slice buf b e) = true) : AtomOk buf (Atom.ofRange Atom.tINT b e) := by
  have hb : b < 2 ^ 30 := by omega
  have he : e < 2 ^ 30 := by omega
  have ht := Atom.type_ofRange Atom.tINT b e (by decide) hb he
  refine ⟨fun _ => ?_, fun h => ?_, fun h => ?_⟩
  · rw [Atom.rBegin_ofRange _ _ _ (by decide) hb he, Atom.rEnd_ofRange _ _ _ (by decide) hb he]
    exact ⟨h1, h2, hi, ha⟩
  · rw [ht] at h; exact absurd h (by decide)
  · rw [ht] at h; exact absurd h (by decide)

theorem atomOk_float {buf : List Byte} {b e : Nat} (hn : buf.length < 2 ^ 30) (h1 : b ≤ e)
    (h2 : e ≤ buf.length) (ha : e - b ≤ 24) : AtomOk buf (Atom.ofRange Atom.tFLOAT b e) := by
  have hb : b < 2 ^ 30 := by omega
  have he : e < 2 ^ 30 := by omega
  have ht := Atom.type_ofRange Atom.tFLOAT b e (by decide) hb he
  refine ⟨fun h => ?_, fun _ => ?_, fun h => ?_⟩
  · rw [ht] at h; exact absurd h (by decide)
  · rw [Atom.rBegin_ofRange _ _ _ (by decide) hb he, Atom.rEnd_ofRange _ _ _ (by decide) hb he]
    exact ⟨h1, h2, ha⟩
  · rw [ht] at h; exact absurd h (by decide)

theorem atomOk_string {buf : List Byte} {b e n : Nat} (hn : buf.length < 2 ^ 30) (h0 : 1 ≤ b)
    (h1 : b ≤ e) (h2 : buf[e]? = some (ch '\'')) (hq : buf[b - 1]? = some (ch '\''))
    (hs : scanSt (slice buf b e) = some false) :
    AtomOk buf ((Atom.ofRange Atom.tSTRING b e).setCpSize n) ∧
      Atom.type ((Atom.ofRange Atom.tSTRING b e).setCpSize n) = Atom.tSTRING ∧
      Atom.RawOk ((Atom.ofRange Atom.tSTRING b e).setCpSize n) := by
  have hel := lt_of_get h2
  have hb : b < 2 ^ 30 := by omega
  have he : e < 2 ^ 30 := by omega
  have ht := Atom.type_ofRange Atom.tSTRING b e (by decide) hb he
  refine ⟨⟨fun h => ?_, fun h => ?_, fun _ => ?_⟩, ?_, ?_⟩
  · rw [Atom.type_setCpSize, ht] at h; exact absurd h (by decide)
  · rw [Atom.type_setCpSize, ht] at h; exact absurd h (by decide)
  · rw [Atom.rBegin_setCpSize, Atom.rEnd_setCpSize,
      Atom.rBegin_ofRange _ _ _ (by decide) hb he, Atom.rEnd_ofRange _ _ _ (by decide) hb he]
    refine ⟨b, h0, Nat.le_refl _, h1, hel, hq, ?_⟩
    rw [drop_eq_slice h1, List.drop_eq_getElem_cons hel]
    have : buf[e] = ch '\'' := by
      rw [List.getElem?_eq_getElem hel] at h2; exact Option.some.inj h2
    rw [this]
    exact scanQuoted_close _ _ hs
  · rw [Atom.type_setCpSize, ht]
  · unfold Atom.RawOk; rw [Atom.origin_setCpSize]
    exact Atom.rawOk_ofRange _ _ _ (by decide) hb he

theorem Mid.setSpan {buf : List Byte} {r0 r : Regs} {as : List Act} (m : Mid buf r0 as r)
    (x : Nat) : Mid buf r0 as { r with span := x } := { m with }

theorem Mid.setOp {buf : List Byte} {r0 r : Regs} {as : List Act} (m : Mid buf r0 as r)
    (o : List Atom) (h : OpOk buf o)
    (hl : Act.end_spread ∈ as → ∃ a, o.getLast? = some a ∧ Atom.type a = Atom.tSTRING) :
    Mid buf r0 as { r with op := o } := { m with op := h, last := hl }

theorem act_mid {buf : List Byte} {c : Byte} {as : List Act} {r0 : Regs}
    (pre : Pre buf c as r0) (a : Act) (ha : a ∈ as) (r : Regs) (m : Mid buf r0 as r) :
    ResP (LongWord buf) (Mid buf r0 as) (act buf c r a) := by
  have hpl := lt_of_get pre.at_p
  have hp := m.p
  have habort : mkUuid r = .abort → LongWord buf := by
    intro h
    rcases mkUuid_abort h with h | h
    · exact ⟨r.value, m.val.2, h, m.val.1⟩
    · exact ⟨r.origin, m.org.2, h, m.org.1⟩
  have hspec : (Act.end_id ∈ as ∨ Act.end_ref ∈ as ∨ Act.end_quoted_uuid ∈ as ∨
      Act.end_bare_uuid ∈ as) → mkUuid r = .abort ∨ ∃ u, mkUuid r = .ok u ∧ Atom.type u = Atom.tUUID :=
    fun h => mkUuid_safe (m.ready (pre.uuid h)) m.val.1 m.org.1
  have hpush : (Act.end_quoted_uuid ∈ as ∨ Act.end_bare_uuid ∈ as) →
      ResP (LongWord buf) (Mid buf r0 as) (pushUuid r) := by
    intro h
    unfold pushUuid
    by_cases hb : tooBig r = true
    · rw [if_pos hb]; exact m
    · rw [if_neg hb]
      rcases hspec (by rcases h with h | h <;> simp [h]) with e | ⟨u, e, hu⟩
      · rw [e]; exact habort e
      · rw [e]
        exact { m with
          op := m.op.pushUuid hu
          last := fun hs => absurd h (by have := pre.spread hs; simp [this]) }
  cases a with
  | end_id =>
    simp only [act, setSpec]
    rcases hspec (by simp [ha]) with e | ⟨u, e, hu⟩
    · rw [e]; exact habort e
    · rw [e]
      exact { m with
        op := m.op.set0 hu
        last := fun hs => absurd ha (by have := pre.spread hs; simp [this]) }
  | end_ref =>
    simp only [act, setSpec]
    rcases hspec (by simp [ha]) with e | ⟨u, e, hu⟩
    · rw [e]; exact habort e
    · rw [e]
      exact { m with
        op := m.op.set1 hu
        last := fun hs => absurd ha (by have := pre.spread hs; simp [this]) }
  | begin_int => exact { m with intb := fun h => absurd ha h }
  | end_int =>
    obtain ⟨h1, h2, h3, _⟩ := pre.int ha
    have hi := m.intb h1
    simp only [act]
    rw [hp, hi, if_neg (by omega)]
    split
    · exact m
    · rename_i hacc
      exact { m with
        p := rfl
        intb := fun _ => rfl
        op := m.op.push (atomOk_int pre.small h2 (by omega) h3 (by simpa using hacc))
          (fun ht => by
            rw [Atom.type_ofRange _ _ _ (by decide) (by have := pre.small; omega)
              (by have := pre.small; omega)] at ht
            exact absurd ht (by decide))
        last := fun hs => absurd ha (by have := pre.spread hs; simp [this]) }
  | begin_string => exact { m with strb := fun h => absurd ha h }
  | end_string =>
    obtain ⟨h1, h2, h3, h4, h5, h6⟩ := pre.str ha
    have hi := m.strb h1
    simp only [act]
    rw [hp, hi, if_neg (by omega)]
    have hat := pre.at_p
    rw [h2] at hat
    have hs := atomOk_string (n := r.cpSize) pre.small h3 h4 hat h5 h6
    exact { m with
      p := rfl
      strb := fun _ => rfl
      op := m.op.push hs.1 (fun _ => hs.2.2)
      last := fun hs => absurd ha (by have := pre.spread hs; simp [this]) }
  | begin_float => exact { m with floatb := by simp only; omega }
  | end_float =>
    have hf := m.floatb
    simp only [act]
    rw [hp, if_neg (by omega)]
    split
    · exact m
    · exact { m with
        p := rfl
        op := m.op.push (atomOk_float pre.small (by omega) (by omega) (by omega))
          (fun ht => by
            rw [Atom.type_ofRange _ _ _ (by decide) (by have := pre.small; omega)
              (by have := pre.small; omega)] at ht
            exact absurd ht (by decide))
        last := fun hs => absurd ha (by have := pre.spread hs; simp [this]) }
  | end_quoted_uuid => exact hpush (.inl ha)
  | end_bare_uuid =>
    simp only [act]
    split
    · exact hpush (.inr ha)
    · exact m
  | end_cp => exact { m with }
  | op_term => simp only [act]; split <;> exact { m with }
  | newline => simp only [act]; split <;> exact { m with }
  | string_esc => exact m
  | string_uesc =>
    have := pre.uesc ha
    simp only [act]; rw [if_neg (by omega)]; exact m
  | span_size_digit => exact m.setSpan _
  | end_span_size => exact m.setSpan _
  | end_spread =>
    obtain ⟨l, hl, ht⟩ := m.last ha
    have hls := m.op.last_string hl ht
    simp only [act]
    simp only [hl]
    split
    · obtain ⟨a', b, hn, ht', hok, hraw⟩ := nextCodepoint_safe pre.small ht hls.1 hls.2.1
      rw [hn]
      exact (m.setOp _ (hls.2.2 a' hok (fun _ => hraw))
        (fun _ => ⟨a', by simp [setLast], ht'⟩)).setSpan _
    · exact m.setSpan _
  | begin_uuid =>
    exact { m with org := wordOf_nil, ready := fun _ => ⟨show isB64 (ch '0') = true by decide, show isSep (ch '$') = true by decide⟩ }
  | variety =>
    obtain ⟨h1, v, h2, h3⟩ := pre.var ha
    simp only [act]
    rw [hp, if_neg (by omega), h2]
    exact { m with
      p := rfl
      ready := fun h => ⟨by
        have : ∀ c : Byte, isHex c = true → isB64 c = true := forall_byte (by decide +kernel)
        exact this v h3, (m.ready h).2⟩ }
  | begin_value => exact { m with wordb := fun h => absurd ha h }
  | end_value =>
    obtain ⟨h1, h2, h3, h4, h5⟩ := pre.word (.inl ha)
    simp only [act]
    rw [hp, m.wordb h1 h2, if_neg (by omega)]
    exact { m with p := rfl, wordb := fun _ _ => rfl, val := wordOf_slice h4 h5 }
  | version => exact { m with ready := fun h => ⟨(m.ready h).1, pre.ver ha⟩ }
  | begin_origin => exact { m with wordb := fun _ h => absurd ha h }
  | end_origin =>
    obtain ⟨h1, h2, h3, h4, h5⟩ := pre.word (.inr ha)
    simp only [act]
    rw [hp, m.wordb h1 h2, if_neg (by omega)]
    exact { m with p := rfl, wordb := fun _ _ => rfl, org := wordOf_slice h4 h5 }
  | end_uuid => exact m
  | string_cont => exact m
  | string_lead1 => exact m
  | string_lead2 => exact m
  | string_lead3 => exact m
  | string_lead4 => exact m
  | push_cp => exact absurd ha pre.other.1
  | end_cp_brk => exact absurd ha pre.other.2

end TextParser
end Ron
