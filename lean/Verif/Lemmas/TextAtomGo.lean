import Verif.Lemmas.CpRead
/-!
The frame automaton over single atoms.
-/
namespace Ron
open Spec Act

attribute [local irreducible] Atom.type Atom.rBegin Atom.rEnd Atom.cp Atom.cpSize Atom.setCp
  Atom.setCpSize Atom.consume Atom.ofRange Atom.rawValid Uuid.inc

namespace TextParser

/-- The reader of the frame sees this value in the atom. -/
def Sees (buf : List Byte) (a : Atom) (v : View) : Prop :=
  ∀ cur : Cursor, cur.buf = buf → viewAtom cur a = .ok v

/-- The atom is a value of this text in the frame. -/
def Raw (buf : List Byte) (a : Atom) : View → Prop
  | .int i => Atom.type a = Atom.tINT ∧ ∃ w, atomData buf a = .ok w ∧ IntLit w i
  | .float w => Atom.type a = Atom.tFLOAT ∧ atomData buf a = .ok w ∧ FloatLit w
  | .uuid u => a = u ∧ Atom.type a = Atom.tUUID
  | .text t => Atom.cp a = 0 ∧ ∃ s xs, StrText s xs ∧ t = (asRead xs).flatMap utf8append ∧
      StrAtom buf a s xs.length

/-- The atom is not a character of a spread, and the reader sees the value. -/
def Shows (buf : List Byte) (a : Atom) (v : View) : Prop :=
  (Atom.type a = Atom.tSTRING → Atom.cp a = 0) ∧ Sees buf a v ∧ Raw buf a v

theorem wordVal_lt (o : List Byte) (ho : ∀ c ∈ o, isB64 c = true) (hol : o.length ≤ 10) :
    wordVal o < 2 ^ 60 := by
  unfold wordVal
  have h := b64nat_lt o ho
  have e : 64 ^ o.length * 64 ^ (10 - o.length) = 2 ^ 60 := by
    rw [← Nat.pow_add, show o.length + (10 - o.length) = 10 by omega]
  rw [← e]
  exact Nat.mul_lt_mul_of_pos_right h (Nat.pow_pos (by decide))

theorem type_denote {vr ver : Nat} {v o : List Byte} (hv : ver < 4) (hol : o.length ≤ 10)
    (ho : ∀ c ∈ o, isB64 c = true) : Atom.type (denote vr v ver o) = Atom.tUUID := by
  have h := wordVal_lt o ho hol
  unfold Atom.type denote Atom.tUUID
  simp only [BitVec.toNat_ofNat]
  omega

theorem type_uuidLit {t : List Byte} {u : Uuid} (h : UuidLit t u) : Atom.type u = Atom.tUUID := by
  obtain ⟨vr, v, ver, o, ⟨⟨q, tail, rfl, hq, htail⟩, hv⟩, hvl, hol, rfl⟩ := h
  cases htail with
  | none => exact type_denote (by decide) hol (by simp)
  | some s o hs ho => exact type_denote (UuidParser.ABC_sep s hs).2 hol ho.2

theorem shows_uuid {buf : List Byte} {u : Uuid} (h : Atom.type u = Atom.tUUID) :
    Shows buf u (.uuid u) := by
  refine ⟨fun e => absurd (h.symm.trans e) (by decide), ?_, rfl, h⟩
  intro cur hc
  unfold viewAtom
  rw [if_neg (by rw [h]; decide), if_neg (by rw [h]; decide), if_neg (by rw [h]; decide)]

/-- A range atom over a text of the frame. -/
theorem range_atom {buf w rest : List Byte} {b p ty : Nat} (hn : buf.length < 2 ^ 30)
    (hb : buf.drop b = w ++ rest) (hp : p = b + w.length) (hne : w ≠ []) (ht : ty < 4) :
    Atom.type (Atom.ofRange ty b p) = ty ∧ Atom.rBegin (Atom.ofRange ty b p) = b ∧
      Atom.rEnd (Atom.ofRange ty b p) = p ∧ b ≤ p ∧ p ≤ buf.length ∧ slice buf b p = w := by
  have hl : p ≤ buf.length := by
    have h1 := congrArg List.length hb
    simp only [List.length_drop, List.length_append] at h1
    have : 0 < w.length := List.length_pos_iff.2 hne
    omega
  have h1 : b < 2 ^ 30 := by omega
  have h2 : p < 2 ^ 30 := by omega
  exact ⟨Atom.type_ofRange ty b p ht h1 h2, Atom.rBegin_ofRange ty b p ht h1 h2,
    Atom.rEnd_ofRange ty b p ht h1 h2, by omega, hl, slice_here hb hp⟩

theorem shows_int {buf w rest : List Byte} {b p : Nat} {v : Int} (hn : buf.length < 2 ^ 30)
    (hb : buf.drop b = w ++ rest) (hp : p = b + w.length) (hl : IntLit w v)
    (ha : intAccepted w = true) : Shows buf (Atom.ofRange Atom.tINT b p) (.int v) := by
  have h := hl.1
  have hne : w ≠ [] := by intro e; subst e; cases h; contradiction
  obtain ⟨h1, h2, h3, h4, h5, h6⟩ := range_atom (ty := Atom.tINT) hn hb hp hne (by decide)
  have hd : atomData buf (Atom.ofRange Atom.tINT b p) = .ok w := by
    rw [Cursor.atomData_ok (by omega) (by omega), h2, h3, h6]
  refine ⟨fun e => absurd (h1.symm.trans e) (by decide), ?_, h1, w, hd, hl⟩
  intro cur hc
  unfold viewAtom
  rw [if_pos h1, hc]
  rw [hd]
  simp only [Out.bind, (Props.C16_exact w v h ha).1, Out.ofOption]

theorem shows_float {buf w rest : List Byte} {b p : Nat} (hn : buf.length < 2 ^ 30)
    (hb : buf.drop b = w ++ rest) (hp : p = b + w.length) (hne : w ≠ []) (hf : FloatLit w) :
    Shows buf (Atom.ofRange Atom.tFLOAT b p) (.float w) := by
  have hl := hf.2
  obtain ⟨h1, h2, h3, h4, h5, h6⟩ := range_atom (ty := Atom.tFLOAT) hn hb hp hne (by decide)
  have hd : atomData buf (Atom.ofRange Atom.tFLOAT b p) = .ok w := by
    rw [Cursor.atomData_ok (by omega) (by omega), h2, h3, h6]
  refine ⟨fun e => absurd (h1.symm.trans e) (by decide), ?_, h1, hd, hf⟩
  intro cur hc
  unfold viewAtom
  rw [if_neg (by rw [h1]; decide), if_pos h1, hc]
  unfold Cursor.floatText
  rw [hd]
  simp only [Out.bind]
  rw [if_pos (by omega)]

/-! ### digits -/

def isDigitB (c : Byte) : Bool := Nat.ble 48 c.toNat && Nat.ble c.toNat 57

theorem isDigitB_iff (c : Byte) : isDigitB c = true ↔ IsDigit c := by
  unfold isDigitB IsDigit; simp

/-- All bytes of a kind make this step. -/
def stepsAll (P : Byte → Bool) (s : Nat) (as : List Act) (t : Nat) : Bool :=
  allBytes fun c => !P c || decide (stepIn TextTable.rows s c = some (as, t))

theorem of_stepsAll {P : Byte → Bool} {s t : Nat} {as : List Act} (h : stepsAll P s as t = true)
    {c : Byte} (hc : P c = true) : stepIn TextTable.rows s c = some (as, t) := by
  have := of_allBytes h c
  simpa [hc] using this

/-- Digits, at least one. -/
theorem go_digs {buf : List Byte} {s t : Nat} (h1 : stepsAll isDigitB s [] t = true)
    (h2 : stepsAll isDigitB t [] t = true) : ∀ (d rest : List Byte) (r : Regs), Digits d →
    buf.drop r.p = d ++ rest → Goes buf s r d t { r with p := r.p + d.length } := by
  have loop : ∀ (d rest : List Byte) (r : Regs), (∀ c ∈ d, IsDigit c) →
      buf.drop r.p = d ++ rest → Goes buf t r d t { r with p := r.p + d.length } := by
    intro d
    induction d with
    | nil => intro rest r _ _; exact Goes.refl _ _ _
    | cons c d ih =>
      intro rest r hd hb
      have g := go_silent (rest := d ++ rest) hb
        (of_stepsAll h2 ((isDigitB_iff c).2 (hd c (by simp))))
      have g2 := ih rest _ (fun x hx => hd x (by simp [hx])) (g.drop (by simpa using hb))
      have := g.trans g2
      simp only [List.singleton_append] at this
      rw [show r.p + (c :: d).length = r.p + 1 + d.length by simp; omega]
      exact this
  intro d rest r hd hb
  cases d with
  | nil => exact absurd rfl hd.1
  | cons c d =>
    have g := go_silent (rest := d ++ rest) hb
      (of_stepsAll h1 ((isDigitB_iff c).2 (hd.2 c (by simp))))
    have g2 := loop d rest _ (fun x hx => hd.2 x (by simp [hx])) (g.drop (by simpa using hb))
    have := g.trans g2
    simp only [List.singleton_append] at this
    rw [show r.p + (c :: d).length = r.p + 1 + d.length by simp; omega]
    exact this

/-- The states before a bare atom. -/
def bareStates : List Nat := [4, 63, 74]
/-- The states before a quoted atom, a span, or a terminator. -/
def restStates : List Nat := [3, 4, 63, 74]

def isSignB (c : Byte) : Bool := Nat.beq c.toNat 43 || Nat.beq c.toNat 45

/-- Unsigned digits in the place of a bare atom. -/
theorem go_bare_digits {buf : List Byte} {s : Nat} (hs : s ∈ bareStates) {d rest : List Byte}
    {r : Regs} (hd : Digits d) (hb : buf.drop r.p = d ++ rest) : ∃ t r', (t = 40 ∨ t = 45) ∧
    Goes buf s r d t r' ∧ Keep r r' ∧ r'.intb = r.p ∧ r'.floatb = r.p ∧ r'.wordb = r.p := by
  have tb : bareStates.all (fun s => stepsAll isDigitB s
      [begin_int, begin_float, begin_uuid, begin_value] 40) = true := by decide +kernel
  cases d with
  | nil => exact absurd rfl hd.1
  | cons c d =>
    have hst := of_stepsAll ((List.all_eq_true.1 tb) s hs) ((isDigitB_iff c).2 (hd.2 c (by simp)))
    have g := go_step (rest := d ++ rest) (r := r) hb hst rfl
    cases hdd : d with
    | nil => exact ⟨40, _, .inl rfl, g, ⟨rfl, rfl, rfl⟩, rfl, rfl, rfl⟩
    | cons x xs =>
      rw [← hdd]
      have g2 := go_digs (s := 40) (t := 45) (by decide +kernel) (by decide +kernel) d rest _
        ⟨by simp [hdd], fun x hx => hd.2 x (by simp [hx])⟩ (g.drop (by simpa using hb))
      exact ⟨45, _, .inr rfl, g.trans g2, ⟨rfl, rfl, rfl⟩, rfl, rfl, rfl⟩

/-- An atom is read and pushed; its value can be read if the frame is short enough for its range. -/
def Pushes (buf : List Byte) (s : Nat) (r : Regs) (a : List Byte) (v : View) : Prop :=
  ∃ r' x, Goes buf s r a 3 r' ∧ r'.op = r.op ++ [x] ∧ r'.span = r.span ∧ r'.term = r.term ∧
    (buf.length < 2 ^ 30 → Shows buf x v)

theorem Pushes.prepend {buf : List Byte} {s t : Nat} {r r1 : Regs} {w a : List Byte} {v : View}
    (g : Goes buf s r w t r1) (k : Keep r r1) (h : Pushes buf t r1 a v) :
    Pushes buf s r (w ++ a) v := by
  obtain ⟨r', x, g2, h1, h2, h3, h4⟩ := h
  exact ⟨r', x, g.trans g2, by rw [h1, k.op], by rw [h2, k.span], by rw [h3, k.term], h4⟩

theorem IntFits.accepted {t : List Byte} {v : Int} (h : IntLit t v) : intAccepted t = true := by
  obtain ⟨ht, hf⟩ := h
  cases ht with
  | plain _ hn hd =>
    rw [intAccepted_unsigned t hn hd]
    cases t with
    | nil => exact absurd rfl hn
    | cons c s =>
      have hc := hd c (by simp)
      unfold IsDigit at hc
      unfold IntFits at hf
      simp only at hf
      rw [if_neg (by omega)] at hf
      exact hf
  | plus c s hc hn hd =>
    rw [intAccepted_signed c s (by simp [isSign, hc]) hd]
    unfold IntFits at hf
    simp only at hf
    rw [if_pos (by omega)] at hf
    exact hf
  | minus c s hc hn hd =>
    rw [intAccepted_signed c s (by simp [isSign, hc]) hd]
    unfold IntFits at hf
    simp only at hf
    rw [if_pos (by omega)] at hf
    exact hf

theorem IntText.parts {t : List Byte} {v : Int} (h : IntText t v) :
    Digits t ∨ ∃ c d, t = c :: d ∧ isSignB c = true ∧ Digits d := by
  cases h with
  | plain _ hn hd => exact .inl ⟨hn, hd⟩
  | plus c s hc hn hd => exact .inr ⟨c, s, rfl, by simp [isSignB, hc], hn, hd⟩
  | minus c s hc hn hd => exact .inr ⟨c, s, rfl, by simp [isSignB, hc], hn, hd⟩

theorem end_int_acts {buf : List Byte} {r : Regs} {L : List Act} {w : List Byte} (c : Byte)
    (hL : L = [end_int] ∨ (L = [end_int, end_value, end_uuid, end_bare_uuid] ∧ r.wordb ≤ r.p))
    (hs : slice buf r.intb r.p = w) (hle : r.intb ≤ r.p) (ha : intAccepted w = true) :
    ∃ r1, acts buf c r L = .cont r1 ∧ r1.op = r.op ++ [Atom.ofRange Atom.tINT r.intb r.p] ∧
      r1.span = r.span ∧ r1.term = r.term := by
  have h1 : act buf c r end_int = .cont
      { r with op := r.op ++ [Atom.ofRange Atom.tINT r.intb r.p], uuidSet := false } := by
    simp only [act]
    rw [if_neg (by omega), hs, ha]
    simp
  rcases hL with rfl | ⟨rfl, hw⟩
  · simp only [acts, h1]
    exact ⟨_, rfl, rfl, rfl, rfl⟩
  · simp only [acts, h1]
    simp only [act]
    rw [if_neg (by omega)]
    exact ⟨_, rfl, rfl, rfl, rfl⟩

/-- The end of an integer. -/
theorem push_int {buf : List Byte} {s t : Nat} {r r1 : Regs}
    {L : List Act} {w : List Byte} {v : Int} {c : Byte} {rest : List Byte} (h : IntLit w v)
    (g : Goes buf s r w t r1) (k : Keep r r1) (hi : r1.intb = r.p)
    (hl : leaves isFollow t L 3 = true)
    (hL : L = [end_int] ∨ (L = [end_int, end_value, end_uuid, end_bare_uuid] ∧ r1.wordb ≤ r1.p))
    (hb : buf.drop r.p = w ++ c :: rest) (hc : isFollow c = true) :
    Pushes buf s r w (.int v) := by
  have hp := g.p
  have hacc := IntFits.accepted h
  obtain ⟨r2, a1, a2, a3, a4⟩ := end_int_acts (buf := buf) (w := w) c hL
    (by rw [hi]; exact slice_here hb hp) (by omega) hacc
  have g2 := go_leave hl (g.drop hb) hc a1
  refine ⟨r2, _, by simpa using g.trans g2, by rw [a2, k.op], by rw [a3, k.span], by rw [a4, k.term],
    fun hn => shows_int hn (by rw [hi]; exact hb) (by rw [hi]; exact hp) h hacc⟩

theorem bare_int {buf : List Byte} {s : Nat} (hs : s ∈ bareStates)
    {r : Regs} {w : List Byte} {v : Int} {c : Byte} {rest : List Byte} (h : IntLit w v)
    (hb : buf.drop r.p = w ++ c :: rest) (hc : isFollow c = true) : Pushes buf s r w (.int v) := by
  rcases IntText.parts h.1 with hd | ⟨x, d, rfl, hx, hd⟩
  · obtain ⟨t, r1, ht, g, k, e1, e2, e3⟩ := go_bare_digits hs hd hb
    have hp := g.p
    refine push_int h g k e1 (L := [end_int, end_value, end_uuid, end_bare_uuid]) ?_
      (.inr ⟨rfl, by omega⟩) hb hc
    rcases ht with rfl | rfl <;> decide +kernel
  · have tb : bareStates.all (fun s => stepsAll isSignB s [begin_int, begin_float] 21) = true := by
      decide +kernel
    have g := go_step (rest := d ++ c :: rest) (r := r) hb
      (of_stepsAll ((List.all_eq_true.1 tb) s hs) hx) rfl
    have g2 := go_digs (s := 21) (t := 22) (by decide +kernel) (by decide +kernel) d _ _ hd
      (g.drop (by simpa using hb))
    exact push_int h (g.trans g2) ⟨rfl, rfl, rfl⟩ rfl (L := [end_int]) (by decide +kernel)
      (.inl rfl) hb hc

/-- Whatever the state, a quoted atom starts in the same way. -/
theorem open_quote {buf : List Byte} {s : Nat} (hs : s ∈ restStates) {q : Byte} {t : Nat}
    (hq : (q, t) ∈ [((61 : Byte), 25), (94, 32), (62, 28), (39, 1), (40, 5)]) {r : Regs}
    {rest : List Byte} (hb : buf.drop r.p = q :: rest) :
    Goes buf s r [q] t { r with p := r.p + 1 } := by
  have tb : (restStates.all fun s => [((61 : Byte), 25), (94, 32), (62, 28), (39, 1), (40, 5)].all
      fun x => decide (stepIn TextTable.rows s x.1 = some ([], x.2))) = true := by decide +kernel
  have := (List.all_eq_true.1 ((List.all_eq_true.1 tb) s hs)) _ hq
  exact go_silent hb (of_decide_eq_true this)

/-- A quote sign and white space. -/
theorem open_blank {buf : List Byte} {s : Nat} (hs : s ∈ restStates) {q : Byte} {t : Nat}
    (hq : (q, t) ∈ [((61 : Byte), 25), (94, 32), (62, 28), (39, 1), (40, 5)]) (ht : t ∈ wsStates)
    {r : Regs} {w rest : List Byte} (hw : Blank w) (hb : buf.drop r.p = q :: (w ++ rest)) :
    ∃ r1, Goes buf s r (q :: w) t r1 ∧ Keep r r1 := by
  have g := open_quote hs hq hb
  obtain ⟨r1, g1, k1⟩ := go_blank ht w rest _ hw (g.drop (by simpa using hb))
  exact ⟨r1, g.trans g1, ⟨k1.op, k1.span, k1.term⟩⟩

theorem quoted_int {buf : List Byte} {s : Nat} (hs : s ∈ restStates)
    {r : Regs} {u w : List Byte} {v : Int} {c : Byte} {rest : List Byte} (hu : Blank u)
    (h : IntLit w v) (hb : buf.drop r.p = 61 :: (u ++ w) ++ c :: rest) (hc : isFollow c = true) :
    Pushes buf s r (61 :: (u ++ w)) (.int v) := by
  obtain ⟨r1, g1, k1⟩ := open_blank (q := 61) (t := 25) hs (by decide) (by decide) hu
    (rest := w ++ c :: rest) (by simpa using hb)
  have hb1 := g1.drop (rest := w ++ c :: rest) (by simpa using hb)
  refine Pushes.prepend (w := 61 :: u) g1 k1 ?_
  rcases IntText.parts h.1 with hd | ⟨x, d, rfl, hx, hd⟩
  · cases w with
    | nil => exact absurd rfl hd.1
    | cons y d =>
      have hst : stepIn TextTable.rows 25 y = some ([begin_int], 27) :=
        of_stepsAll (by decide +kernel) ((isDigitB_iff y).2 (hd.2 y (by simp)))
      have g := go_step (rest := d ++ c :: rest) (r := r1) hb1 hst rfl
      cases hdd : d with
      | nil =>
        rw [hdd] at h hb1
        exact push_int h g ⟨rfl, rfl, rfl⟩ rfl (L := [end_int]) (by decide +kernel) (.inl rfl)
          hb1 hc
      | cons z zs =>
        rw [← hdd]
        have g2 := go_digs (s := 27) (t := 27) (by decide +kernel) (by decide +kernel) d _ _
          ⟨by simp [hdd], fun x hx => hd.2 x (by simp [hx])⟩ (g.drop (by simpa using hb1))
        exact push_int h (g.trans g2) ⟨rfl, rfl, rfl⟩ rfl (L := [end_int]) (by decide +kernel)
          (.inl rfl) hb1 hc
  · have hst : stepIn TextTable.rows 25 x = some ([begin_int], 26) :=
      of_stepsAll (by decide +kernel) hx
    have g := go_step (rest := d ++ c :: rest) (r := r1) hb1 hst rfl
    have g2 := go_digs (s := 26) (t := 27) (by decide +kernel) (by decide +kernel) d _ _ hd
      (g.drop (by simpa using hb1))
    exact push_int h (g.trans g2) ⟨rfl, rfl, rfl⟩ rfl (L := [end_int]) (by decide +kernel)
      (.inl rfl) hb1 hc

end TextParser
end Ron
