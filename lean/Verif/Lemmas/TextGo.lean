import Verif.Lemmas.TextPath
import Verif.Lemmas.UuidParser
import Verif.Spec.TextGrammar
/-!
The frame automaton on texts that follow the grammar: white space, UUIDs, leaving a token.
-/
namespace Ron
open Spec Act

attribute [local irreducible] Atom.type Atom.rBegin Atom.rEnd Atom.cp Atom.cpSize Atom.setCp
  Atom.setCpSize Atom.consume Atom.ofRange Atom.rawValid Uuid.inc

namespace TextParser

/-- The run from a state at the place of the registers. -/
def go (buf : List Byte) (s : Nat) (r : Regs) : Out (Nat × Regs) := run buf (buf.drop r.p) s r

/-- The text `w` takes the automaton from one state to another. -/
structure Goes (buf : List Byte) (s : Nat) (r : Regs) (w : List Byte) (s' : Nat) (r' : Regs) :
    Prop where
  go : go buf s r = go buf s' r'
  p : r'.p = r.p + w.length

/-- What is kept between the tokens of an op. -/
structure Keep (r r' : Regs) : Prop where
  op : r'.op = r.op
  span : r'.span = r.span
  term : r'.term = r.term

theorem Keep.refl (r : Regs) : Keep r r := ⟨rfl, rfl, rfl⟩
theorem Keep.trans {a b c : Regs} (h : Keep a b) (k : Keep b c) : Keep a c :=
  ⟨k.op.trans h.op, k.span.trans h.span, k.term.trans h.term⟩

theorem Goes.refl (buf : List Byte) (s : Nat) (r : Regs) : Goes buf s r [] s r := ⟨rfl, rfl⟩

theorem Goes.trans {buf : List Byte} {s t u : Nat} {a b c : Regs} {v w : List Byte}
    (h : Goes buf s a v t b) (k : Goes buf t b w u c) : Goes buf s a (v ++ w) u c :=
  ⟨h.go.trans k.go, by rw [k.p, h.p, List.length_append, Nat.add_assoc]⟩

theorem Goes.drop {buf : List Byte} {s t : Nat} {a b : Regs} {w rest : List Byte}
    (h : Goes buf s a w t b) (hb : buf.drop a.p = w ++ rest) : buf.drop b.p = rest := by
  rw [h.p, ← List.drop_drop, hb, List.drop_left]

theorem go_step {buf : List Byte} {s t : Nat} {r r1 : Regs} {c : Byte} {rest : List Byte}
    {as : List Act} (hb : buf.drop r.p = c :: rest)
    (hs : stepIn TextTable.rows s c = some (as, t)) (ha : acts buf c r as = .cont r1) :
    Goes buf s r [c] t { r1 with p := r1.p + 1 } := by
  have hp := (acts_fields (.inl ha)).p
  refine ⟨?_, by simp [hp]⟩
  have hd : buf.drop (r.p + 1) = rest := drop_succ_of hb
  unfold go
  simp only [hp]
  rw [hb, hd, run, hs]
  simp only [ha, hp]

/-- A step without actions. -/
theorem go_silent {buf : List Byte} {s t : Nat} {r : Regs} {c : Byte} {rest : List Byte}
    (hb : buf.drop r.p = c :: rest) (hs : stepIn TextTable.rows s c = some ([], t)) :
    Goes buf s r [c] t { r with p := r.p + 1 } :=
  go_step hb hs rfl

/-- `true` for all bytes. -/
def allBytes (P : Byte → Bool) : Bool := (List.range 256).all fun n => P (UInt8.ofNat n)

theorem of_allBytes {P : Byte → Bool} (h : allBytes P = true) (c : Byte) : P c = true := by
  unfold allBytes at h
  have := (List.all_eq_true.1 h) c.toNat (List.mem_range.2 c.toNat_lt)
  simpa using this

/-! ### white space -/

/-- The states with a loop of white space. -/
def wsStates : List Nat := [4, 5, 9, 10, 25, 28, 32, 63, 74]

theorem ws_table : wsStates.all (fun s => allBytes fun c =>
    !isWs c || decide (stepIn TextTable.rows s c = some ([newline], s))) = true := by
  decide +kernel

theorem ws_step {s : Nat} {c : Byte} (hs : s ∈ wsStates) (hc : isWs c = true) :
    stepIn TextTable.rows s c = some ([newline], s) := by
  have := of_allBytes ((List.all_eq_true.1 ws_table) s hs) c
  simpa [hc] using this

theorem newline_act (buf : List Byte) (c : Byte) (r : Regs) :
    ∃ r1, acts buf c r [newline] = .cont r1 ∧ r1.p = r.p ∧ Keep r r1 := by
  simp only [acts, act]
  by_cases h : c.toNat = 10
  · simp only [h, if_true]; exact ⟨_, rfl, rfl, ⟨rfl, rfl, rfl⟩⟩
  · simp only [h, if_false]; exact ⟨_, rfl, rfl, Keep.refl r⟩

theorem go_blank {buf : List Byte} {s : Nat} (hs : s ∈ wsStates) : ∀ (w rest : List Byte) (r : Regs),
    Blank w → buf.drop r.p = w ++ rest → ∃ r', Goes buf s r w s r' ∧ Keep r r' := by
  intro w
  induction w with
  | nil => intro rest r _ _; exact ⟨r, Goes.refl _ _ _, Keep.refl r⟩
  | cons c w ih =>
    intro rest r hw hb
    obtain ⟨r1, h1, hp, k1⟩ := newline_act buf c r
    have g := go_step (rest := w ++ rest) hb (ws_step hs (hw c (by simp))) h1
    have hb' := g.drop (rest := w ++ rest) (by simpa using hb)
    obtain ⟨r2, g2, k2⟩ := ih rest _ (fun x hx => hw x (by simp [hx])) hb'
    exact ⟨r2, g.trans g2, k1.trans ⟨k2.op, k2.span, k2.term⟩⟩

/-! ### leaving a token -/

/-- The bytes that may follow an atom. -/
def isFollow (c : Byte) : Bool :=
  isWs c || Nat.beq c.toNat 33 || Nat.beq c.toNat 44 || Nat.beq c.toNat 59 || Nat.beq c.toNat 63 ||
    Nat.beq c.toNat 39 || Nat.beq c.toNat 40 || Nat.beq c.toNat 61 || Nat.beq c.toNat 62 ||
    Nat.beq c.toNat 94

/-- On the bytes of `F`, the state `s` does as `base` after the actions `L`. -/
def leaves (F : Byte → Bool) (s : Nat) (L : List Act) (base : Nat) : Bool :=
  allBytes fun c => !F c ||
    match stepIn TextTable.rows base c with
    | some (as, t) => decide (stepIn TextTable.rows s c = some (L ++ as, t))
    | none => false

theorem go_leave {F : Byte → Bool} {s base : Nat} {L : List Act} (hl : leaves F s L base = true)
    {buf : List Byte} {r r1 : Regs} {c : Byte} {rest : List Byte} (hb : buf.drop r.p = c :: rest)
    (hc : F c = true) (ha : acts buf c r L = .cont r1) : Goes buf s r [] base r1 := by
  have hp := (acts_fields (.inl ha)).p
  have h := of_allBytes hl c
  simp only [hc, Bool.not_true, Bool.false_or] at h
  refine ⟨?_, by simpa using hp⟩
  cases hst : stepIn TextTable.rows base c with
  | none => rw [hst] at h; cases h
  | some x =>
    obtain ⟨as, t⟩ := x
    rw [hst] at h
    simp only [decide_eq_true_eq] at h
    unfold go
    rw [hp, hb, run, run, h, hst]
    simp only [acts_append, ha]

/-! ### UUIDs -/

/-- The states of a UUID in some place of an op: `H` after a hex digit that may be a variety, `V` in
the value, `S` after the slash, `O` after the version, `R` in the origin. -/
structure Fam where
  s0 : Nat
  pre : Byte → List Act
  H : List Nat
  V : List Nat
  S : List Nat
  O : List Nat
  R : List Nat

/-- The step has these actions and leads to one of these states. -/
def stepTo (s : Nat) (c : Byte) (as : List Act) (ts : List Nat) : Bool :=
  match stepIn TextTable.rows s c with
  | some (as', t) => decide (as' = as) && ts.contains t
  | none => false

theorem of_stepTo {s : Nat} {c : Byte} {as : List Act} {ts : List Nat}
    (h : stepTo s c as ts = true) : ∃ t ∈ ts, stepIn TextTable.rows s c = some (as, t) := by
  unfold stepTo at h
  split at h
  · rename_i as' t hst
    simp only [Bool.and_eq_true, decide_eq_true_eq, List.contains_eq_mem] at h
    exact ⟨t, h.2, by rw [hst, h.1]⟩
  · cases h

/-- The table has these states. -/
def Fam.ok (f : Fam) : Bool :=
  allBytes fun c =>
    (!isB64 c || stepTo f.s0 c (f.pre c ++ [begin_uuid, begin_value]) f.V) &&
    (!isHex c || stepTo f.s0 c (f.pre c ++ [begin_uuid, begin_value]) f.H) &&
    (!isB64 c || f.V.all fun s => stepTo s c [] f.V) &&
    (!isSep c || f.V.all fun s => stepTo s c [end_value, version] f.O) &&
    (!isB64 c || f.S.all fun s => stepTo s c [begin_value] f.V) &&
    (!isB64 c || f.O.all fun s => stepTo s c [begin_origin] f.R) &&
    (!isB64 c || f.R.all fun s => stepTo s c [] f.R) &&
    (!Nat.beq c.toNat 47 || f.H.all fun s => stepTo s c [variety] f.S)

/-- Steps over Base64 digits within `V` or within `R`. -/
theorem go_digits {buf : List Byte} {X : List Nat}
    (hX : ∀ s ∈ X, ∀ c, isB64 c = true → ∃ t ∈ X, stepIn TextTable.rows s c = some ([], t)) :
    ∀ (w rest : List Byte) (s : Nat) (r : Regs), s ∈ X → (∀ c ∈ w, isB64 c = true) →
    buf.drop r.p = w ++ rest →
    ∃ t ∈ X, walk s w = some t ∧ Goes buf s r w t { r with p := r.p + w.length } := by
  intro w
  induction w with
  | nil => intro rest s r hs _ _; exact ⟨s, hs, rfl, Goes.refl _ _ _⟩
  | cons c w ih =>
    intro rest s r hs hw hb
    obtain ⟨t, ht, hst⟩ := hX s hs c (hw c (by simp))
    have g := go_silent (rest := w ++ rest) hb hst
    have hb' := g.drop (rest := w ++ rest) (by simpa using hb)
    obtain ⟨u, hu, hwk, g2⟩ := ih rest t _ ht (fun x hx => hw x (by simp [hx])) hb'
    refine ⟨u, hu, by simp [walk, hst, hwk], ?_⟩
    have := g.trans g2
    simp only [List.singleton_append] at this
    rw [show r.p + (c :: w).length = r.p + 1 + w.length by simp; omega]
    exact this

structure Fam.Ok (f : Fam) : Prop where
  start : ∀ c, isB64 c = true → ∃ t ∈ f.V,
    stepIn TextTable.rows f.s0 c = some (f.pre c ++ [begin_uuid, begin_value], t)
  hex : ∀ c, isHex c = true → ∃ t ∈ f.H,
    stepIn TextTable.rows f.s0 c = some (f.pre c ++ [begin_uuid, begin_value], t)
  value : ∀ s ∈ f.V, ∀ c, isB64 c = true → ∃ t ∈ f.V, stepIn TextTable.rows s c = some ([], t)
  sep : ∀ s ∈ f.V, ∀ c, isSep c = true → ∃ t ∈ f.O,
    stepIn TextTable.rows s c = some ([end_value, version], t)
  slashed : ∀ s ∈ f.S, ∀ c, isB64 c = true → ∃ t ∈ f.V,
    stepIn TextTable.rows s c = some ([begin_value], t)
  version : ∀ s ∈ f.O, ∀ c, isB64 c = true → ∃ t ∈ f.R,
    stepIn TextTable.rows s c = some ([begin_origin], t)
  origin : ∀ s ∈ f.R, ∀ c, isB64 c = true → ∃ t ∈ f.R, stepIn TextTable.rows s c = some ([], t)
  slash : ∀ s ∈ f.H, ∃ t ∈ f.S, stepIn TextTable.rows s (ch '/') = some ([variety], t)

theorem Fam.of_ok {f : Fam} (h : f.ok = true) : f.Ok := by
  have key := fun c => of_allBytes h c
  simp only [Bool.and_eq_true, Bool.or_eq_true, Bool.not_eq_true', List.all_eq_true] at key
  refine ⟨?_, ?_, ?_, ?_, ?_, ?_, ?_, ?_⟩
  · intro c hc
    obtain ⟨⟨⟨⟨⟨⟨⟨h1, h2⟩, h3⟩, h4⟩, h5⟩, h6⟩, h7⟩, h8⟩ := key c
    exact of_stepTo (h1.resolve_left (by simp [hc]))
  · intro c hc
    obtain ⟨⟨⟨⟨⟨⟨⟨h1, h2⟩, h3⟩, h4⟩, h5⟩, h6⟩, h7⟩, h8⟩ := key c
    exact of_stepTo (h2.resolve_left (by simp [hc]))
  · intro s hs c hc
    obtain ⟨⟨⟨⟨⟨⟨⟨h1, h2⟩, h3⟩, h4⟩, h5⟩, h6⟩, h7⟩, h8⟩ := key c
    exact of_stepTo (h3.resolve_left (by simp [hc]) s hs)
  · intro s hs c hc
    obtain ⟨⟨⟨⟨⟨⟨⟨h1, h2⟩, h3⟩, h4⟩, h5⟩, h6⟩, h7⟩, h8⟩ := key c
    exact of_stepTo (h4.resolve_left (by simp [hc]) s hs)
  · intro s hs c hc
    obtain ⟨⟨⟨⟨⟨⟨⟨h1, h2⟩, h3⟩, h4⟩, h5⟩, h6⟩, h7⟩, h8⟩ := key c
    exact of_stepTo (h5.resolve_left (by simp [hc]) s hs)
  · intro s hs c hc
    obtain ⟨⟨⟨⟨⟨⟨⟨h1, h2⟩, h3⟩, h4⟩, h5⟩, h6⟩, h7⟩, h8⟩ := key c
    exact of_stepTo (h6.resolve_left (by simp [hc]) s hs)
  · intro s hs c hc
    obtain ⟨⟨⟨⟨⟨⟨⟨h1, h2⟩, h3⟩, h4⟩, h5⟩, h6⟩, h7⟩, h8⟩ := key c
    exact of_stepTo (h7.resolve_left (by simp [hc]) s hs)
  · intro s hs
    obtain ⟨_, h8⟩ := key (ch '/')
    exact of_stepTo (h8.resolve_left (by decide) s hs)

theorem slice_here {buf w rest : List Byte} {b p : Nat} (hb : buf.drop b = w ++ rest)
    (hp : p = b + w.length) : slice buf b p = w := by
  unfold slice
  rw [hb, hp, Nat.add_sub_cancel_left, List.take_left]

theorem pre_acts (buf : List Byte) (c : Byte) (r : Regs) (l : List Act)
    (hl : l = [] ∨ l = [begin_int, begin_float]) : ∃ r1,
    acts buf c r (l ++ [begin_uuid, begin_value]) = .cont r1 ∧ r1.p = r.p ∧ Keep r r1 ∧
      r1.wordb = r.p ∧ r1.origin = [] ∧ r1.version = ch '$' ∧ r1.variety = ch '0' ∧
      r1.uuidSet = true := by
  rcases hl with rfl | rfl
  · exact ⟨_, rfl, rfl, ⟨rfl, rfl, rfl⟩, rfl, rfl, rfl, rfl, rfl⟩
  · exact ⟨_, rfl, rfl, ⟨rfl, rfl, rfl⟩, rfl, rfl, rfl, rfl, rfl⟩

/-- The automaton over a variety and a value. -/
theorem go_value {f : Fam} (hf : f.Ok)
    (hpre : ∀ c, f.pre c = [] ∨ f.pre c = [begin_int, begin_float]) {buf : List Byte} {r : Regs}
    {q v rest : List Byte} {vr : Nat} (hq : IsVariety q vr) (hv : IsWord v)
    (hb : buf.drop r.p = q ++ v ++ rest) :
    ∃ s' r' vch, Goes buf f.s0 r (q ++ v) s' r' ∧ walk f.s0 (q ++ v) = some s' ∧ Keep r r' ∧
      s' ∈ f.V ∧ slice buf r'.wordb r'.p = v ∧ r'.wordb ≤ r'.p ∧ r'.origin = [] ∧
      r'.version = ch '$' ∧ r'.variety = vch ∧ r'.uuidSet = true ∧ ABC vch = some vr ∧ vr < 16 := by
  obtain ⟨hne, hvb⟩ := hv
  cases v with
  | nil => exact absurd rfl hne
  | cons c v =>
    have hc := hvb c (by simp)
    have hvb' : ∀ x ∈ v, isB64 x = true := fun x hx => hvb x (by simp [hx])
    cases hq with
    | none =>
      simp only [List.nil_append, List.cons_append] at hb ⊢
      obtain ⟨t, ht, hst⟩ := hf.start c hc
      obtain ⟨r1, ha, hp, k, e1, e2, e3, e4, e5⟩ := pre_acts buf c r (f.pre c) (hpre c)
      have g := go_step hb hst ha
      have hb' := g.drop (rest := v ++ rest) (by simpa using hb)
      obtain ⟨u, hu, hwk, g2⟩ := go_digits hf.value v rest t _ ht hvb' hb'
      refine ⟨u, _, ch '0', g.trans g2, by simp [walk, hst, hwk], ⟨k.op, k.span, k.term⟩, hu, ?_, ?_,
        e2, e3, e4, e5, by decide, by decide⟩
      · simp only [e1]
        exact slice_here (rest := rest) (by simpa using hb) (by simp [hp]; omega)
      · simp only [e1, hp]; omega
    | some h hh =>
      simp only [List.nil_append, List.cons_append] at hb ⊢
      obtain ⟨t, ht, hst⟩ := hf.hex h hh
      obtain ⟨r1, ha, hp, k, e1, e2, e3, e4, e5⟩ := pre_acts buf h r (f.pre h) (hpre h)
      have g := go_step hb hst ha
      have hb1 := g.drop (rest := ch '/' :: c :: (v ++ rest)) (by simpa using hb)
      obtain ⟨t2, ht2, hst2⟩ := hf.slash t ht
      have hget : buf[r1.p]? = some h := by
        rw [hp]; exact getElem?_of_drop hb
      have ha2 : acts buf (ch '/') { r1 with p := r1.p + 1 } [variety] =
          .cont { r1 with p := r1.p + 1, variety := h } := by
        simp [acts, act, hget]
      have g2 := go_step hb1 hst2 ha2
      have hb2 := g2.drop (rest := c :: (v ++ rest)) (by simpa using hb1)
      obtain ⟨t3, ht3, hst3⟩ := hf.slashed t2 ht2 c hc
      have g3 := go_step hb2 hst3 rfl
      have hb3 := g3.drop (rest := v ++ rest) (by simpa using hb2)
      obtain ⟨u, hu, hwk, g4⟩ := go_digits hf.value v rest t3 _ ht3 hvb' hb3
      refine ⟨u, _, h, ((g.trans g2).trans g3).trans g4, by simp [walk, hst, hst2, hst3, hwk],
        ⟨k.op, k.span, k.term⟩, hu, ?_, ?_, e2, e3, rfl, e5, ABC_b64 h (UuidParser.hex_b64 h hh),
        UuidParser.hex_lt h hh⟩
      · exact slice_here (rest := rest) (by simpa using hb2) (by simp; omega)
      · simp only; omega

/-- The automaton over a UUID: what is left to do when the token ends. -/
theorem go_uuid {f : Fam} (hf : f.Ok)
    (hpre : ∀ c, f.pre c = [] ∨ f.pre c = [begin_int, begin_float]) {buf : List Byte} {r : Regs}
    {t rest : List Byte} {u : Uuid} (h : UuidLit t u) (hb : buf.drop r.p = t ++ rest) :
    ∃ s' r' L, Goes buf f.s0 r t s' r' ∧ walk f.s0 t = some s' ∧ Keep r r' ∧
      (s' ∈ f.V ∧ L = [end_value, end_uuid] ∨ s' ∈ f.R ∧ L = [end_origin, end_uuid]) ∧
      ∀ c, ∃ r1, acts buf c r' L = .cont r1 ∧ r1.p = r'.p ∧ Keep r' r1 ∧ r1.uuidSet = true ∧
        tooBig r1 = false ∧ mkUuid r1 = .ok u := by
  obtain ⟨vr, v, ver, o, ⟨⟨q, tail, rfl, hq, htail⟩, hv⟩, hvl, hol, rfl⟩ := h
  obtain ⟨s1, r1, vch, g, hwk, k, hs1, hsl, hle, e1, e2, e3, e4, hA, hvr⟩ :=
    go_value (rest := tail ++ rest) hf hpre hq hv (by simpa using hb)
  have hb1 := g.drop (rest := tail ++ rest) (by simpa using hb)
  cases htail with
  | none =>
    refine ⟨s1, r1, [end_value, end_uuid], by simpa using g, by simpa using hwk, k,
      .inl ⟨hs1, rfl⟩, fun c => ⟨{ r1 with value := v }, ?_, rfl, ⟨rfl, rfl, rfl⟩, e4, ?_, ?_⟩⟩
    · simp only [acts, act]
      rw [if_neg (by omega), hsl]
    · simp [tooBig, e1]; omega
    · unfold mkUuid
      rw [if_neg (by simp [e1]; omega)]
      simp only [e1, e2, e3]
      rw [UuidParser.parts_denote vch (ch '$') vr 0 v [] hA (by decide) hvr (by decide) hv.2 (by simp) hvl
        (by simp)]
      rfl
  | some sp o hsp ho =>
    obtain ⟨hne, hob⟩ := ho
    cases o with
    | nil => exact absurd rfl hne
    | cons c o =>
      obtain ⟨t2, ht2, hst2⟩ := hf.sep s1 hs1 sp hsp
      have ha2 : acts buf sp r1 [end_value, version] =
          .cont { r1 with value := v, version := sp } := by
        simp only [acts, act]
        rw [if_neg (by omega), hsl]
      have g2 := go_step hb1 hst2 ha2
      have hb2 := g2.drop (rest := c :: (o ++ rest)) (by simpa using hb1)
      obtain ⟨t3, ht3, hst3⟩ := hf.version t2 ht2 c (hob c (by simp))
      have g3 := go_step hb2 hst3 rfl
      have hb3 := g3.drop (rest := o ++ rest) (by simpa using hb2)
      obtain ⟨t4, ht4, hwk4, g4⟩ := go_digits hf.origin o rest t3 _ ht3
        (fun x hx => hob x (by simp [hx])) hb3
      obtain ⟨hsc, hsc4⟩ := UuidParser.ABC_sep sp hsp
      have gg := ((g.trans g2).trans g3).trans g4
      rw [show q ++ v ++ [sp] ++ [c] ++ o = q ++ v ++ sp :: c :: o by simp] at gg
      refine ⟨t4, _, [end_origin, end_uuid], gg, ?_,
        ⟨k.op, k.span, k.term⟩, .inr ⟨ht4, rfl⟩, fun d => ?_⟩
      · rw [walk_append, hwk]
        simp [walk, hst2, hst3, hwk4]
      · have hso : slice buf (r1.p + 1) (r1.p + 1 + 1 + o.length) = c :: o :=
          slice_here (rest := rest) (by simpa using hb2) (by simp; omega)
        refine ⟨{ r1 with
            p := r1.p + 1 + 1 + o.length, wordb := r1.p + 1, value := v, version := sp,
            origin := c :: o }, ?_, rfl, ⟨rfl, rfl, rfl⟩, e4, ?_, ?_⟩
        · simp only [acts, act]
          rw [if_neg (by omega), hso]
        · simp [tooBig]; simp at hol; omega
        · unfold mkUuid
          rw [if_neg (by simp; simp at hol; omega)]
          simp only [e3]
          rw [UuidParser.parts_denote vch sp vr (sepCode sp) v (c :: o) hA hsc hvr (by omega) hv.2 hob hvl hol]
          rfl

end TextParser
end Ron
