import Verif.Lemmas.TextFloatGo
/-!
The frame automaton over UUIDs: identifiers, references and values.
-/
namespace Ron
open Spec Act

attribute [local irreducible] Atom.type Atom.rBegin Atom.rEnd Atom.cp Atom.cpSize Atom.setCp
  Atom.setCpSize Atom.consume Atom.ofRange Atom.rawValid Uuid.inc

namespace TextParser

/-- The UUID after `@`. -/
def famId : Fam := ⟨61, fun _ => [], [62], [62, 73], [72], [70], [71]⟩
/-- The UUID after `:`. -/
def famRef : Fam := ⟨64, fun _ => [], [65], [65, 69], [68], [66], [67]⟩
/-- The UUID after `>`. -/
def famQuo : Fam := ⟨28, fun _ => [], [29], [29, 39], [38], [30], [31]⟩
/-- A bare UUID. -/
def famBare (s : Nat) : Fam :=
  ⟨s, fun c => if isDigitB c then [begin_int, begin_float] else [], [40, 50],
    [40, 44, 45, 46, 49, 50], [43], [41, 47], [42, 48]⟩

theorem famId_ok : famId.Ok := Fam.of_ok (by decide +kernel)
theorem famRef_ok : famRef.Ok := Fam.of_ok (by decide +kernel)
theorem famQuo_ok : famQuo.Ok := Fam.of_ok (by decide +kernel)

theorem famBare_ok {s : Nat} (hs : s ∈ bareStates) : (famBare s).Ok := by
  have tb : bareStates.all (fun s => (famBare s).ok) = true := by decide +kernel
  exact Fam.of_ok ((List.all_eq_true.1 tb) s hs)

/-- The bytes that may follow an identifier. -/
def isFollowId (c : Byte) : Bool := isFollow c || Nat.beq c.toNat 58

/-- `{ op_[0] = … }` or `{ op_[1] = … }`. -/
theorem setSpec_ok {r : Regs} {i : Nat} {u : Uuid} (h : mkUuid r = .ok u) :
    setSpec r i = .cont { r with op := r.op.set i u } := by
  unfold setSpec; rw [h]

theorem pushUuid_ok {r : Regs} {u : Uuid} (h : mkUuid r = .ok u) (hb : tooBig r = false) :
    pushUuid r = .cont { r with op := r.op ++ [u] } := by
  unfold pushUuid; simp only [hb, h, Bool.false_eq_true, if_false]

/-- An identifier. -/
theorem go_id {buf : List Byte} {r : Regs} {t : List Byte} {u : Uuid} {c : Byte} {rest : List Byte}
    (h : UuidLit t u) (hb : buf.drop r.p = t ++ c :: rest) (hc : isFollowId c = true) :
    ∃ r', Goes buf 61 r t 63 r' ∧ r'.op = r.op.set 0 u ∧ r'.span = r.span ∧ r'.term = r.term := by
  obtain ⟨s1, r1, L, g, -, k, hL, fin⟩ := go_uuid famId_ok (fun _ => .inl rfl) h hb
  obtain ⟨r2, ha, hp, k2, -, -, hu⟩ := fin c
  have hlv : leaves isFollowId s1 (L ++ [end_id]) 63 = true := by
    rcases hL with ⟨hs, rfl⟩ | ⟨hs, rfl⟩ <;>
    simp only [famId, List.mem_cons, List.not_mem_nil, or_false] at hs
    · rcases hs with rfl | rfl <;> decide +kernel
    · subst hs; decide +kernel
  have ha2 : acts buf c r1 (L ++ [end_id]) = .cont { r2 with op := r2.op.set 0 u } := by
    rw [acts_append, ha]
    simp only [acts, act, setSpec_ok hu]
  have gg := g.trans (go_leave hlv (g.drop hb) hc ha2)
  rw [List.append_nil] at gg
  have kk := k.trans k2
  exact ⟨_, gg, by simp [kk.op], kk.span, kk.term⟩

/-- A reference. -/
theorem go_ref {buf : List Byte} {r : Regs} {t : List Byte} {u : Uuid} {c : Byte} {rest : List Byte}
    (h : UuidLit t u) (hb : buf.drop r.p = t ++ c :: rest) (hc : isFollow c = true) :
    ∃ r', Goes buf 64 r t 3 r' ∧ r'.op = r.op.set 1 u ∧ r'.span = r.span ∧ r'.term = r.term := by
  obtain ⟨s1, r1, L, g, -, k, hL, fin⟩ := go_uuid famRef_ok (fun _ => .inl rfl) h hb
  obtain ⟨r2, ha, hp, k2, -, -, hu⟩ := fin c
  have hlv : leaves isFollow s1 (L ++ [end_ref]) 3 = true := by
    rcases hL with ⟨hs, rfl⟩ | ⟨hs, rfl⟩ <;>
    simp only [famRef, List.mem_cons, List.not_mem_nil, or_false] at hs
    · rcases hs with rfl | rfl <;> decide +kernel
    · subst hs; decide +kernel
  have ha2 : acts buf c r1 (L ++ [end_ref]) = .cont { r2 with op := r2.op.set 1 u } := by
    rw [acts_append, ha]
    simp only [acts, act, setSpec_ok hu]
  have gg := g.trans (go_leave hlv (g.drop hb) hc ha2)
  rw [List.append_nil] at gg
  have kk := k.trans k2
  exact ⟨_, gg, by simp [kk.op], kk.span, kk.term⟩

/-- A quoted UUID as a value. -/
theorem quoted_uuid {buf : List Byte} {s : Nat} (hs : s ∈ restStates)
    {r : Regs} {w t : List Byte} {u : Uuid} {c : Byte} {rest : List Byte} (hw : Blank w)
    (h : UuidLit t u) (hb : buf.drop r.p = 62 :: (w ++ t) ++ c :: rest) (hc : isFollow c = true) :
    Pushes buf s r (62 :: (w ++ t)) (.uuid u) := by
  obtain ⟨r0, g0, k0⟩ := open_blank (q := 62) (t := 28) hs (by decide) (by decide) hw
    (rest := t ++ c :: rest) (by simpa using hb)
  have hb0 := g0.drop (rest := t ++ c :: rest) (by simpa using hb)
  refine Pushes.prepend (w := 62 :: w) g0 k0 ?_
  obtain ⟨s1, r1, L, g, -, k, hL, fin⟩ := go_uuid famQuo_ok (fun _ => .inl rfl) h hb0
  obtain ⟨r2, ha, hp, k2, -, hbig, hu⟩ := fin c
  have hlv : leaves isFollow s1 (L ++ [end_quoted_uuid]) 3 = true := by
    rcases hL with ⟨hs, rfl⟩ | ⟨hs, rfl⟩ <;>
    simp only [famQuo, List.mem_cons, List.not_mem_nil, or_false] at hs
    · rcases hs with rfl | rfl <;> decide +kernel
    · subst hs; decide +kernel
  have ha2 : acts buf c r1 (L ++ [end_quoted_uuid]) = .cont { r2 with op := r2.op ++ [u] } := by
    rw [acts_append, ha]
    simp only [acts, act, pushUuid_ok hu hbig]
  have gg := g.trans (go_leave hlv (g.drop hb0) hc ha2)
  rw [List.append_nil] at gg
  have kk := k.trans k2
  exact ⟨_, u, gg, by simp [kk.op], kk.span, kk.term, fun _ => shows_uuid (type_uuidLit h)⟩

/-! ### bare UUIDs: what the state says about the text -/

/-- The bytes of a UUID text. -/
def isUuidByte (c : Byte) : Bool := isB64 c || isSep c || Nat.beq c.toNat 47

/-- `e` or `E`. -/
def isExp (c : Byte) : Bool := Nat.beq c.toNat 69 || Nat.beq c.toNat 101

/-- What a text read so far by the states of a bare UUID looks like. -/
def Seen (t : Nat) (w : List Byte) : Prop :=
  (t = 40 ∨ t = 45 → Digits w) ∧
  (t = 46 → ∃ d e, w = d ++ [e] ∧ Digits d ∧ isExp e = true) ∧
  (t = 47 → ∃ d e q, w = d ++ [e, q] ∧ Digits d ∧ isExp e = true ∧ isSignB q = true) ∧
  (t = 48 → ∃ d e q f, w = d ++ e :: q :: f ∧ Digits d ∧ isExp e = true ∧ isSignB q = true ∧
    Digits f) ∧
  (t = 49 → ∃ d e f, w = d ++ e :: f ∧ Digits d ∧ isExp e = true ∧ Digits f)

def innerStates : List Nat := [40, 41, 42, 43, 44, 45, 46, 47, 48, 49, 50]

theorem natBeq_false (a b : Nat) : Nat.beq a b = false ↔ a ≠ b := by
  rw [← Bool.not_eq_true, Nat.beq_eq]

/-- Where the steps of a bare UUID may come from. -/
def bareStep (s : Nat) (c : Byte) (t : Nat) : Bool :=
  innerStates.contains t && !Nat.beq t 40 &&
  (!Nat.beq t 45 || ((Nat.beq s 40 || Nat.beq s 45) && isDigitB c)) &&
  (!Nat.beq t 46 || ((Nat.beq s 40 || Nat.beq s 45) && isExp c)) &&
  (!Nat.beq t 47 || (Nat.beq s 46 && isSignB c)) &&
  (!Nat.beq t 48 || ((Nat.beq s 47 || Nat.beq s 48) && isDigitB c)) &&
  (!Nat.beq t 49 || ((Nat.beq s 46 || Nat.beq s 49) && isDigitB c))

theorem bareStep_table : innerStates.all (fun s => allBytes fun c => !isUuidByte c ||
    match stepIn TextTable.rows s c with
    | some (_, t) => bareStep s c t
    | none => true) = true := by decide +kernel

theorem bareFirst_table : bareStates.all (fun s => allBytes fun c => !isB64 c ||
    match stepIn TextTable.rows s c with
    | some (_, t) => (Nat.beq t 40 && isDigitB c) || Nat.beq t 44 || Nat.beq t 50
    | none => true) = true := by decide +kernel

theorem Digits.snoc {d : List Byte} {c : Byte} (h : ∀ x ∈ d, IsDigit x) (hc : isDigitB c = true) :
    Digits (d ++ [c]) := by
  refine ⟨by simp, fun x hx => ?_⟩
  simp only [List.mem_append, List.mem_singleton] at hx
  rcases hx with hx | rfl
  · exact h x hx
  · exact (isDigitB_iff _).1 hc

theorem Seen.step {s t : Nat} {w : List Byte} {c : Byte} {as : List Act} (hs : s ∈ innerStates)
    (h : Seen s w) (hc : isUuidByte c = true) (hst : stepIn TextTable.rows s c = some (as, t)) :
    t ∈ innerStates ∧ Seen t (w ++ [c]) := by
  have tb := of_allBytes ((List.all_eq_true.1 bareStep_table) s hs) c
  rw [hst] at tb
  simp only [hc, Bool.not_true, Bool.false_or] at tb
  unfold bareStep at tb
  simp only [Bool.and_eq_true, Bool.or_eq_true, Bool.not_eq_true', Nat.beq_eq,
    List.contains_eq_mem, decide_eq_true_eq, natBeq_false] at tb
  obtain ⟨⟨⟨⟨⟨⟨h0, h40⟩, h45⟩, h46⟩, h47⟩, h48⟩, h49⟩ := tb
  obtain ⟨s1, s2, s3, s4, s5⟩ := h
  refine ⟨h0, ?_, ?_, ?_, ?_, ?_⟩
  · intro ht
    rcases ht with ht | ht
    · exact absurd ht h40
    · obtain ⟨ha, hd⟩ := h45.resolve_left (by simp [ht])
      exact Digits.snoc (s1 ha).2 hd
  · intro ht
    obtain ⟨ha, hd⟩ := h46.resolve_left (by simp [ht])
    exact ⟨w, c, rfl, s1 ha, hd⟩
  · intro ht
    obtain ⟨ha, hd⟩ := h47.resolve_left (by simp [ht])
    obtain ⟨d, e, rfl, hdd, he⟩ := s2 ha
    exact ⟨d, e, c, by simp, hdd, he, hd⟩
  · intro ht
    obtain ⟨ha, hd⟩ := h48.resolve_left (by simp [ht])
    rcases ha with ha | ha
    · obtain ⟨d, e, q, rfl, hdd, he, hq⟩ := s3 ha
      exact ⟨d, e, q, [c], by simp, hdd, he, hq, Digits.snoc (d := []) (by simp) hd⟩
    · obtain ⟨d, e, q, f, rfl, hdd, he, hq, hf⟩ := s4 ha
      exact ⟨d, e, q, f ++ [c], by simp, hdd, he, hq, Digits.snoc hf.2 hd⟩
  · intro ht
    obtain ⟨ha, hd⟩ := h49.resolve_left (by simp [ht])
    rcases ha with ha | ha
    · obtain ⟨d, e, rfl, hdd, he⟩ := s2 ha
      exact ⟨d, e, [c], by simp, hdd, he, Digits.snoc (d := []) (by simp) hd⟩
    · obtain ⟨d, e, f, rfl, hdd, he, hf⟩ := s5 ha
      exact ⟨d, e, f ++ [c], by simp, hdd, he, Digits.snoc hf.2 hd⟩

theorem Seen.along : ∀ (v w : List Byte) (s t : Nat), s ∈ innerStates → Seen s w →
    (∀ c ∈ v, isUuidByte c = true) → walk s v = some t → Seen t (w ++ v) := by
  intro v
  induction v with
  | nil => intro w s t _ h _ hw; simp [walk] at hw; subst hw; simpa using h
  | cons c v ih =>
    intro w s t hs h hv hw
    simp only [walk] at hw
    split at hw
    · cases hw
    · rename_i as s' hst
      obtain ⟨h1, h2⟩ := Seen.step hs h (hv c (by simp)) hst
      have := ih (w ++ [c]) s' t h1 h2 (fun x hx => hv x (by simp [hx])) hw
      simpa using this

theorem Seen.first {s t : Nat} {c : Byte} {as : List Act} (hs : s ∈ bareStates)
    (hc : isB64 c = true) (hst : stepIn TextTable.rows s c = some (as, t)) :
    t ∈ innerStates ∧ Seen t [c] := by
  have tb := of_allBytes ((List.all_eq_true.1 bareFirst_table) s hs) c
  rw [hst] at tb
  simp only [hc, Bool.not_true, Bool.false_or, Bool.and_eq_true, Bool.or_eq_true,
    Nat.beq_eq] at tb
  rcases tb with (⟨rfl, hd⟩ | rfl) | rfl
  · refine ⟨by decide, ?_, ?_, ?_, ?_, ?_⟩
    · intro _; exact Digits.snoc (d := []) (by simp) hd
    all_goals intro h; simp at h
  · refine ⟨by decide, ?_, ?_, ?_, ?_, ?_⟩
    all_goals intro h; simp at h
  · refine ⟨by decide, ?_, ?_, ?_, ?_, ?_⟩
    all_goals intro h; simp at h

theorem UuidText.bytes {t : List Byte} {vr ver : Nat} {v o : List Byte}
    (h : UuidText t vr v ver o) : ∃ c t', t = c :: t' ∧ isB64 c = true ∧
      ∀ x ∈ t', isUuidByte x = true := by
  obtain ⟨⟨q, tail, rfl, hq, htail⟩, hne, hv⟩ := h
  have b64 : ∀ x, isB64 x = true → isUuidByte x = true := fun x hx => by simp [isUuidByte, hx]
  have ht : ∀ x ∈ tail, isUuidByte x = true := by
    cases htail with
    | none => simp
    | some s o hs ho =>
      intro x hx
      simp only [List.mem_cons] at hx
      rcases hx with rfl | hx
      · simp [isUuidByte, hs]
      · exact b64 x (ho.2 x hx)
  cases v with
  | nil => exact absurd rfl hne
  | cons y v =>
    cases hq with
    | none =>
      refine ⟨y, v ++ tail, by simp, hv y (by simp), fun x hx => ?_⟩
      rcases List.mem_append.1 hx with hx | hx
      · exact b64 x (hv x (by simp [hx]))
      · exact ht x hx
    | some a ha =>
      refine ⟨a, ch '/' :: (y :: v ++ tail), by simp, UuidParser.hex_b64 a ha, fun x hx => ?_⟩
      rcases List.mem_cons.1 hx with rfl | hx
      · decide
      · rcases List.mem_append.1 hx with hx | hx
        · exact b64 x (hv x hx)
        · exact ht x hx

theorem isExp_iff {e : Byte} (h : isExp e = true) : e = 69 ∨ e = 101 := by
  simp only [isExp, Bool.or_eq_true, Nat.beq_eq] at h
  rcases h with h | h
  · left; exact UInt8.toNat_inj.1 h
  · right; exact UInt8.toNat_inj.1 h

theorem isSignB_text {q : Byte} (h : isSignB q = true) : SignText [q] := by
  have : q = 43 ∨ q = 45 := by
    simp only [isSignB, Bool.or_eq_true, Nat.beq_eq] at h
    rcases h with h | h
    · left; exact UInt8.toNat_inj.1 h
    · right; exact UInt8.toNat_inj.1 h
  rcases this with rfl | rfl
  · exact .plus
  · exact .minus

/-- A bare UUID that is neither an integer nor a float ends in a state that says so. -/
theorem bare_state {s t : Nat} {w : List Byte} {u : Uuid} (hs : s ∈ bareStates) (h : UuidLit w u)
    (hi : ¬ Digits w) (hf : ¬ FloatText w) (hw : walk s w = some t) :
    t ≠ 40 ∧ t ≠ 45 ∧ t ≠ 48 ∧ t ≠ 49 := by
  obtain ⟨vr, v, ver, o, hu, -⟩ := h
  obtain ⟨c, w', rfl, hc, hw'⟩ := UuidText.bytes hu
  simp only [walk] at hw
  split at hw
  · cases hw
  · rename_i as s' hst
    obtain ⟨h1, h2⟩ := Seen.first hs hc hst
    have hsn := Seen.along w' [c] s' t h1 h2 hw' hw
    obtain ⟨s1, s2, s3, s4, s5⟩ := hsn
    refine ⟨fun e => hi (s1 (.inl e)), fun e => hi (s1 (.inr e)), fun e => ?_, fun e => ?_⟩
    · obtain ⟨d, e, q, f, hww, hd, he, hq, hff⟩ := s4 e
      apply hf
      rw [show c :: w' = [] ++ d ++ e :: ([q] ++ f) by simpa using hww]
      exact .exp [] d _ .none hd (.mk e [q] f (isExp_iff he) (isSignB_text hq) hff)
    · obtain ⟨d, e, f, hww, hd, he, hff⟩ := s5 e
      apply hf
      rw [show c :: w' = [] ++ d ++ e :: ([] ++ f) by simpa using hww]
      exact .exp [] d _ .none hd (.mk e [] f (isExp_iff he) .none hff)

/-- A bare UUID. -/
theorem bare_uuid {buf : List Byte} {s : Nat} (hs : s ∈ bareStates)
    {r : Regs} {t : List Byte} {u : Uuid} {c : Byte} {rest : List Byte}
    (h : UuidLit t u) (hi : ¬ Digits t) (hf : ¬ FloatText t)
    (hb : buf.drop r.p = t ++ c :: rest) (hc : isFollow c = true) :
    Pushes buf s r t (.uuid u) := by
  obtain ⟨s1, r1, L, g, hw, k, hL, fin⟩ := go_uuid (famBare_ok hs)
    (fun x => by unfold famBare; simp only; split <;> simp) h hb
  obtain ⟨r2, ha, hp, k2, hset, hbig, hu⟩ := fin c
  obtain ⟨n1, n2, n3, n4⟩ := bare_state hs h hi hf hw
  have hlv : leaves isFollow s1 (L ++ [end_bare_uuid]) 3 = true := by
    rcases hL with ⟨hs, rfl⟩ | ⟨hs, rfl⟩ <;>
    simp only [famBare, List.mem_cons, List.not_mem_nil, or_false] at hs
    · rcases hs with rfl | rfl | rfl | rfl | rfl | rfl <;> first | contradiction | decide +kernel
    · rcases hs with rfl | rfl <;> first | contradiction | decide +kernel
  have ha2 : acts buf c r1 (L ++ [end_bare_uuid]) = .cont { r2 with op := r2.op ++ [u] } := by
    rw [acts_append, ha]
    simp only [acts, act, hset, if_true, pushUuid_ok hu hbig]
  have gg := g.trans (go_leave hlv (g.drop hb) hc ha2)
  rw [List.append_nil] at gg
  have kk := k.trans k2
  exact ⟨_, u, gg, by simp [kk.op], kk.span, kk.term, fun _ => shows_uuid (type_uuidLit h)⟩

end TextParser
end Ron
