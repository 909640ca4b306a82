import Verif.Props.Builder
import Verif.Lemmas.BuilderNul
import Verif.Props.Compare
/-!
C117: strings with NULs.
-/
namespace Ron.Props
open Ron Spec TextParser

/-- C117: an op with a string, first in a frame, is written and read back. The string may have any code points below 2^21 but
the form feed, which is written with an escape the grammar does not have. -/
def C117_claim : Prop := ∀ (fmt : Word → List Byte) (id ref : Uuid) (cps : List Nat), Plain62 id → Plain62 ref →
  id ≠ Uuid.NIL.inc → (∀ c ∈ cps, c < 2 ^ 21 ∧ c ≠ 12) → cps.length < 2 ^ 28 →
  ∃ text, built fmt [.op id ref [.str (cps.flatMap utf8append)]] = .ok text ∧
    (text.length < 2 ^ 30 → Contents text [⟨id, ref, [.text (cps.flatMap utf8append)]⟩] .endOfFrame)

theorem utf8_short (cps : List Nat) : (cps.flatMap utf8append).length ≤ 4 * cps.length := by
  induction cps with
  | nil => simp
  | cons c cps ih =>
    rw [List.flatMap_cons, List.length_append, List.length_cons]
    have : (utf8append c).length ≤ 4 := by
      unfold utf8append
      split
      · simp
      · split
        · simp
        · split <;> simp
    omega

theorem built_one {fmt : Word → List Byte} {id ref : Uuid} {args : List Arg} {text : List Byte} :
    built fmt [.op id ref args] = .ok text ↔
      ∃ b b', (Op.mk' id ref args).bind (fun o => Builder.init.appendOp fmt o) = .ok b ∧ b.release = .ok (text, b') := by
  constructor
  · intro h1
    unfold built perform at h1
    obtain ⟨b, e1, h1⟩ := Cursor.bind_ok h1
    obtain ⟨r, e2, h1⟩ := Cursor.bind_ok h1
    obtain ⟨o, e3, e1⟩ := Cursor.bind_ok e1
    obtain ⟨b1, e4, e1⟩ := Cursor.bind_ok e1
    unfold perform at e1
    injection e1 with e1
    injection h1 with h6
    subst e1
    refine ⟨b1, r.2, ?_, by rw [e2]; exact congrArg Out.ok (Prod.ext h6 rfl)⟩
    rw [e3, Op.obind, e4]
  · rintro ⟨b, b', h1, h2⟩
    obtain ⟨o, e3, e4⟩ := Cursor.bind_ok h1
    unfold built perform
    rw [e3, Op.obind, e4, Op.obind, perform, Op.obind, h2, Op.obind]

/-- Without NULs (`C22`). -/
theorem one_string {fmt : Word → List Byte} {id ref : Uuid} (hi : Plain62 id) (hr : Plain62 ref) (hn : id ≠ Uuid.NIL.inc)
    {cps : List Nat} (hc : ∀ c ∈ cps, CpOk c) (hl : cps.length < 2 ^ 28) :
    ∃ text, built fmt [.op id ref [.str (cps.flatMap utf8append)]] = .ok text ∧
      FrameText Uuid.NIL text [(0, ⟨id, ref, [.text (cps.flatMap utf8append)]⟩)] := by
  have hs := utf8_short cps
  obtain ⟨text, h1, h2, -⟩ := C22_partial fmt [.op id ref [.str (cps.flatMap utf8append)]] (by
    refine ⟨fun i r args h => ?_, ?_⟩
    · rw [List.mem_singleton] at h
      injection h with e1 e2 e3
      subst e1; subst e2; subst e3
      refine ⟨hi, hr, fun a ha => ?_, ?_⟩
      · rw [List.mem_singleton] at ha
        subst ha
        exact ⟨cps, rfl, hc⟩
      · show (cps.flatMap utf8append).length + 0 < _
        omega
    · show CleanSteps headOk _ _ true false (.op _ :: [])
      unfold CleanSteps
      refine ⟨fun e => absurd e hn, fun e => ?_, by unfold CleanSteps; trivial⟩
      unfold folds follows at e
      simp only [Bool.and_eq_true, decide_eq_true_eq] at e
      exact absurd e.1.1 hn) (by simp)
  exact ⟨text, h1, h2⟩

theorem mem_takeWhile {α : Type} {p : α → Bool} : ∀ {l : List α} {a : α}, a ∈ l.takeWhile p → a ∈ l ∧ p a = true
  | x :: l, a, h => by
    rw [List.takeWhile_cons] at h
    split at h
    · rename_i hx
      rcases List.mem_cons.1 h with rfl | h
      · exact ⟨List.mem_cons_self, hx⟩
      · exact ⟨List.mem_cons_of_mem _ (mem_takeWhile h).1, (mem_takeWhile h).2⟩
    · cases h

theorem takeWhile_twice {α : Type} {p : α → Bool} : ∀ {l : List α}, (l.takeWhile p).takeWhile p = l.takeWhile p
  | [] => rfl
  | x :: l => by
    rw [List.takeWhile_cons]
    split
    · rename_i hx
      rw [List.takeWhile_cons_of_pos hx, takeWhile_twice]
    · rfl

/-- Up to the first NUL. -/
def toNul (cps : List Nat) : List Nat := cps.takeWhile fun d => decide (d ≠ 0)

theorem nul_string {fmt : Word → List Byte} {id ref : Uuid} (hi : Plain62 id) (hr : Plain62 ref) (hn : id ≠ Uuid.NIL.inc)
    {cps : List Nat} (hc : ∀ c ∈ cps, c < 2 ^ 21 ∧ c ≠ 12) (hl : cps.length < 2 ^ 28) :
    ∃ text, built fmt [.op id ref [.str (cps.flatMap utf8append)]] = .ok text ∧
      FrameText Uuid.NIL text [(0, ⟨id, ref, [.text ((toNul cps).flatMap utf8append)]⟩)] := by
  have hlen : (toNul cps).length < 2 ^ 28 := Nat.lt_of_le_of_lt (List.takeWhile_sublist _).length_le hl
  have hpre : ∀ c ∈ toNul cps, CpOk c := fun c h => by
    obtain ⟨h1, h2⟩ := mem_takeWhile h
    have := hc c h1
    have h3 : c ≠ 0 := of_decide_eq_true h2
    exact ⟨by omega, this⟩
  obtain ⟨text, h1, h2⟩ := one_string (fmt := fmt) hi hr hn hpre hlen
  obtain ⟨o, a, o1, o2, o3, o4⟩ := Op.mk_string id ref (cps := toNul cps) (fun c h => (hpre c h).2.1) hlen
  obtain ⟨p, x, p1, p2, p3, p4⟩ := Op.mk_string id ref (cps := cps) (fun c h => (hc c h).1) hl
  rw [show (toNul cps).takeWhile (fun d => decide (d ≠ 0)) = toNul cps from takeWhile_twice] at o4
  obtain ⟨b, b', b1, b2⟩ := Builder.one_written (fmt := fmt) hn o2 o3 o4
  obtain ⟨d, d', d1, d2⟩ := Builder.one_written (fmt := fmt) hn p2 p3 p4
  have e : built fmt [.op id ref [.str ((toNul cps).flatMap utf8append)]] = .ok _ :=
    built_one.2 ⟨b, b', by rw [o1, Op.obind, b1], b2⟩
  rw [h1] at e
  injection e with e
  refine ⟨text, built_one.2 ⟨d, d', by rw [p1, Op.obind, d1], ?_⟩, h2⟩
  rw [d2, e]
  rfl

/-- C117 holds up to the first NUL: what is read back is the string before it. -/
theorem C117_partial (fmt : Word → List Byte) (id ref : Uuid) (cps : List Nat) (hi : Plain62 id) (hr : Plain62 ref)
    (hn : id ≠ Uuid.NIL.inc) (hc : ∀ c ∈ cps, c < 2 ^ 21 ∧ c ≠ 12) (hl : cps.length < 2 ^ 28) :
    ∃ text, built fmt [.op id ref [.str (cps.flatMap utf8append)]] = .ok text ∧
      (text.length < 2 ^ 30 → Contents text
        [⟨id, ref, [.text ((cps.takeWhile fun d => decide (d ≠ 0)).flatMap utf8append)]⟩] .endOfFrame) := by
  obtain ⟨text, h1, h2⟩ := nul_string (fmt := fmt) hi hr hn hc hl
  exact ⟨text, h1, fun h => (C20_frames_partial text h _ h2).1⟩

/-- C117 is violated: the string `a`, NUL, `b` is written as `'a'`. -/
theorem C117_violated : ¬ C117_claim := by
  intro h
  obtain ⟨text, h1, h2⟩ := h (fun _ => []) ⟨1#64, BitVec.ofNat 64 (2 ^ 61)⟩ Uuid.NIL [97, 0, 98] (by unfold Plain62; decide)
    (by unfold Plain62; decide) (by decide) (by decide) (by decide)
  have k : (match built (fun _ => []) [.op ⟨1#64, BitVec.ofNat 64 (2 ^ 61)⟩ Uuid.NIL [.str [97, 0, 98]]] with
      | .ok t => decide (t.length < 2 ^ 30) && decide (readOps 20 t =
        .ok (some ([⟨⟨1#64, BitVec.ofNat 64 (2 ^ 61)⟩, Uuid.NIL, [.text [97]]⟩], .endOfFrame)))
      | _ => false) = true := by decide +kernel
  rw [show [97, 0, 98].flatMap utf8append = ([97, 0, 98] : List Byte) by decide] at h1
  rw [h1] at k
  simp only [Bool.and_eq_true, decide_eq_true_eq] at k
  have := (Chains.contents_unique (h2 k.1) (contents_of 20 k.2)).1
  exact absurd this (by decide)

/-- An op with the string `aж`, NUL, `b`. -/
example : Plain62 (⟨1#64, BitVec.ofNat 64 (2 ^ 61)⟩ : Uuid) ∧ Plain62 (⟨5#64, BitVec.ofNat 64 (2 ^ 61)⟩ : Uuid) ∧
    (⟨1#64, BitVec.ofNat 64 (2 ^ 61)⟩ : Uuid) ≠ Uuid.NIL.inc ∧ (∀ c ∈ [97, 0x436, 0, 98], c < 2 ^ 21 ∧ c ≠ 12) ∧
    [97, 0x436, 0, 98].takeWhile (fun d => decide (d ≠ 0)) = [97, 0x436] := by
  refine ⟨by unfold Plain62; decide, by unfold Plain62; decide, by decide, by decide, by decide⟩

end Ron.Props
