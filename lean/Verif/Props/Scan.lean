import Verif.Lemmas.ScanRun
import Verif.Model.Txt
/-!
Visibility in causal trees: C32, C33, C54.
-/
namespace Ron.Props
open Ron Rga Spec

/-- Test data. -/
private def u (v : Nat) : Uuid := Uuid.time (BitVec.ofNat 64 v) 7#64
private def root : AOp := ⟨u 1, RGA_UUID, [], .header⟩
private def ins (i r : Nat) : AOp := ⟨u i, u r, [.str [97]], .reduced⟩
private def rm (i r : Nat) : AOp := ⟨u i, u r, [.uuid RM_UUID], .reduced⟩
private def un (i r : Nat) : AOp := ⟨u i, u r, [.uuid UN_UUID], .reduced⟩

/-! ## C32 — the scan stays inside of its arrays -/

/-- The full claim. -/
def C32_claim : Prop := ∀ ops : List AOp, ops.length < 2 ^ 31 →
  (∃ s, scan ops = .bad s) ∨ ∃ flags, scan ops = .ok flags ∧ flags.length = ops.length

/-- It fails: with three removals in a row below one element the index `ceiling - (depth -
ceiling)` goes below zero, and `kills` is written far outside. -/
theorem C32_violated : ¬ C32_claim := by
  intro h
  have e : scan [root, ins 2 1, rm 3 2, rm 4 3, rm 5 4] = .ub := by decide +kernel
  rcases h [root, ins 2 1, rm 3 2, rm 4 3, rm 5 4] (by decide) with ⟨s, h⟩ | ⟨f, h, _⟩ <;> rw [e] at h <;> cases h

/-- For frames where no run of removals is longer than what it is applied to (and the same for
undos): a status, or one flag per op. Nothing else is assumed about the frame. -/
theorem C32_safe_partial (ops : List AOp) (hlen : ops.length < 2 ^ 31) (hb : Bounded ops) :
    (∃ s, scan ops = .bad s) ∨ ∃ flags, scan ops = .ok flags ∧ flags.length = ops.length := by
  rcases scan_spec hlen with ⟨_, h⟩ | h | ⟨f, h, hl, _⟩
  · exact absurd hb h
  · exact .inl h
  · exact .inr ⟨f, h, hl⟩

/-- An op of a path refers to the one before. -/
private theorem path_refs {ops : List AOp} {i : Nat} {p : List Nat} (h : PathTo ops i p) (a b : List Nat)
    (x y : Nat) (e : p = a ++ x :: y :: b) :
    ∃ o p, ops[x]? = some o ∧ ops[y]? = some p ∧ p.ref = o.id := by
  have h2 := h.prefix (a ++ [x]) b y (by rw [e]; simp)
  obtain ⟨q, hq, hlt⟩ := h2.last
  generalize hg : a ++ [x] ++ [y] = l at h2
  cases h2 with
  | root _ => have := congrArg List.length hg; simp at this
  | child _ j p' o o' hp hlt ho ho' hr =>
    have := List.append_inj_left' hg rfl
    subst this
    obtain ⟨q', hq', _⟩ := hp.last
    have := (List.append_inj' hq' rfl).2
    simp only [List.cons.injEq, and_true] at this
    subst this
    exact ⟨o, o', ho, ho', hr⟩

/-- In particular: if no removal refers to a removal and no undo to an undo. -/
theorem C32_single_partial (ops : List AOp) (hlen : ops.length < 2 ^ 31)
    (hr : ∀ o ∈ ops, ∀ p ∈ ops, kind o = .remove → kind p = .remove → p.ref ≠ o.id)
    (hu : ∀ o ∈ ops, ∀ p ∈ ops, kind o = .undo → kind p = .undo → p.ref ≠ o.id) :
    (∃ s, scan ops = .bad s) ∨ ∃ flags, scan ops = .ok flags ∧ flags.length = ops.length := by
  apply C32_safe_partial ops hlen
  intro q E R U hE hb
  have short : ∀ (k : Kind) (A L B : List Nat), 0 :: (E ++ R ++ U) = A ++ L ++ B →
      (∀ x ∈ L, IsKind ops k x) →
      (∀ o ∈ ops, ∀ p ∈ ops, kind o = k → kind p = k → p.ref ≠ o.id) → L.length ≤ 1 := by
    intro k A L B e hk hno
    match L, e, hk with
    | [], _, _ => simp
    | [_], _, _ => simp
    | x :: y :: L', e, hk =>
      exfalso
      obtain ⟨o, p, ho, hp, hr⟩ := path_refs hb.path A (L' ++ B) x y (by rw [e]; simp)
      obtain ⟨o', ho', ko⟩ := hk x (by simp)
      obtain ⟨p', hp', kp⟩ := hk y (by simp)
      rw [ho] at ho'; cases ho'
      rw [hp] at hp'; cases hp'
      exact hno o (List.mem_of_getElem? ho) p (List.mem_of_getElem? hp) ko kp hr
  have h1 := short .remove (0 :: E) R U (by simp) hb.removes hr
  have h2 := short .undo (0 :: (E ++ R)) U [] (by simp) hb.undos hu
  omega

example : ∀ o ∈ [root, ins 2 1, rm 5 2, un 6 5, ins 3 2], ∀ p ∈ [root, ins 2 1, rm 5 2, un 6 5, ins 3 2],
    kind o = .remove → kind p = .remove → p.ref ≠ o.id := by decide

/-! ## C33 — deletes and undos resolve per element -/

/-- The full claim: in an accepted frame an op is marked visible exactly if it is an element and
every removal aimed at it has been undone. -/
def C33_claim : Prop := ∀ (ops : List AOp) (flags : List Bool), ops.length < 2 ^ 31 →
  (ops.map AOp.id).Nodup → scan ops = .ok flags →
  ∀ x < ops.length, flags[x]? = some false ↔ Visible ops x

/-- The frame: an element, removed, and the removal undone. -/
private def undone : List AOp := [root, ins 2 1, rm 5 2, un 6 5]

private theorem undone_branch : Branch undone 3 [1] [2] [3] := by
  have h0 : PathTo undone 0 [0] := .root (by decide)
  have h1 : PathTo undone 1 [0, 1] := .child 1 0 [0] root (ins 2 1) h0 (by decide) rfl rfl rfl
  have h2 : PathTo undone 2 [0, 1, 2] := .child 2 1 [0, 1] (ins 2 1) (rm 5 2) h1 (by decide) rfl rfl rfl
  have h3 : PathTo undone 3 [0, 1, 2, 3] := .child 3 2 [0, 1, 2] (rm 5 2) (un 6 5) h2 (by decide) rfl rfl rfl
  refine ⟨h3, ?_, ?_, ?_⟩
  · intro x hx; rw [List.mem_singleton.1 hx]; exact ⟨ins 2 1, rfl, by decide⟩
  · intro x hx; rw [List.mem_singleton.1 hx]; exact ⟨rm 5 2, rfl, by decide⟩
  · intro x hx; rw [List.mem_singleton.1 hx]; exact ⟨un 6 5, rfl, by decide⟩

/-- It fails: a removal that was undone still hides the element (the test is `at >
ceiling[REMOVE]`, and the removal is at `ceiling[REMOVE]`). -/
theorem C33_violated : ¬ C33_claim := by
  intro h
  have e : scan undone = .ok [true, true, true, true] := by decide +kernel
  have hnd : (undone.map AOp.id).Nodup := by decide
  have hv : Visible undone 1 := by
    have hb := undone_branch
    refine ⟨⟨[1], by simp, ?_, hb.inserts, by simp, by simp⟩, ?_⟩
    · exact hb.path.prefix [0] [2, 3] 1 rfl
    · intro q hq
      refine ⟨3, [1], [2], [3], by simp, by simp, hb, ?_⟩
      -- the only removal is at 2
      obtain ⟨E, R, hR, hq', _⟩ := hq
      have hk : IsKind undone .remove q := by
        rcases List.eq_nil_or_concat R with rfl | ⟨R', r, rfl⟩
        · exact absurd rfl hR
        · obtain ⟨p, hp, _⟩ := hq'.path.last
          rw [List.concat_eq_append, List.append_nil, ← List.append_assoc, ← List.cons_append] at hp
          have := (List.append_inj' hp rfl).2
          simp only [List.cons.injEq, and_true] at this
          subst this
          exact hq'.removes r (by simp)
      obtain ⟨o, ho, hk⟩ := hk
      have hq4 : q < 4 := (List.getElem?_eq_some_iff.1 ho).1
      have : q = 0 ∨ q = 1 ∨ q = 2 ∨ q = 3 := by omega
      rcases this with rfl | rfl | rfl | rfl
      · cases ho; revert hk; decide
      · cases ho; revert hk; decide
      · rfl
      · cases ho; revert hk; decide
  have := (h undone _ (by decide) hnd e 1 (by decide)).2 hv
  cases this

/-- What the scan does, for every accepted frame: an op is marked visible exactly if it is an
element and every removal aimed at it is taken back by an undo. The difference to the claim: the
first removal of a run is never taken back. So visibility of an element depends on nothing but
the removals aimed at it and the undos aimed at these. -/
theorem C33_visible_partial (ops : List AOp) (flags : List Bool) (hlen : ops.length < 2 ^ 31)
    (hu : (ops.map AOp.id).Nodup) (h : scan ops = .ok flags) (x : Nat) (hx : x < ops.length) :
    flags[x]? = some false ↔
      Element ops x ∧ ∀ q, Removes ops q x → ∃ u, Late ops u q := by
  rcases scan_spec hlen with ⟨e, _⟩ | ⟨s, e⟩ | ⟨f, e, _, hf⟩
  · rw [h] at e; cases e
  · rw [h] at e; cases e
  · rw [h] at e; cases e
    exact hf hu x hx

/-- Without undos it is what is claimed: visible exactly if not removed. -/
theorem C33_no_undo_partial (ops : List AOp) (flags : List Bool) (hlen : ops.length < 2 ^ 31)
    (hu : (ops.map AOp.id).Nodup) (h : scan ops = .ok flags) (hno : ∀ o ∈ ops, kind o ≠ .undo)
    (x : Nat) (hx : x < ops.length) :
    (flags[x]? = some false ↔ Visible ops x) ∧
    (flags[x]? = some false ↔ Element ops x ∧ ¬ ∃ q, Removes ops q x) := by
  have nou : ∀ u q, ¬ Undoes ops u q := by
    rintro u q ⟨E, R, U, _, hU, hb, _⟩
    cases U with
    | nil => exact hU rfl
    | cons y ys =>
      obtain ⟨o, ho, hk⟩ := hb.undos y (by simp)
      exact hno o (List.mem_of_getElem? ho) hk
  have nol : ∀ u q, ¬ Late ops u q := by
    rintro u q ⟨E, R, U, _, hU, hb, _⟩
    cases U with
    | nil => exact hU rfl
    | cons y ys =>
      obtain ⟨o, ho, hk⟩ := hb.undos y (by simp)
      exact hno o (List.mem_of_getElem? ho) hk
  have key := C33_visible_partial ops flags hlen hu h x hx
  have e1 : (∀ q, Removes ops q x → ∃ u, Late ops u q) ↔ ¬ ∃ q, Removes ops q x := by
    constructor
    · rintro h ⟨q, hq⟩; obtain ⟨u, hl⟩ := h q hq; exact nol u q hl
    · intro h q hq; exact absurd ⟨q, hq⟩ h
  have e2 : (∀ q, Removes ops q x → ∃ u, Undoes ops u q) ↔ ¬ ∃ q, Removes ops q x := by
    constructor
    · rintro h ⟨q, hq⟩; obtain ⟨u, hl⟩ := h q hq; exact nou u q hl
    · intro h q hq; exact absurd ⟨q, hq⟩ h
  unfold Visible
  rw [key, e1, e2]
  exact ⟨Iff.rfl, Iff.rfl⟩

/-- An accepted frame without undos: `a` and `c` are visible, `b` is removed. -/
example : scan [root, ins 2 1, rm 5 2, ins 3 2, ins 4 3] = .ok [true, true, true, false, false] := by
  decide +kernel

/-- Two removals in a row, the second is undone. -/
example : scan [root, ins 2 1, ins 3 2, rm 5 3, rm 6 5, un 7 6] =
    .ok [true, false, true, true, true, true] := by decide +kernel

/-! ## C54 — plain text -/

/-- The code point an op stands for: its value is a string of one character. -/
def IsChar (o : AOp) (c : Nat) : Prop := o.vals = [.str [c]]

/-- The claim: if all elements are single characters, reading an accepted frame gives the UTF-8
of the visible ones, in order. -/
def C54_claim : Prop := ∀ (junk : AVal → Nat) (frame : List Shown) (flags : List Bool),
  scan (frame.map Shown.op) = .ok flags →
  (∀ (i : Nat) (o : Shown), frame[i]? = some o → flags[i]? = some false → ∃ c, IsChar o.op c) →
  ∃ cps : List Nat, txtRead junk frame = .ok (cps.flatMap utf8append) ∧
    cps.map (fun c => [AVal.str [c]]) =
      ((frame.zip flags).filter (fun e => !e.2)).map (fun e => e.1.op.vals)

/-- It fails: for a character written as `'a'` and not as a part of a spread the current code
point is zero, and that is what comes out. -/
theorem C54_violated : ¬ C54_claim := by
  intro h
  obtain ⟨cps, h1, h2⟩ := h (fun _ => 0) [⟨root, false⟩, ⟨ins 2 1, false⟩] [true, false]
    (by decide +kernel) (by
      intro i o ho hf
      match i with
      | 0 => cases hf
      | 1 => cases ho; exact ⟨97, rfl⟩
      | n + 2 => cases ho)
  have e : txtRead (fun _ => 0) [⟨root, false⟩, ⟨ins 2 1, false⟩] = .ok [0] := by decide +kernel
  have e2 : ((([(⟨root, false⟩ : Shown), ⟨ins 2 1, false⟩]).zip [true, false]).filter
      (fun e => !e.2)).map (fun e => e.1.op.vals) = [[AVal.str [97]]] := by decide +kernel
  rw [e2] at h2
  match cps, h2 with
  | [c], h2 =>
    simp only [List.map_cons, List.map_nil, List.cons.injEq, AVal.str.injEq, and_true] at h2
    subst h2
    rw [e] at h1
    revert h1
    decide

/-- With spreads: the visible characters in order. Missing: characters written one by one, and
frames `ScanRGA` does not accept. -/
theorem C54_text_partial (junk : AVal → Nat) (frame : List Shown) (flags : List Bool)
    (hscan : scan (frame.map Shown.op) = .ok flags) (hlen : frame.length < 2 ^ 31)
    (hchar : ∀ (i : Nat) (o : Shown), frame[i]? = some o → flags[i]? = some false →
      o.spread = true ∧ ∃ c, IsChar o.op c) :
    ∃ cps : List Nat, txtRead junk frame = .ok (cps.flatMap utf8append) ∧
      cps.map (fun c => [AVal.str [c]]) =
        ((frame.zip flags).filter (fun e => !e.2)).map (fun e => e.1.op.vals) := by
  have hl : flags.length = frame.length := by
    rcases scan_spec (ops := frame.map Shown.op) (by simpa using hlen) with ⟨e, _⟩ | ⟨s, e⟩ | ⟨f, e, hf, _⟩
    · rw [hscan] at e; cases e
    · rw [hscan] at e; cases e
    · rw [hscan] at e; cases e; simpa using hf
  have key : ∀ (frame : List Shown) (flags : List Bool), flags.length = frame.length →
      (∀ (i : Nat) (o : Shown), frame[i]? = some o → flags[i]? = some false →
        o.spread = true ∧ ∃ c, IsChar o.op c) →
      ∃ cps : List Nat, walk junk flags frame = .ok (cps.flatMap utf8append) ∧
        cps.map (fun c => [AVal.str [c]]) =
          ((frame.zip flags).filter (fun e => !e.2)).map (fun e => e.1.op.vals) := by
    intro frame
    induction frame with
    | nil =>
      intro flags h1 _
      have : flags = [] := List.eq_nil_of_length_eq_zero h1
      subst this
      exact ⟨[], rfl, rfl⟩
    | cons o os ih =>
      intro flags h1 h2
      cases flags with
      | nil => simp at h1
      | cons t ts =>
        obtain ⟨cps, e1, e2⟩ := ih ts (by simpa using h1) (fun i o' ha hb => h2 (i + 1) o' ha hb)
        cases t with
        | true => exact ⟨cps, by simp only [walk, if_true, e1], by simpa using e2⟩
        | false =>
          obtain ⟨hs, c, hc⟩ := h2 0 o rfl rfl
          refine ⟨c :: cps, ?_, ?_⟩
          · have : cpOf junk o = some c := by
              unfold cpOf; rw [hc]; simp [hs]
            simp only [walk, Bool.false_eq_true, if_false, this, e1, List.flatMap_cons]
          · simp only [List.map_cons, List.zip_cons_cons]
            rw [List.filter_cons_of_pos rfl, List.map_cons, e2, hc]
  obtain ⟨cps, e1, e2⟩ := key frame flags hl hchar
  exact ⟨cps, by unfold txtRead; rw [hscan]; exact e1, e2⟩

/-- A frame that is not accepted is not refused by the mapper: it reads past the flags. -/
theorem C54_error_ignored_partial : ∃ frame, (∃ s, scan (frame.map Shown.op) = .bad s) ∧
    txtRead (fun _ => 0) frame = .ub :=
  ⟨[⟨ins 2 1, true⟩], ⟨Status.BADARGS, by decide +kernel⟩, by decide +kernel⟩

example : txtRead (fun _ => 0) [⟨root, false⟩, ⟨ins 2 1, true⟩, ⟨rm 5 2, false⟩, ⟨ins 3 2, true⟩] =
    .ok [97] := by decide +kernel

end Ron.Props
