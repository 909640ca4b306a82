import Verif.Props.Builder
/-!
C72: one builder for many frames.
-/
namespace Ron.Props
open Ron.Spec

/-- The frame made by the second calls after the frame of the first ones was released. -/
def rebuilt (fmt : Word → List Byte) (first second : List Call) : Out (List Byte) :=
  (perform fmt first Builder.init).bind fun b => b.release.bind fun r =>
    (perform fmt second r.2).bind fun b => b.release.bind fun r => .ok r.1

/-- C72: the frame made by a builder after `Release` is the one a new builder makes. -/
def C72_claim : Prop := ∀ (fmt : Word → List Byte) (first second : List Call),
  CleanCalls fmt first → CleanCalls fmt second → rebuilt fmt first second = built fmt second

/-- Calls that make one op. -/
def one72 (n : Nat) : List Call := [.op (tid n 1) (tid (n - 1) 1) [.int 5]]

theorem clean72 (n : Nat) (h : n = 7 ∨ n = 8 ∨ n = 20) : CleanCalls (fun _ => []) (one72 n) := by
  constructor
  · intro id ref args hm
    simp only [one72, List.mem_singleton, Call.op.injEq] at hm
    obtain ⟨rfl, rfl, rfl⟩ := hm
    refine ⟨show 2 ^ 61 + 1 < 2 ^ 62 by decide, show 2 ^ 61 + 1 < 2 ^ 62 by decide, ?_, by decide⟩
    intro a ha
    simp only [List.mem_singleton] at ha
    subst ha
    exact (by decide : (-922337203685477580 : Int) ≤ 5 ∧ (5 : Int) < 2 ^ 63)
  · rcases h with rfl | rfl | rfl
    all_goals exact ⟨fun h => absurd h (by decide), fun h => absurd h (by decide), trivial⟩

/-- C72 is violated: the id of the last op of the frame before is taken as known. -/
theorem C72_violated : ¬ C72_claim := by
  intro h
  have := h (fun _ => []) (one72 7) (one72 8) (clean72 7 (by simp)) (clean72 8 (by simp))
  revert this
  decide +kernel

/-- The frame reads as another op. -/
theorem C72_read : ∃ text, rebuilt (fun _ => []) (one72 7) (one72 8) = .ok text ∧
    ∃ ops, Contents text ops .endOfFrame ∧ ops ≠ [⟨tid 8 1, tid 7 1, [.int 5]⟩] := by
  have k : (match rebuilt (fun _ => []) (one72 7) (one72 8) with
    | .ok t =>
      match readOps 20 t with
      | .ok (some (l, .endOfFrame)) => !decide (l = [⟨tid 8 1, tid 7 1, [.int 5]⟩])
      | _ => false
    | _ => false) = true := by decide +kernel
  split at k
  · rename_i t h1
    split at k
    · rename_i l h2
      exact ⟨t, h1, l, contents_of 20 h2, by simpa using k⟩
    · simp at k
  · simp at k

/-- The id of the last op of the calls, `NIL` if there is none. -/
def lastId : List Call → Uuid → Uuid
  | [], u => u
  | .op id _ _ :: l, _ => lastId l id
  | .endChunk _ :: l, u => lastId l u

theorem writeTerm_prevId {b b' : Builder} {t : Nat} (h : b.writeTerm t = .ok b') :
    b'.prevId = b.prevId ∧ b'.span = 0 := by
  unfold Builder.writeTerm at h
  split at h
  · rename_i hs
    cases h; exact ⟨rfl, hs⟩
  · obtain ⟨b1, h1, h⟩ := Cursor.bind_ok h
    cases h
    refine ⟨?_, rfl⟩
    split at h1
    · split at h1
      · obtain ⟨d, _, h1⟩ := Cursor.bind_ok h1
        cases h1; rfl
      · cases h1; rfl
    · cases h1; rfl

theorem writeSpec_prevId {b b' : Builder} {id ref : Uuid} (h : b.writeSpec id ref = .ok b') : b'.prevId = id := by
  unfold Builder.writeSpec at h
  obtain ⟨b1, h1, h⟩ := Cursor.bind_ok h
  cases h; rfl

theorem reopen_prevId {b b' : Builder} (h : b.reopen = .ok b') : b'.prevId = b.prevId := by
  unfold Builder.reopen at h
  split at h
  · cases h
  · obtain ⟨r, _, h⟩ := Cursor.bind_ok h
    cases h; rfl

theorem appendSrc_prevId {f : Atom → Out (List Byte)} {b b' : Builder} {s : Src} (h : b.appendSrc f s = .ok b') :
    ∃ id ref vals, s.op = id :: ref :: vals ∧ b'.prevId = id := by
  unfold Builder.appendSrc at h
  split at h
  · rename_i id ref vals e
    refine ⟨id, ref, vals, e, ?_⟩
    split at h
    · rename_i hs
      unfold Builder.isSameSpan at hs
      simp only [Bool.and_eq_true, decide_eq_true_eq] at hs
      unfold Builder.extendSpan at h
      obtain ⟨b2, h2, h⟩ := Cursor.bind_ok h
      have e2 : b2.prevId = b.prevId := by
        split at h2
        · unfold Builder.extendString at h2
          split at h2
          · cases h2
          · obtain ⟨b1, h1, h2⟩ := Cursor.bind_ok h2
            obtain ⟨r, _, h2⟩ := Cursor.bind_ok h2
            cases h2
            split at h1
            · exact (reopen_prevId h1 : b1.prevId = b.prevId)
            · cases h1; rfl
        · cases h2; rfl
      cases h
      show b2.prevId.inc = id
      rw [e2, hs.1.1.2]
    · obtain ⟨b1, _, h⟩ := Cursor.bind_ok h
      obtain ⟨b2, h2, h⟩ := Cursor.bind_ok h
      obtain ⟨d, _, h⟩ := Cursor.bind_ok h
      cases h
      exact (writeSpec_prevId h2 : b2.prevId = id)
  · cases h

theorem writeAtoms_spec : ∀ {args : List Arg} {o o' : Op} {id ref : Uuid} {vals : List Atom},
    o.atoms = id :: ref :: vals → Op.writeAtoms args o = .ok o' → ∃ vals', o'.atoms = id :: ref :: vals'
  | [], o, o', id, ref, vals, ho, h => by cases h; exact ⟨vals, ho⟩
  | a :: as, o, o', id, ref, vals, ho, h => by
    rw [Op.writeAtoms] at h
    obtain ⟨o1, h1, h⟩ := Cursor.bind_ok h
    have : ∃ v, o1.atoms = id :: ref :: v := by
      cases a with
      | str s =>
        simp only [Op.writeAtom] at h1
        obtain ⟨r, _, h1⟩ := Cursor.bind_ok h1
        split at h1 <;> (cases h1; rw [ho]; exact ⟨_, rfl⟩)
      | int i => cases h1; exact ⟨_, by rw [ho]; rfl⟩
      | uuid i => cases h1; exact ⟨_, by rw [ho]; rfl⟩
      | float i => cases h1; exact ⟨_, by rw [ho]; rfl⟩
    obtain ⟨v, hv⟩ := this
    exact writeAtoms_spec hv h

theorem perform_prevId {fmt : Word → List Byte} : ∀ {l : List Call} {b b' : Builder},
    perform fmt l b = .ok b' → b'.prevId = lastId l b.prevId
  | [], b, b', h => by cases h; rfl
  | .op id ref args :: l, b, b', h => by
    rw [perform] at h
    obtain ⟨o, h1, h⟩ := Cursor.bind_ok h
    obtain ⟨b1, h2, h⟩ := Cursor.bind_ok h
    rw [perform_prevId h]
    obtain ⟨id', ref', vals, e1, e2⟩ := appendSrc_prevId h2
    obtain ⟨v, hv⟩ := writeAtoms_spec (o := ⟨[id, ref], []⟩) (vals := []) rfl h1
    have : id' = id := by
      rw [show o.src.op = o.atoms from rfl, hv] at e1
      injection e1 with e1 _
      exact e1.symm
    rw [e2, this]
    rfl
  | .endChunk t :: l, b, b', h => by
    rw [perform] at h
    obtain ⟨b1, h1, h⟩ := Cursor.bind_ok h
    rw [perform_prevId h]
    unfold Builder.endChunk at h1
    split at h1
    · cases h1
    · rw [(writeTerm_prevId h1).1]
      rfl

theorem release_eq {b : Builder} {r : List Byte × Builder} (h : b.release = .ok r) :
    r.2.prevId = b.prevId ∧ r.2.span = 0 ∧ r.2.data = [] := by
  unfold Builder.release at h
  obtain ⟨b1, h1, h⟩ := Cursor.bind_ok h
  cases h
  split at h1
  · unfold Builder.endChunk at h1
    rw [if_neg (by decide)] at h1
    exact ⟨(writeTerm_prevId h1).1, (writeTerm_prevId h1).2, rfl⟩
  · rename_i hs
    cases h1
    exact ⟨rfl, by simpa using hs, rfl⟩

/-- The first op of a frame is written in full, if nothing of it is taken as known. -/
theorem appendSrc_first (f : Atom → Out (List Byte)) (s : Src) {id ref : Uuid} {vals : List Atom}
    (e : s.op = id :: ref :: vals) {b : Builder} (hs : b.span = 0) (hd : b.data = []) (hi : id ≠ b.prevId.inc)
    (hr : ref ≠ b.prevId) :
    b.appendSrc f s = (Builder.writeAll f vals).bind fun d =>
      .ok ⟨id, Builder.spanSignature s, 1, 64 :: id.str ++ ([32] ++ 58 :: ref.str) ++ d⟩ := by
  unfold Builder.appendSrc
  rw [e]
  simp only
  have h1 : Builder.isSameSpan b s id ref = false := by
    unfold Builder.isSameSpan
    simp [hr]
  rw [if_neg (by rw [h1]; decide)]
  have h2 : b.writeTerm 1 = .ok b := by unfold Builder.writeTerm; rw [if_pos hs]
  have h3 : b.writeSpec id ref = .ok ⟨id, b.prev2, 1, 64 :: id.str ++ ([32] ++ 58 :: ref.str)⟩ := by
    unfold Builder.writeSpec
    rw [h2, Op.obind]
    simp only [decide_eq_false hi, if_neg (Bool.false_ne_true), if_pos hr, Builder.write, hd, List.nil_append]
  rw [h2, Op.obind, h3, Op.obind]
  rfl

/-- C72 if the first op does not go on where the frame before stopped, nor where a new frame starts: the
same frame, or the same failure. Missing from the claim: the first ops taken as known, as shown above, or
made in full (with the id or the reference next to NIL), which read back all the same. -/
theorem C72_partial (fmt : Word → List Byte) (first : List Call) (id ref : Uuid) (args : List Arg)
    (second : List Call) (text : List Byte) (h : built fmt first = .ok text)
    (hi : id ≠ (lastId first Uuid.NIL).inc) (hr : ref ≠ lastId first Uuid.NIL)
    (hi' : id ≠ Uuid.NIL.inc) (hr' : ref ≠ Uuid.NIL) :
    rebuilt fmt first (.op id ref args :: second) = built fmt (.op id ref args :: second) := by
  unfold built at h
  obtain ⟨b, h1, h⟩ := Cursor.bind_ok h
  obtain ⟨r, h2, h⟩ := Cursor.bind_ok h
  unfold rebuilt built
  rw [h1, Op.obind, h2, Op.obind]
  have : perform fmt (.op id ref args :: second) r.2 = perform fmt (.op id ref args :: second) Builder.init := by
    rw [perform, perform]
    cases ho : Op.mk' id ref args with
    | abort => rfl
    | ub => rfl
    | ok o =>
      rw [Op.obind, Op.obind]
      obtain ⟨v, hv⟩ := writeAtoms_spec (o := ⟨[id, ref], []⟩) (vals := []) rfl ho
      obtain ⟨r1, r2, r3⟩ := release_eq h2
      have r4 : r.2.prevId = lastId first Uuid.NIL := by rw [r1, perform_prevId h1]; rfl
      unfold Builder.appendOp
      rw [appendSrc_first _ o.src (show o.src.op = _ from hv) r2 r3 (by rw [r4]; exact hi) (by rw [r4]; exact hr),
        appendSrc_first _ o.src (show o.src.op = _ from hv) (b := Builder.init) rfl rfl hi' hr']
  rw [this]

/-- The hypotheses of `C72_partial` are met. -/
example : (∃ text, built (fun _ => []) (one72 7) = .ok text) ∧ tid 20 1 ≠ (lastId (one72 7) Uuid.NIL).inc ∧
    tid 19 1 ≠ lastId (one72 7) Uuid.NIL ∧ tid 20 1 ≠ Uuid.NIL.inc ∧ tid 19 1 ≠ Uuid.NIL := by
  refine ⟨?_, by decide, by decide, by decide, by decide⟩
  obtain ⟨text, h, -⟩ := C22_partial (fun _ => []) (one72 7) (clean72 7 (by simp)) (by simp [one72])
  exact ⟨text, h⟩

end Ron.Props
