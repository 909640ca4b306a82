import Verif.Lemmas.Script
import Verif.Props.Copy
/-!
C83: splitting a test script.
-/
namespace Ron.Props
open Ron.Spec

/-- The script is split into these frames, `SplitTests`, with the status `OK`. -/
def SplitsTo (frame : List Byte) (texts : List (List Byte)) : Prop :=
  ∃ n, Script.splitTests n frame = .ok (some texts)

/-- C83: the tests of a script have together the ops of the script. -/
def C83_claim : Prop := ∀ (frame : List Byte) (ops : List OpView), Contents frame ops .endOfFrame →
  ∃ texts parts, SplitsTo frame texts ∧ Same2 (fun text part => Contents text part .endOfFrame) texts parts ∧
    parts.flatten = ops

/-- C83: a script that is split has been read to its end. -/
def C83_whole_claim : Prop := ∀ (frame : List Byte) (texts : List (List Byte)), SplitsTo frame texts →
  ∃ ops, Contents frame ops .endOfFrame

theorem splitLoop_mono : ∀ {n : Nat} {c : Cursor} {b : Builder} {ts r : List (List Byte)},
    Script.splitLoop n c b ts = .ok (some r) → ∀ k, Script.splitLoop (n + k) c b ts = .ok (some r) := by
  intro n
  induction n with
  | zero => intro c b ts r h; simp [Script.splitLoop] at h
  | succ n ih =>
    intro c b ts r h k
    rw [show n + 1 + k = n + k + 1 by omega]
    rw [Script.splitLoop] at h ⊢
    obtain ⟨x, e1, h⟩ := Cursor.bind_ok h
    rw [e1, Op.obind]
    split
    · rename_i h0; rwa [if_pos h0] at h
    · rename_i h0
      rw [if_neg h0] at h
      obtain ⟨s, e2, h⟩ := Cursor.bind_ok h
      obtain ⟨b1, e3, h⟩ := Cursor.bind_ok h
      obtain ⟨b2, e4, h⟩ := Cursor.bind_ok h
      rw [e2, Op.obind, e3, Op.obind, e4, Op.obind]
      exact ih h k

theorem splits_unique {frame : List Byte} {t t' : List (List Byte)} (h : SplitsTo frame t) (h' : SplitsTo frame t') :
    t' = t := by
  obtain ⟨n, h⟩ := h
  obtain ⟨n', h'⟩ := h'
  have e1 := splitLoop_mono h n'
  have e2 := splitLoop_mono h' n
  rw [Nat.add_comm, e1] at e2
  injection e2 with e2
  injection e2 with e2
  exact e2.symm

/-- All the ops of concrete frames. -/
def readAll (n : Nat) : List (List Byte) → Option (List (List OpView))
  | [] => some []
  | t :: ts =>
    match readOps n t with
    | .ok (some (l, .endOfFrame)) => (readAll n ts).map (l :: ·)
    | _ => none

theorem readAll_contents {n : Nat} : ∀ {ts : List (List Byte)} {ps : List (List OpView)}, readAll n ts = some ps →
    Same2 (fun text part => Contents text part .endOfFrame) ts ps
  | [], ps, h => by
    simp only [readAll, Option.some.injEq] at h
    subst h; exact .nil
  | t :: ts, ps, h => by
    unfold readAll at h
    split at h
    · rename_i l e
      obtain ⟨ps', h1, h⟩ := Option.map_eq_some_iff.1 h
      rw [← h]
      exact .cons (contents_of n e) (readAll_contents h1)
    · cases h

theorem same_contents {ts : List (List Byte)} {ps : List (List OpView)}
    (h : Same2 (fun text part => Contents text part .endOfFrame) ts ps) : ∀ {ps' : List (List OpView)},
    Same2 (fun text part => Contents text part .endOfFrame) ts ps' → ps' = ps := by
  induction h with
  | nil => intro ps' h'; cases h'; rfl
  | cons h _ ih =>
    intro ps' h'
    cases h' with
    | cons k k' => rw [ih k', (Chains.contents_unique h k).1]

/-- The tests of a concrete script have other ops than the script. -/
def missplit (frame : List Byte) : Bool :=
  match readOps 20 frame, Script.splitTests 20 frame with
  | .ok (some (l, .endOfFrame)), .ok (some ts) =>
    match readAll 20 ts with
    | some ps => decide (ps.flatten ≠ l)
    | none => false
  | _, _ => false

/-- Header, op, header, op: the second header refers to the op before it. -/
def script0 : List Byte := lit "@~ 'a' !\n@1+A :lww 1;\n@~ 'b' ?\n@2+A :lww 2;\n"

/-- C83 is violated: a header without a reference refers to the op before it, which is in another test; the
builder keeps the id of that op and leaves the reference out, so it becomes NIL. -/
theorem C83_violated : ¬ C83_claim := by
  have k : missplit script0 = true := by decide +kernel
  intro hc
  unfold missplit at k
  split at k
  · rename_i l ts h1 h2
    obtain ⟨texts, parts, a1, a2, a3⟩ := hc _ _ (contents_of 20 h1)
    rw [splits_unique ⟨20, h2⟩ a1] at a2
    split at k
    · rename_i ps h3
      rw [same_contents (readAll_contents h3) a2] at a3
      exact of_decide_eq_true k a3
    · cases k
  · cases k

/-- Tests with full stops between them, as in the scripts of the project. -/
def script1 : List Byte := lit "@~ 'a' !\n@1+A :lww 1;\n.\n@~ 'b' ?\n@2+A :lww 2;\n.\n"

/-- C83 is violated: what is after the first full stop is not read, the status is `OK`. -/
theorem C83_whole_violated : ¬ C83_whole_claim := by
  have k1 : ∃ ts, Script.splitTests 20 script1 = .ok (some ts) := by
    have : (match Script.splitTests 20 script1 with | .ok (some _) => true | _ => false) = true := by decide +kernel
    split at this
    · rename_i ts h; exact ⟨ts, h⟩
    · cases this
  have k2 : ∃ l, readOps 20 script1 = .ok (some (l, .badState)) := by
    have : (match readOps 20 script1 with | .ok (some (_, .badState)) => true | _ => false) = true := by decide +kernel
    split at this
    · rename_i l h; exact ⟨l, h⟩
    · cases this
  obtain ⟨ts, k1⟩ := k1
  obtain ⟨l, k2⟩ := k2
  intro hc
  obtain ⟨ops, h⟩ := hc _ ts ⟨20, k1⟩
  have := (Chains.contents_unique (contents_of 20 k2) h).2
  cases this

/-- C83: the script `s` of the grammar, to its end or to a full stop followed by anything, is split into its
tests, and each of them is a frame that has the ops of the test; a reference of its first op to the last op of
the test before it is NIL. Nothing is lost before the full stop, nothing is read after it. Missing from the
claim: the references; what is after the full stop; ops that are not copied as they are (C59); headers that
refer to NIL in other tests than the first, or have the id next to the one before; scripts of 10^9 bytes and more. -/
theorem C83_partial (s w e : List Byte) (l : List (Nat × OpView)) (q : Uuid) (hs : OpsText Uuid.NIL s l q)
    (hw : Blank w) (he : e = [] ∨ ∃ rest, e = 46 :: 10 :: rest) (hn : (s ++ (w ++ e)).length < 10 ^ 9 - 1)
    (hu : NoOverlong (s ++ (w ++ e))) (hv : ∀ x ∈ l, ∀ v ∈ x.2.vals, CopyOk v) (hl : l.length < 2 ^ 31)
    (ha : Apart Uuid.NIL (testsOf l))
    (hc : ∀ part ∈ freedAll Uuid.NIL (testsOf l), CleanFrom copyHeadOk (copySteps part)) :
    ∃ texts, SplitsTo (s ++ (w ++ e)) texts ∧
      Same2 (fun text part => FrameText Uuid.NIL text (saidBy (copySteps part)) ∧
        (text.length < 2 ^ 30 → Contents text (part.map Prod.snd) .endOfFrame))
        texts (freedAll Uuid.NIL (testsOf l)) := by
  obtain ⟨m, st, h1, h2⟩ := Script.script_trail hn hs hw he rfl
  obtain ⟨texts, t1, t2⟩ := Script.splitCurs_ok (Nat.lt_trans hn (by decide)) hu l.length (Nat.le_refl _) h2 hv
    (by omega) (b := Builder.init) (ts := []) rfl rfl ha hc
  refine ⟨texts, ⟨_, Script.splitLoop_curs h1 t1⟩, TextParser.same2_imp (fun text part h => ⟨h, fun ht => ?_⟩) t2⟩
  have := (C20_frames_partial text ht _ h).1
  rwa [Builder.saidBy_copy] at this

/-- The tests are the ops of the script, cut before each header. -/
theorem C83_tests (l : List (Nat × OpView)) : (testsOf l).flatten = l ∧
    (∀ t ∈ testsOf l, t ≠ [] ∧ ∀ y ∈ t.tail, isHead y = false) ∧
    ∀ t ∈ (testsOf l).tail, ∃ x r, t = x :: r ∧ isHead x = true :=
  ⟨Script.testsOf_flatten l, Script.testsOf_heads l, Script.testsOf_later l.length l (Nat.le_refl _)⟩

/-! ### a script -/

def scriptCalls : List Call :=
  [.op tilde Uuid.NIL [.str (lit "put")], .endChunk 2,
   .op (tid 5 1) (denote 0 (lit "lww") 0 []) [.int 1], .endChunk 0,
   .op tilde (tid 5 1) [.str (lit "look")], .endChunk 3,
   .op (tid 7 1) (tid 5 1) [.int 2], .endChunk 2]

def scriptText : List Byte := lit ("@~ 'put'!\n@0000000005+0000000001 :lww 1;\n" ++
    "@~ 'look'?\n@0000000007+0000000001 :0000000005+0000000001 2!\n")

theorem frame_parts {p : Uuid} {s : List Byte} {l : List (Nat × OpView)} (h : FrameText p s l) :
    ∃ pre w e q, s = pre ++ (w ++ e) ∧ OpsText p pre l q ∧ Blank w ∧ (e = [] ∨ e = [46, 10]) := by
  induction h with
  | @stop p w hw => exact ⟨[], w, [], p, by simp, .nil, hw, .inl rfl⟩
  | @dot p w hw => exact ⟨[], w, [46, 10], p, by simp, .nil, hw, .inr rfl⟩
  | op h hl _ ih =>
    obtain ⟨pre, w, e, q, rfl, h1, h2, h3⟩ := ih
    exact ⟨_, w, e, q, by rw [List.append_assoc], .cons h hl h1, h2, h3⟩

theorem scriptText_ops : ∃ pre w q, scriptText = pre ++ w ∧ OpsText Uuid.NIL pre (said fmt15 scriptCalls) q ∧
    Blank w := by
  obtain ⟨t, h1, h2, -⟩ := C22_partial fmt15 scriptCalls (cleanCalls_lit floats_15 (by decide +kernel)) (by decide)
  have : built fmt15 scriptCalls = .ok scriptText := by decide +kernel
  rw [this] at h1
  injection h1 with h1
  obtain ⟨pre, w, e, q, e1, e2, e3, e4⟩ := frame_parts h2
  rcases e4 with rfl | rfl
  · rw [List.append_nil] at e1
    exact ⟨pre, w, q, h1.trans e1, e2, e3⟩
  · exfalso
    rw [← h1, ← List.append_assoc] at e1
    have := congrArg (fun l => l.reverse[1]?) e1
    rw [show scriptText.reverse[1]? = some 33 by decide +kernel] at this
    simp at this

-- The script, and more of it after a full stop: two tests, one ends with the first header's op.
example (rest : List Byte) (hr : rest.length < 100) (ha : (rest.all fun c => decide (c.toNat < 128)) = true) :
    ∃ texts, SplitsTo (scriptText ++ 46 :: 10 :: rest) texts ∧ texts.length = 2 := by
  obtain ⟨pre, w, q, e, h1, h2⟩ := scriptText_ops
  have e' : scriptText ++ 46 :: 10 :: rest = pre ++ (w ++ 46 :: 10 :: rest) := by rw [e, List.append_assoc]
  have hv : ∀ x ∈ said fmt15 scriptCalls, ∀ v ∈ x.2.vals, CopyOk v :=
    fun x hx v hv => copy_lit (List.all_eq_true.1 (List.all_eq_true.1
      (show (said fmt15 scriptCalls).all (fun x => x.2.vals.all copyLit) = true by decide +kernel) x hx) v hv)
  have hlen : scriptText.length < 1000 := by decide +kernel
  obtain ⟨texts, t1, t2⟩ := C83_partial pre w (46 :: 10 :: rest) _ q h1 h2 (.inr ⟨rest, rfl⟩)
    (by rw [← e']; simp only [List.length_append, List.length_cons]; omega)
    (by
      rw [← e']
      apply ascii_noOverlong
      rw [List.all_append, List.all_cons, List.all_cons, ha]
      have : (scriptText.all fun c => decide (c.toNat < 128)) = true := by decide +kernel
      rw [this]; rfl) hv (by decide +kernel)
    ⟨fun x hx => by
      have : x = (2, ⟨tilde, Uuid.NIL, [.text (lit "put")]⟩) := by
        have : (testsOf (said fmt15 scriptCalls)).head?.bind List.head? = some (2, ⟨tilde, Uuid.NIL, [.text (lit "put")]⟩) := by
          decide +kernel
        exact Option.some.inj (hx.symm.trans this)
      rw [this]
      exact ⟨by decide, by decide, .inr rfl⟩, fun x hx => by
      have : x = (3, ⟨tilde, tid 5 1, [.text (lit "look")]⟩) := by
        have : (testsOf (said fmt15 scriptCalls))[1]?.bind List.head? = some (3, ⟨tilde, tid 5 1, [.text (lit "look")]⟩) := by
          decide +kernel
        exact Option.some.inj (hx.symm.trans this)
      rw [this]
      exact ⟨by decide, by decide, .inl (by decide)⟩, trivial⟩
    (fun part hp => clean_lit (List.all_eq_true.1
      (show (freedAll Uuid.NIL (testsOf (said fmt15 scriptCalls))).all (fun part =>
        cleanLit copyHeadOk Uuid.NIL [.uuid Uuid.FATAL] true false (copySteps part)) = true by decide +kernel) part hp))
  refine ⟨texts, by rw [e']; exact t1, ?_⟩
  have key : ∀ {α β : Type} {R : α → β → Prop} {a : List α} {b : List β}, Same2 R a b → a.length = b.length := by
    intro α β R a b h
    induction h with
    | nil => rfl
    | cons _ _ ih => simp [ih]
  rw [key t2]
  decide +kernel

end Ron.Props
