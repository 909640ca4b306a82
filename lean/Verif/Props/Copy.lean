import Verif.Lemmas.BuilderCopy
import Verif.Props.Builder
/-!
C59: copying a frame.
-/
namespace Ron.Props
open Ron.Spec

/-- The frame made by copying all the ops of a frame into a new builder, `AppendFrame`. -/
def Copied (frame text : List Byte) : Prop :=
  ∃ n b b', Builder.appendFrame n Builder.init frame = .ok (some b) ∧ b.release = .ok (text, b')

/-- C59: the copy of a frame has the ops of the frame. -/
def C59_claim : Prop := ∀ (frame : List Byte) (ops : List OpView), Contents frame ops .endOfFrame →
  ∃ text, Copied frame text ∧ Contents text ops .endOfFrame

/-! ### concrete frames -/

/-- The copy of the frame, for concrete frames. -/
def copyOf (n : Nat) (frame : List Byte) : Out (List Byte) :=
  (Builder.appendFrame n Builder.init frame).bind fun r => match r with
    | none => .abort
    | some b => b.release.bind fun x => .ok x.1

/-- The copy of a concrete frame is made, and has other ops. -/
def miscopied (frame : List Byte) : Bool :=
  match readOps 20 frame, copyOf 20 frame with
  | .ok (some (l, .endOfFrame)), .ok t =>
    match readOps 20 t with
    | .ok (some (l', st)) => !(decide (l' = l) && decide (st = .endOfFrame))
    | _ => false
  | _, _ => false

theorem copied_unique {frame t t' : List Byte} {n : Nat} (h : copyOf n frame = .ok t) (h' : Copied frame t') :
    t' = t := by
  unfold copyOf at h
  obtain ⟨r, e1, h⟩ := Cursor.bind_ok h
  cases r with
  | none => simp at h
  | some b =>
    obtain ⟨x, e2, h⟩ := Cursor.bind_ok h
    injection h with h
    obtain ⟨m, b1, b2, f1, f2⟩ := h'
    have : b1 = b := by
      unfold Builder.appendFrame at e1 f1
      obtain ⟨r, g1, e1⟩ := Cursor.bind_ok e1
      rw [g1, Op.obind] at f1
      split at e1
      · rename_i hr
        rw [if_pos hr] at f1
        have a1 := Builder.appendAll_mono e1 m
        have a2 := Builder.appendAll_mono f1 n
        rw [Nat.add_comm, a1] at a2
        injection a2 with a2
        injection a2 with a2
        exact a2.symm
      · rename_i hr
        rw [if_neg hr] at f1
        injection e1 with e1
        injection e1 with e1
        injection f1 with f1
        injection f1 with f1
        rw [← e1, ← f1]
    rw [this, e2] at f2
    injection f2 with f2
    rw [f2] at h
    exact h

theorem miscopies {frame : List Byte} (h : miscopied frame = true) : ¬ C59_claim := by
  intro hc
  unfold miscopied at h
  split at h
  · rename_i l t h1 h2
    obtain ⟨text, k1, k2⟩ := hc frame l (contents_of 20 h1)
    rw [copied_unique h2 k1] at k2
    split at h
    · rename_i l' st h3
      obtain ⟨e1, e2⟩ := Chains.contents_unique (contents_of 20 h3) k2
      rw [e1, e2] at h
      simp at h
    · simp at h
  · simp at h

/-- C59 is violated: every op of a run has the terminator of the run, so a chunk is ended after each of
them, and the characters after the first one are still folded with it. -/
theorem C59_violated : ¬ C59_claim :=
  miscopies (frame := lit "@1+A :2+A ('abc');\n") (by decide +kernel)

/-- C59 is violated: a float in its explicit form is copied without it, and reads as a UUID or
not at all. -/
theorem C59_float_violated : ¬ C59_claim :=
  miscopies (frame := lit "@1+A :2+A ^1e5;\n") (by decide +kernel)

/-- C59 is violated: a slash with a backslash begins a run. -/
theorem C59_slash_violated : ¬ C59_claim :=
  miscopies (frame := lit "@1+A :2+A '\\/', 'b';\n") (by decide +kernel)

/-- C59 is violated: the next id with a reference that is not to the op before. -/
theorem C59_reference_violated : ¬ C59_claim :=
  miscopies (frame := lit "@1+A :2+A 1;\n@1000000001+A :5+A 2;\n") (by decide +kernel)

/-! ### C59 -/

/-- Terminators that are copied as they are: the last op ends a chunk, and ops that are folded have
the same terminator. -/
def keptTerms : List (Nat × OpView) → Bool
  | [] => true
  | [x] => decide (x.1 ≠ 1)
  | x :: y :: l => (!(decide (x.1 = 1) && folds x.2.id x.2.vals y.2) || decide (y.1 = 1)) && keptTerms (y :: l)

theorem saidBy_kept : ∀ {l : List (Nat × OpView)}, keptTerms l = true → saidBy (copySteps l) = l
  | [], _ => rfl
  | [(t, o)], h => by
    have h : t ≠ 1 := of_decide_eq_true h
    simp [copySteps, h, saidBy, termAfter]
  | (t, o) :: (t', o') :: l, h => by
    rw [keptTerms, Bool.and_eq_true] at h
    have ih := saidBy_kept h.2
    have h1 : t = 1 → folds o.id o.vals o' = true → t' = 1 := by
      intro e1 e2
      have := h.1
      simp only [e1, e2] at this
      simpa using this
    have ht : termAfter o'.id o'.vals (copySteps ((t', o') :: l)).tail = t' := by
      have hi := ih
      rw [copySteps] at hi ⊢
      split at hi
      · rename_i h2
        rw [if_pos h2]
        rw [saidBy] at hi
        injection hi with hi _
        injection hi
      · rename_i h2
        rw [if_neg h2]
        rfl
    by_cases h2 : t = 1
    · rw [copySteps, if_pos h2, saidBy, ih]
      congr 1
      have e : copySteps ((t', o') :: l) = .op o' :: (copySteps ((t', o') :: l)).tail := by
        rw [copySteps]; split <;> rfl
      rw [e, termAfter, ht]
      cases hf : folds o.id o.vals o' with
      | true => rw [if_pos rfl, h1 h2 hf, h2]
      | false => rw [if_neg (by simp), h2]
    · rw [copySteps, if_neg h2, saidBy, saidBy, ih]
      rfl

/-- C59: a frame of the grammar is copied, and the copy is a frame of the grammar that reads as the same
ops; the terminators are the same as well if ops that are folded have equal ones and the frame does
not end with a comma. Missing from the claim: the frames of the violations above (`CopyOk`, `CleanFrom`);
folded runs of characters in overlong UTF-8; frames of 2^30 bytes, or of 2^31 ops, and more. -/
theorem C59_partial (frame : List Byte) (l : List (Nat × OpView)) (hf : FrameText Uuid.NIL frame l)
    (hn : frame.length < 2 ^ 30) (hu : NoOverlong frame) (hv : ∀ x ∈ l, ∀ v ∈ x.2.vals, CopyOk v)
    (hc : CleanFrom copyHeadOk (copySteps l)) (hl : l.length < 2 ^ 31) :
    ∃ text, Copied frame text ∧ FrameText Uuid.NIL text (saidBy (copySteps l)) ∧
      (text.length < 2 ^ 30 → Contents text (l.map Prod.snd) .endOfFrame ∧
        (keptTerms l = true → Reads text l)) := by
  obtain ⟨b, text, b', h1, h2, h3⟩ := Builder.copy_ok hf hn hu hv hc (by omega)
  refine ⟨text, ⟨_, b, b', h1, h2⟩, h3, fun ht => ?_⟩
  have hr := C20_frames_partial text ht _ h3
  refine ⟨?_, fun hk => ?_⟩
  · have := hr.1
    rwa [Builder.saidBy_copy] at this
  · rwa [saidBy_kept hk] at hr

theorem ascii_noOverlong : ∀ {s : List Byte}, (s.all fun c => decide (c.toNat < 128)) = true → NoOverlong s
  | [], _ => trivial
  | [a], h => by
    simp only [List.all_cons, Bool.and_eq_true, decide_eq_true_eq] at h
    exact ⟨by omega, by omega⟩
  | a :: b :: l, h => by
    rw [List.all_cons, Bool.and_eq_true, decide_eq_true_eq] at h
    exact ⟨by omega, by omega, by omega, by omega, ascii_noOverlong h.2⟩

/-- `CopyOk` for concrete values: UUIDs that do not start with a digit or a sign, floats with a
dot. -/
def copyLit : View → Bool
  | .int _ => true
  | .uuid u => match u.str with
      | [] => false
      | c :: _ => decide (57 < c.toNat)
  | .float t => t.contains 46
  | .text t => decide (t ≠ [0]) && decide (t ≠ [12])

theorem copy_lit {v : View} (h : copyLit v = true) : CopyOk v := by
  cases v with
  | int i => trivial
  | uuid u =>
    intro hx
    simp only [copyLit] at h
    cases hs : u.str with
    | nil => rw [hs] at h; simp at h
    | cons c t =>
      rw [hs] at h hx
      simp only [decide_eq_true_eq] at h
      rcases floatText_head hx with rfl | rfl | hd
      · simp at h
      · simp at h
      · have := hd.2; omega
  | float t =>
    rintro ⟨vr, v, ver, o, hx⟩
    unfold copyLit at h
    exact uuidText_no_dot hx (by simpa using h)
  | text t =>
    unfold copyLit at h
    simp only [Bool.and_eq_true, decide_eq_true_eq] at h
    exact h

-- A frame with a float, a string with a quote, a spread and a count, as `C22_partial` makes it.
def copyCalls : List Call :=
  [.op (tid 5 1) (denote 0 (lit "lww") 0 []) [.int (-5), .str (lit "it's"), .uuid (denote 0 (lit "abc") 0 []), .float 7#64],
   .endChunk 0,
   .op (tid 7 1) (tid 5 1) [.str (lit "a")], .op (tid 8 1) (tid 7 1) [.str (lit "\\")],
   .op (tid 9 1) (tid 8 1) [.str (lit "c")],
   .op (tid 10 1) (tid 9 1) [.uuid (denote 0 (lit "x") 0 [])],
   .op (tid 11 1) (tid 10 1) [.uuid (denote 0 (lit "x") 0 [])],
   .op (tid 12 1) (tid 11 1) []]

def copyFrame : List Byte := lit ("@0000000005+0000000001 :lww -5 'it\\'s' abc 1.5;\n" ++
    "@0000000007+0000000001 ('a\\\\c'),\n x(2),\n;\n")

def fmt15 : Word → List Byte := fun _ => lit "1.5"

theorem copyFrame_text : FrameText Uuid.NIL copyFrame (said fmt15 copyCalls) := by
  obtain ⟨t, h1, h2, -⟩ := C22_partial fmt15 copyCalls (cleanCalls_lit floats_15 (by decide +kernel)) (by decide)
  have : built fmt15 copyCalls = .ok copyFrame := by decide +kernel
  rw [this] at h1
  injection h1 with h1
  rw [h1]; exact h2

example : ∃ text, Copied copyFrame text ∧ FrameText Uuid.NIL text (saidBy (copySteps (said fmt15 copyCalls))) := by
  obtain ⟨t, h1, h2, -⟩ := C59_partial copyFrame _ copyFrame_text (by decide +kernel)
    (ascii_noOverlong (by decide +kernel))
    (fun x hx v hv => copy_lit (List.all_eq_true.1 (List.all_eq_true.1
      (show (said fmt15 copyCalls).all (fun x => x.2.vals.all copyLit) = true by decide +kernel) x hx) v hv))
    (clean_lit (by decide +kernel)) (by decide +kernel)
  exact ⟨t, h1, h2⟩
example : keptTerms (said fmt15 copyCalls) = true := by decide +kernel
example : copyOf 20 copyFrame = .ok copyFrame := by decide +kernel

end Ron.Props
