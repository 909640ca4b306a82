import Verif.Lemmas.TextMerge
import Verif.Props.Copy
/-!
C84: merging frames as text.
-/
namespace Ron.Props
open Ron.Spec

/-- The reducer of the form MAX, which is left open. -/
abbrev MaxReducer := Builder → List Cursor → Out (Option (Builder × Status))

/-- Merging the frames ends with the status and the frame. -/
def Merges (mx : MaxReducer) (frames : List (List Byte)) (r : Status × List Byte) : Prop :=
  ∃ n, TextMerge.mergeFrames mx n frames = .ok (some r)

/-- The same, with a form that is given. -/
def MergesAs (mx : MaxReducer) (f : Form) (frames : List (List Byte)) (r : Status × List Byte) : Prop :=
  ∃ n cs, TextMerge.firsts frames = .ok cs ∧ TextMerge.mergeCursors mx n f cs = .ok (some r)

/-- The ops of a frame begin with the header of an object of the form. -/
def Headed (u : Uuid) (ops : List OpView) : Prop := ∃ o l, ops = o :: l ∧ o.ref = u

/-- `lww`. -/
def lwwName : Uuid := denote 0 (lit "lww") 0 []

/-- C84: states of an LWW object, as frames, are merged to a frame that reads as all the ops of them, each once,
in the order of ids. -/
def C84_claim : Prop := ∀ (mx : MaxReducer) (ins : List (List Byte × List OpView)), ins ≠ [] →
  (∀ i ∈ ins, Contents i.1 i.2 .endOfFrame ∧ Headed lwwName i.2 ∧ i.2.Pairwise fun a b => Uuid.lt a.id b.id = true) →
  (∀ i ∈ ins, ∀ x ∈ i.2, ∀ j ∈ ins, ∀ y ∈ j.2, x.id = y.id → x = y) →
  ∃ text out, Merges mx (ins.map Prod.fst) (Status.OK, text) ∧ Contents text out .endOfFrame ∧
    (out.Pairwise fun a b => Uuid.lt a.id b.id = true) ∧ ∀ o, o ∈ out ↔ ∃ i ∈ ins, o ∈ i.2

/-- C84: a frame with an error is not merged as if it had none. -/
def C84_error_claim : Prop := ∀ (mx : MaxReducer) (frames : List (List Byte)) (text : List Byte),
  Merges mx frames (Status.OK, text) → ∀ f ∈ frames, ∃ ops, Contents f ops .endOfFrame

/-- There is one result. -/
theorem merges_unique {mx : MaxReducer} {frames : List (List Byte)} {r r' : Status × List Byte} (h : Merges mx frames r)
    (h' : Merges mx frames r') : r = r' := by
  obtain ⟨n, h⟩ := h
  obtain ⟨m, h'⟩ := h'
  have a := TextMerge.mergeFrames_mono h m
  have b := TextMerge.mergeFrames_mono h' n
  rw [Nat.add_comm, a] at b
  injection b with b
  injection b

/-! ### C84 is violated -/

/-- `mergeFrames` for frames that are not of the form MAX. -/
def noMax : MaxReducer := fun _ _ => .abort

def bad84a : List Byte := lit "@1+A :lww;\n@1000000001+A :1+A 'x' 1;\n"
def bad84b : List Byte := lit "@1+A :lww;\n@1000000002+A :1+A 'y' 2;\n"

/-- The frames have their ops in order; they are merged, and the frame has other ops. -/
def mismerged (a b : List Byte) : Bool :=
  match readOps 20 a, readOps 20 b, TextMerge.mergeFrames noMax 20 [a, b] with
  | .ok (some (l, .endOfFrame)), .ok (some (m, .endOfFrame)), .ok (some (_, t)) =>
    match l, m with
    | [x, y], [x', z] =>
      decide (x = x') && decide (x.ref = lwwName) && Uuid.lt x.id y.id && Uuid.lt y.id z.id &&
      (match readOps 20 t with
       | .ok (some (l', _)) => !(l'.contains z)
       | _ => false)
    | _, _ => false
  | _, _, _ => false

/-- C84 is violated: the merged state has an op of the next id after the one before it, with a reference to the
header; only the reference is written, and the op reads as another. -/
theorem C84_violated : ¬ C84_claim := by
  intro hc
  have k : mismerged bad84a bad84b = true := by decide +kernel
  unfold mismerged at k
  split at k
  · rename_i l m st t h1 h2 h3
    split at k
    · rename_i x y x' z
      simp only [Bool.and_eq_true, decide_eq_true_eq] at k
      obtain ⟨⟨⟨⟨rfl, k1⟩, k2⟩, k3⟩, k4⟩ := k
      have l1 := Rdt.uuid_lin
      have k5 : Uuid.lt x.id z.id = true := l1.trans _ _ _ k2 k3
      have ne : ∀ {u v : Uuid}, Uuid.lt u v = true → u ≠ v := by
        rintro u v h rfl; rw [l1.irrefl] at h; cases h
      obtain ⟨text, out, g1, g2, -, g3⟩ := hc noMax [(bad84a, [x, y]), (bad84b, [x, z])] (by simp) (by
          intro i hi
          simp only [List.mem_cons, List.not_mem_nil, or_false] at hi
          rcases hi with rfl | rfl
          · exact ⟨contents_of 20 h1, ⟨x, _, rfl, k1⟩, by simpa using k2⟩
          · exact ⟨contents_of 20 h2, ⟨x, _, rfl, k1⟩, by simpa using k5⟩) (by
          intro i hi a ha j hj b hb e
          simp only [List.mem_cons, List.not_mem_nil, or_false] at hi hj
          have m1 : a = x ∨ a = y ∨ a = z := by
            rcases hi with rfl | rfl <;> simp only [List.mem_cons, List.not_mem_nil, or_false] at ha <;> grind
          have m2 : b = x ∨ b = y ∨ b = z := by
            rcases hj with rfl | rfl <;> simp only [List.mem_cons, List.not_mem_nil, or_false] at hb <;> grind
          have n1 := ne k2
          have n2 := ne k3
          have n3 := ne k5
          rcases m1 with rfl | rfl | rfl <;> rcases m2 with rfl | rfl | rfl <;> grind)
      have e := merges_unique g1 ⟨20, h3⟩
      injection e with e1 e2
      subst e2
      split at k4
      · rename_i l' st' h4
        obtain ⟨rfl, -⟩ := Chains.contents_unique g2 (contents_of 20 h4)
        have : z ∈ out := (g3 z).2 ⟨(bad84b, [x, z]), by simp, by simp⟩
        simp [this] at k4
      · cases k4
    · cases k
  · cases k

def bad84c : List Byte := lit "@1+A :lww;\n@3+A :1+A 'x' 1;\n@5+A :1+A #'y' 2;\n"

/-- C84 is violated: what comes after an error is dropped, and the status is OK. -/
theorem C84_error_violated : ¬ C84_error_claim := by
  intro hc
  have k : (match TextMerge.mergeFrames noMax 20 [bad84b, bad84c], readOps 20 bad84c with
    | .ok (some (st, _)), .ok (some (_, e)) => decide (st = Status.OK) && decide (e ≠ .endOfFrame)
    | _, _ => false) = true := by decide +kernel
  split at k
  · rename_i st t ops e h1 h2
    simp only [Bool.and_eq_true, decide_eq_true_eq] at k
    obtain ⟨rfl, k⟩ := k
    obtain ⟨ops', h⟩ := hc noMax _ t ⟨20, h1⟩ bad84c (by simp)
    exact k (Chains.contents_unique (contents_of 20 h2) h).2
  · cases k

/-! ### what merges do -/

theorem mergesAs_ok {mx : MaxReducer} {n : Nat} {f : Form} {frames : List (List Byte)} {cs : List Cursor} {b b' : Builder}
    {text : List Byte} (h1 : TextMerge.firsts frames = .ok cs)
    (h2 : TextMerge.master mx n f Builder.init cs = .ok (some (b, Status.OK))) (h3 : b.release = .ok (text, b')) :
    MergesAs mx f frames (Status.OK, text) := by
  refine ⟨n, cs, h1, ?_⟩
  unfold TextMerge.mergeCursors
  rw [h2, Op.obind]
  simp only
  rw [if_pos (by decide), h3, Op.obind]

/-- C84: frames of the grammar in the order of ids, of the forms LWW, MX, YARN and META, are merged with the status
OK to a frame of the grammar that reads as all the ops of the frames, each once, in the order of ids. Missing from the
claim: the frames of the violations above and of C59 (`Copyable`, `CleanFrom`); frames of 2^30 bytes or 2^31 ops, and
more. -/
theorem C84_union_partial (mx : MaxReducer) (f : Form)
    (hf : f = Form.LWW ∨ f = Form.MX ∨ f = Form.YARN ∨ f = Form.META) (ins : List (List Byte × List (Nat × OpView)))
    (hi : ∀ i ∈ ins, Copyable i) (hs : OrderedFrames ins) (h1 : OneOpPerId ins) (out : List OpView)
    (ho : UnionOf ins out) (hc : CleanFrom copyHeadOk (mergedSteps out)) (hl : out.length < 2 ^ 31) :
    ∃ text, MergesAs mx f (ins.map Prod.fst) (Status.OK, text) ∧ FrameText Uuid.NIL text (saidBy (mergedSteps out)) ∧
      NoOverlong text ∧ (text.length < 2 ^ 30 → Contents text out .endOfFrame) := by
  obtain ⟨cs, e1, hcs⟩ := TextMerge.firsts_ok hi
  have hread : ∀ {text}, FrameText Uuid.NIL text (saidBy (mergedSteps out)) → text.length < 2 ^ 30 →
      Contents text out .endOfFrame := by
    intro text h ht
    have := (C20_frames_partial text ht _ h).1
    rwa [TextMerge.saidBy_merged] at this
  by_cases hm : f = Form.META
  · obtain ⟨n, b, text, b', a1, a2, a3, a4⟩ := TextMerge.union_ok TextMerge.meta_sim TextMerge.metaOrd_keyed hs h1 ho hcs hc hl
    refine ⟨text, mergesAs_ok (n := n) e1 ?_ a2, a3, a4, hread a3⟩
    subst hm
    show TextMerge.okay _ = _
    rw [a1]; rfl
  · obtain ⟨n, b, text, b', a1, a2, a3, a4⟩ := TextMerge.union_ok TextMerge.at_sim TextMerge.idOrd_keyed hs h1 ho hcs hc hl
    refine ⟨text, mergesAs_ok (n := n) e1 ?_ a2, a3, a4, hread a3⟩
    rcases hf with rfl | rfl | rfl | rfl
    · show TextMerge.okay _ = _
      rw [a1]; rfl
    · show TextMerge.okay _ = _
      rw [a1]; rfl
    · show TextMerge.okay _ = _
      rw [a1]; rfl
    · exact absurd rfl hm

theorem copySteps_length (l : List (Nat × OpView)) : (copySteps l).length ≤ 2 * l.length := by
  induction l with
  | nil => simp [copySteps]
  | cons x l ih =>
    obtain ⟨t, o⟩ := x
    rw [copySteps]
    split <;> simp only [List.length_cons] <;> omega

/-- C84: logs are put one after another. -/
theorem C84_log_partial (mx : MaxReducer) (ins : List (List Byte × List (Nat × OpView))) (hi : ∀ i ∈ ins, Copyable i)
    (hc : CleanFrom copyHeadOk (copySteps (ins.map Prod.snd).flatten))
    (hl : (ins.map Prod.snd).flatten.length < 2 ^ 31) :
    ∃ text, MergesAs mx Form.LOG (ins.map Prod.fst) (Status.OK, text) ∧
      (text.length < 2 ^ 30 → Contents text (allOps ins) .endOfFrame) := by
  obtain ⟨cs, e1, hcs⟩ := TextMerge.firsts_ok hi
  obtain ⟨ws, N0, g1, g2⟩ := TextMerge.log_ok hcs
  have hfl : ((ins.map Prod.snd).filter fun l => !l.isEmpty).flatten = (ins.map Prod.snd).flatten := by
    induction ins.map Prod.snd with
    | nil => rfl
    | cons a l ih => cases a <;> simp [ih]
  rw [hfl] at g1
  obtain ⟨b, text, b', w1, w2, w3⟩ := Builder.work_ok g1 hc (by
    have := copySteps_length (ins.map Prod.snd).flatten
    omega)
  refine ⟨text, mergesAs_ok (n := N0) e1 ?_ w2, fun ht => ?_⟩
  · show TextMerge.okay _ = _
    rw [g2 _ _ w1 N0 (Nat.le_refl _)]; rfl
  · have := (C20_frames_partial text ht _ w3).1
    rw [Builder.saidBy_copy] at this
    unfold allOps
    rwa [List.map_flatten, List.map_map] at this

/-- C84: pieces of a tree of an RGA object, up to three, are merged to the weave of the tree. Missing: pieces that share
ops (`C30_violated`), and what is missing from `C84_union_partial`. -/
theorem C84_rga_partial (mx : MaxReducer) (root : Uuid) (ins : List (List Byte × List (Nat × OpView)))
    (hi : ∀ i ∈ ins, Copyable i) (ht : Tree ((allOps ins).map shape) root)
    (hp : ∀ i ∈ ins, i.2 ≠ [] ∧ Piece ((allOps ins).map shape) root (i.2.map fun x => shape x.2))
    (h3 : ins.length ≤ 3) (hne : ins ≠ []) (w : List OpView) (hw : w.Perm (allOps ins))
    (ho : InOrder ((allOps ins).map shape) root (w.map shape)) (hc : CleanFrom copyHeadOk (mergedSteps w))
    (hl : w.length < 2 ^ 31) :
    ∃ text, MergesAs mx Form.RGA (ins.map Prod.fst) (Status.OK, text) ∧ FrameText Uuid.NIL text (saidBy (mergedSteps w)) ∧
      (text.length < 2 ^ 30 → Contents text w .endOfFrame) := by
  obtain ⟨cs, e1, hcs⟩ := TextMerge.firsts_ok hi
  obtain ⟨n, b, text, b', a1, a2, a3, -⟩ := TextMerge.weave_ok ht hp h3 hne hw ho hcs hc hl
  refine ⟨text, mergesAs_ok (n := n) e1 a1 a2, a3, fun ht => ?_⟩
  have := (C20_frames_partial text ht _ a3).1
  rwa [TextMerge.saidBy_merged] at this

/-- C84: no more than three of them. -/
theorem C84_rga_many (mx : MaxReducer) (ins : List (List Byte × List (Nat × OpView))) (hi : ∀ i ∈ ins, Copyable i)
    (h3 : 3 < (ins.filter fun i => !i.2.isEmpty).length) :
    MergesAs mx Form.RGA (ins.map Prod.fst) (Status.NOT_IMPLEMENTED, []) := by
  obtain ⟨cs, e1, hcs⟩ := TextMerge.firsts_ok hi
  refine ⟨0, cs, e1, ?_⟩
  have hlen := TextMerge.same2_length hcs
  have : ((ins.map Prod.snd).filter fun l => !l.isEmpty).length = (ins.filter fun i => !i.2.isEmpty).length := by
    rw [List.filter_map, List.length_map]; rfl
  unfold TextMerge.mergeCursors
  have e2 : TextMerge.master mx 0 Form.RGA Builder.init cs = .ok (some (Builder.init, Status.NOT_IMPLEMENTED)) := by
    show TextMerge.rga 0 Builder.init cs = _
    unfold TextMerge.rga
    rw [if_pos (by omega)]
  rw [e2, Op.obind]
  simp only
  rw [if_neg (by decide)]

/-- C84: the form is named by the references of the first ops: if there is one name among them, of the form of it. -/
theorem C84_form (mx : MaxReducer) (u : Uuid) (hu : u.version = Uuid.vNAME) (hz : u.zero = false)
    (ins : List (List Byte × List (Nat × OpView))) (hi : ∀ i ∈ ins, Copyable i)
    (h1 : ∀ i ∈ ins, ∀ x, i.2.head? = some x → x.2.ref.version = Uuid.vNAME → x.2.ref = u)
    (h2 : ∃ i ∈ ins, ∃ x, i.2.head? = some x ∧ x.2.ref = u) (r : Status × List Byte) :
    Merges mx (ins.map Prod.fst) r ↔ MergesAs mx (uuid2form u) (ins.map Prod.fst) r := by
  obtain ⟨cs, e1, hcs⟩ := TextMerge.firsts_ok hi
  have hform : TextMerge.getForm Uuid.NIL cs = .ok (some (uuid2form u)) := by
    rw [TextMerge.getForm_ok (fun _ => .uuid Uuid.NIL) hcs, TextMerge.getForm_name hu hz]
    · congr 3
      refine if_pos ?_
      obtain ⟨i, hi, x, hx, e⟩ := h2
      refine ⟨_, List.mem_map.2 ⟨i.2, List.mem_filter.2 ⟨List.mem_map.2 ⟨i, hi, rfl⟩, ?_⟩, rfl⟩, TextMerge.opOf (fun _ => .uuid Uuid.NIL) x, ?_, e⟩
      · cases h : i.2 with
        | nil => rw [h] at hx; simp at hx
        | cons a l => rfl
      · rw [List.head?_map, hx]; rfl
    · intro l hl o ho hv
      obtain ⟨l', hl', rfl⟩ := List.mem_map.1 hl
      obtain ⟨i, hi, rfl⟩ := List.mem_map.1 (List.mem_filter.1 hl').1
      rw [List.head?_map] at ho
      cases h : i.2.head? with
      | none => rw [h] at ho; simp at ho
      | some x =>
        rw [h] at ho
        injection ho with ho
        subst ho
        exact h1 i hi x h hv
    · right; decide
  unfold Merges MergesAs TextMerge.mergeFrames
  constructor
  · rintro ⟨n, h⟩
    rw [e1, Op.obind, hform, Op.obind] at h
    exact ⟨n, cs, e1, h⟩
  · rintro ⟨n, cs', e', h⟩
    rw [e1] at e'
    injection e' with e'
    subst e'
    refine ⟨n, ?_⟩
    rw [e1, Op.obind, hform, Op.obind]
    exact h

/-- C84: frames of two forms are refused. -/
theorem C84_two_forms (mx : MaxReducer) (ins : List (List Byte × List (Nat × OpView))) (hi : ∀ i ∈ ins, Copyable i)
    (u v : Uuid) (hu : u.version = Uuid.vNAME) (hv : v.version = Uuid.vNAME) (zu : u.zero = false) (zv : v.zero = false)
    (hne : u ≠ v) (h1 : ∃ i ∈ ins, ∃ x, i.2.head? = some x ∧ x.2.ref = u)
    (h2 : ∃ i ∈ ins, ∃ x, i.2.head? = some x ∧ x.2.ref = v) :
    Merges mx (ins.map Prod.fst) (Status.BADARGS, []) := by
  obtain ⟨cs, e1, hcs⟩ := TextMerge.firsts_ok hi
  have names : ∀ {w : Uuid}, (∃ i ∈ ins, ∃ x, i.2.head? = some x ∧ x.2.ref = w) →
      TextMerge.Names (((ins.map Prod.snd).filter fun l => !l.isEmpty).map
        (List.map (TextMerge.opOf fun _ => .uuid Uuid.NIL))) w := by
    rintro w ⟨i, hi, x, hx, e⟩
    refine ⟨_, List.mem_map.2 ⟨i.2, List.mem_filter.2 ⟨List.mem_map.2 ⟨i, hi, rfl⟩, ?_⟩, rfl⟩,
      TextMerge.opOf (fun _ => .uuid Uuid.NIL) x, ?_, e⟩
    · cases h : i.2 with
      | nil => rw [h] at hx; simp at hx
      | cons a l => rfl
    · rw [List.head?_map, hx]; rfl
  refine ⟨0, ?_⟩
  unfold TextMerge.mergeFrames
  rw [e1, Op.obind, TextMerge.getForm_ok (fun _ => .uuid Uuid.NIL) hcs,
    TextMerge.getForm_clash hu hv zu zv hne (by decide) (names h1) (names h2), Op.obind]

/-- C84: of frames without a form the last one that has ops is kept. -/
theorem C84_last_partial (mx : MaxReducer) (f : Form) (hf : f = Form.ZERO ∨ f = Form.ERROR)
    (ins : List (List Byte × List (Nat × OpView))) (hi : ∀ i ∈ ins, Copyable i) (i : List Byte × List (Nat × OpView))
    (hl : (ins.filter fun i => !i.2.isEmpty).getLast? = some i) (hc : CleanFrom copyHeadOk (copySteps i.2))
    (hn : i.2.length < 2 ^ 31) :
    ∃ text, MergesAs mx f (ins.map Prod.fst) (Status.OK, text) ∧
      (text.length < 2 ^ 30 → Contents text (i.2.map Prod.snd) .endOfFrame) := by
  obtain ⟨cs, e1, hcs⟩ := TextMerge.firsts_ok hi
  obtain ⟨ws, N0, g1, g2⟩ := TextMerge.keepLast_ok hcs
  have hlast : ((ins.map Prod.snd).filter fun l => !l.isEmpty).getLast?.getD [] = i.2 := by
    rw [List.filter_map, List.getLast?_map]
    show ((ins.filter fun i => !i.2.isEmpty).getLast?.map Prod.snd).getD [] = i.2
    rw [hl]; rfl
  rw [hlast] at g1
  obtain ⟨b, text, b', w1, w2, w3⟩ := Builder.work_ok g1 hc (by
    have := copySteps_length i.2
    omega)
  refine ⟨text, mergesAs_ok (n := N0) e1 ?_ w2, fun ht => ?_⟩
  · rcases hf with rfl | rfl
    · show TextMerge.okay _ = _
      rw [g2 _ _ w1 N0 (Nat.le_refl _)]; rfl
    · show TextMerge.okay _ = _
      rw [g2 _ _ w1 N0 (Nat.le_refl _)]; rfl
  · have := (C20_frames_partial text ht _ w3).1
    rwa [Builder.saidBy_copy] at this

/-! ### concrete frames -/

/-- Frames as the builder makes them. -/
def frame84 (calls : List Call) : List Byte × List (Nat × OpView) :=
  (match built fmt15 calls with | .ok t => t | _ => [], said fmt15 calls)

/-- The frame can be copied, for concrete frames. -/
def copyable84 (calls : List Call) : Bool :=
  cleanCallsLit fmt15 calls && decide (calls.length < 100) &&
  decide ((frame84 calls).1.length < 2 ^ 30) && ((frame84 calls).1.all fun c => decide (c.toNat < 128)) &&
  (said fmt15 calls).all fun x => x.2.vals.all copyLit

theorem copyable_lit {calls : List Call} (h : copyable84 calls = true) : Copyable (frame84 calls) := by
  unfold copyable84 at h
  simp only [Bool.and_eq_true, decide_eq_true_eq] at h
  obtain ⟨⟨⟨⟨h1, h2⟩, h3⟩, h4⟩, h5⟩ := h
  refine ⟨?_, h3, ascii_noOverlong h4, fun x hx v hv => copy_lit (List.all_eq_true.1 (List.all_eq_true.1 h5 x hx) v hv)⟩
  obtain ⟨t, e, h, -⟩ := C22_partial fmt15 calls (cleanCalls_lit floats_15 h1) (by omega)
  unfold frame84
  rw [e]
  exact h

def head84 : Call := .op (tid 5 1) lwwName []
def a84 : List Call := [head84, .op (tid 7 1) (tid 5 1) [.uuid (denote 0 (lit "abc") 0 []), .int 1],
  .op (tid 11 1) (tid 5 1) [.uuid (denote 0 (lit "abc") 0 []), .str (lit "it's")], .endChunk 0]
def b84 : List Call := [head84, .op (tid 9 1) (tid 5 1) [.uuid (denote 0 (lit "x") 0 []), .float 7#64], .endChunk 0]
def ins84 : List (List Byte × List (Nat × OpView)) := [frame84 b84, frame84 a84, frame84 []]
def out84 : List OpView := (steps fmt15 [a84[0], a84[1], b84[1], a84[2]]).filterMap fun s =>
  match s with | .op o => some o | _ => none

theorem ins84_copyable : ∀ i ∈ ins84, Copyable i := by
  intro i hi
  simp only [ins84, List.mem_cons, List.not_mem_nil, or_false] at hi
  rcases hi with rfl | rfl | rfl <;> exact copyable_lit (by decide +kernel)

theorem union84 : UnionOf ins84 out84 := by
  refine ⟨by decide +kernel, fun o => ?_⟩
  have e : ∀ o, o ∈ out84 ↔ o ∈ (ins84.map fun i => i.2.map Prod.snd).flatten := by
    have k1 : (out84.all fun o => (ins84.map fun i => i.2.map Prod.snd).flatten.contains o) = true := by decide +kernel
    have k2 : ((ins84.map fun i => i.2.map Prod.snd).flatten.all fun o => out84.contains o) = true := by decide +kernel
    intro o
    constructor
    · intro h; simpa using List.all_eq_true.1 k1 o h
    · intro h; simpa using List.all_eq_true.1 k2 o h
  rw [e]
  simp only [List.mem_flatten, List.mem_map]
  constructor
  · rintro ⟨_, ⟨i, hi, rfl⟩, ho⟩
    obtain ⟨x, hx, rfl⟩ := List.mem_map.1 ho
    exact ⟨i, hi, x, hx, rfl⟩
  · rintro ⟨i, hi, x, hx, rfl⟩
    exact ⟨_, ⟨i, hi, rfl⟩, List.mem_map.2 ⟨x, hx, rfl⟩⟩

-- The hypotheses of `C84_union_partial` hold for two states of an object and an empty frame, out of order.
example : OrderedFrames ins84 ∧ OneOpPerId ins84 ∧ CleanFrom copyHeadOk (mergedSteps out84) ∧ out84.length = 4 := by
  refine ⟨?_, ?_, clean_lit (by decide +kernel), by decide +kernel⟩
  · have k : (ins84.all fun i => decide (i.2.Pairwise fun a b => Uuid.lt a.2.id b.2.id = true)) = true := by
      decide +kernel
    intro i hi
    exact of_decide_eq_true (List.all_eq_true.1 k i hi)
  · have k : ((ins84.map Prod.snd).flatten.all fun x => (ins84.map Prod.snd).flatten.all fun y =>
        decide (x.2.id = y.2.id → x.2 = y.2)) = true := by decide +kernel
    intro i hi x hx j hj y hy
    exact of_decide_eq_true (List.all_eq_true.1 (List.all_eq_true.1 k x
      (List.mem_flatten.2 ⟨_, List.mem_map.2 ⟨i, hi, rfl⟩, hx⟩)) y
      (List.mem_flatten.2 ⟨_, List.mem_map.2 ⟨j, hj, rfl⟩, hy⟩))

-- The merge of them.
example : TextMerge.mergeFrames noMax 20 (ins84.map Prod.fst) = .ok (some (Status.OK,
    lit ("@0000000005+0000000001 :lww,\n@0000000007+0000000001 abc 1,\n" ++
      "@0000000009+0000000001 :0000000005+0000000001 x 1.5,\n" ++
      "@000000000B+0000000001 :0000000005+0000000001 abc 'it\\'s';\n"))) := by decide +kernel

-- Those of `C84_log_partial`.
example : CleanFrom copyHeadOk (copySteps (ins84.map Prod.snd).flatten) := clean_lit (by decide +kernel)

-- Those of `C84_form`.
example : lwwName.version = Uuid.vNAME ∧ lwwName.zero = false ∧ uuid2form lwwName = Form.LWW ∧
    (∀ i ∈ ins84, ∀ x, i.2.head? = some x → x.2.ref.version = Uuid.vNAME → x.2.ref = lwwName) ∧
    ∃ i ∈ ins84, ∃ x, i.2.head? = some x ∧ x.2.ref = lwwName := by
  refine ⟨by decide +kernel, by decide +kernel, by decide +kernel, ?_, ?_⟩
  · have k : (ins84.all fun i => match i.2.head? with | some x => decide (x.2.ref = lwwName) | none => true) = true := by
      decide +kernel
    intro i hi x hx _
    have := List.all_eq_true.1 k i hi
    rw [hx] at this
    exact of_decide_eq_true this
  · have k : (match (frame84 b84).2.head? with | some x => decide (x.2.ref = lwwName) | none => false) = true := by
      decide +kernel
    split at k
    · rename_i x hx
      exact ⟨frame84 b84, by simp [ins84], x, hx, of_decide_eq_true k⟩
    · cases k

/-- A tree: the root with two children, in two pieces. -/
def r84 : List Call := [.op (tid 5 1) (denote 0 (lit "rga") 0 []) [], .op (tid 7 1) (tid 5 1) [.str (lit "b")], .endChunk 0]
def s84 : List Call := [.op (tid 9 1) (tid 5 1) [.str (lit "a")], .endChunk 0]
def tree84 : List (List Byte × List (Nat × OpView)) := [frame84 s84, frame84 r84]

example : TextMerge.mergeFrames noMax 20 (tree84.map Prod.fst) = .ok (some (Status.OK,
    lit ("@0000000005+0000000001 :rga,\n@0000000009+0000000001 'a',\n" ++
      "@0000000007+0000000001 :0000000005+0000000001 'b';\n"))) := by decide +kernel

-- Those of `C84_two_forms`.
example : (tree84 ++ ins84).length = 5 ∧ ((tree84 ++ ins84).map fun i => i.2.head?.map fun x => x.2.ref) =
    [some (tid 5 1), some (denote 0 (lit "rga") 0 []), some lwwName, some lwwName, none] ∧
    TextMerge.mergeFrames noMax 20 ((tree84 ++ ins84).map Prod.fst) = .ok (some (Status.BADARGS, [])) := by
  refine ⟨rfl, by decide +kernel, by decide +kernel⟩

-- Those of `C84_last_partial`.
example : (ins84.filter fun i => !i.2.isEmpty).getLast?.map Prod.fst = some (frame84 a84).1 ∧
    CleanFrom copyHeadOk (copySteps (frame84 a84).2) := ⟨by decide +kernel, clean_lit (by decide +kernel)⟩

-- Those of `C84_rga_many`.
example : 3 < ((tree84 ++ tree84).filter fun i => !i.2.isEmpty).length := by decide +kernel

/-- The weave of it. -/
def weave84 : List OpView := (steps fmt15 [r84[0], s84[0], r84[1]]).filterMap fun s =>
  match s with | .op o => some o | _ => none

def x5 : AOp := ⟨tid 5 1, denote 0 (lit "rga") 0 [], [], .raw⟩
def x7 : AOp := ⟨tid 7 1, tid 5 1, [], .raw⟩
def x9 : AOp := ⟨tid 9 1, tid 5 1, [], .raw⟩

-- The hypotheses of `C84_rga_partial` hold for it.
example : (∀ i ∈ tree84, Copyable i) ∧ Tree ((allOps tree84).map shape) (tid 5 1) ∧
    (∀ i ∈ tree84, i.2 ≠ [] ∧ Piece ((allOps tree84).map shape) (tid 5 1) (i.2.map fun x => shape x.2)) ∧
    weave84.Perm (allOps tree84) ∧ InOrder ((allOps tree84).map shape) (tid 5 1) (weave84.map shape) ∧
    CleanFrom copyHeadOk (mergedSteps weave84) := by
  have e : (allOps tree84).map shape = [x9, x5, x7] := by decide +kernel
  rw [e]
  have h5 : Path [x9, x5, x7] (tid 5 1) x5 [tid 5 1] := .root _ (by simp) rfl
  have h7 : Path [x9, x5, x7] (tid 5 1) x7 [tid 5 1, tid 7 1] := .child x5 _ _ h5 (by simp) rfl (by decide)
  have h9 : Path [x9, x5, x7] (tid 5 1) x9 [tid 5 1, tid 9 1] := .child x5 _ _ h5 (by simp) rfl (by decide)
  have hn : ([x9, x5, x7].map AOp.id).Nodup := by decide
  have hu := ids_inj hn
  have one : ∀ x : AOp, Piece [x9, x5, x7] (tid 5 1) [x] := by
    intro x
    refine ⟨List.pairwise_singleton _ _, ?_⟩
    intro pre o post e hne
    cases pre with
    | nil => exact absurd rfl hne
    | cons y l => simp at e
  have o57 : ∀ p q, Path [x9, x5, x7] (tid 5 1) x5 p → Path [x9, x5, x7] (tid 5 1) x7 q → before p q = true := by
    intro p q hp hq
    rw [hp.fun hu h5, hq.fun hu h7]; decide
  have o59 : ∀ p q, Path [x9, x5, x7] (tid 5 1) x5 p → Path [x9, x5, x7] (tid 5 1) x9 q → before p q = true := by
    intro p q hp hq
    rw [hp.fun hu h5, hq.fun hu h9]; decide
  have o97 : ∀ p q, Path [x9, x5, x7] (tid 5 1) x9 p → Path [x9, x5, x7] (tid 5 1) x7 q → before p q = true := by
    intro p q hp hq
    rw [hp.fun hu h9, hq.fun hu h7]; decide
  refine ⟨?_, ⟨hn, ?_⟩, ?_, ?_, ?_, clean_lit (by decide +kernel)⟩
  · intro i hi
    simp only [tree84, List.mem_cons, List.not_mem_nil, or_false] at hi
    rcases hi with rfl | rfl <;> exact copyable_lit (by decide +kernel)
  · intro o ho
    simp only [List.mem_cons, List.not_mem_nil, or_false] at ho
    rcases ho with rfl | rfl | rfl
    · exact ⟨_, h9⟩
    · exact ⟨_, h5⟩
    · exact ⟨_, h7⟩
  · intro i hi
    simp only [tree84, List.mem_cons, List.not_mem_nil, or_false] at hi
    have e9 : (frame84 s84).2.map (fun x => shape x.2) = [x9] := by decide +kernel
    have e57 : (frame84 r84).2.map (fun x => shape x.2) = [x5, x7] := by decide +kernel
    rcases hi with rfl | rfl
    · refine ⟨fun h => ?_, by rw [e9]; exact one _⟩
      rw [h] at e9; simp at e9
    · refine ⟨fun h => ?_, ?_⟩
      · rw [h] at e57; simp at e57
      · rw [e57]
        refine ⟨by unfold InOrder; simpa using o57, ?_⟩
        intro pre o post e hne
        match pre, e, hne with
        | [], _, h => exact absurd rfl h
        | [x], e, _ =>
          simp only [List.cons_append, List.nil_append, List.cons.injEq] at e
          obtain ⟨rfl, rfl, _⟩ := e
          exact ⟨x5, by simp, rfl⟩
        | x :: y :: l, e, _ => simp at e
  · have : weave84.isPerm (allOps tree84) = true := by decide +kernel
    exact List.isPerm_iff.1 this
  · have e : weave84.map shape = [x5, x9, x7] := by decide +kernel
    rw [e]
    unfold InOrder
    simpa using ⟨⟨o59, o57⟩, o97⟩

end Ron.Props
