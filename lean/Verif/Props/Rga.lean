import Verif.Lemmas.RgaAttach
/-!
Merging of causal trees: C30, C31.
-/
namespace Ron.Props
open Ron Rdt Spec

/-- Test data. -/
private def u (v : Nat) : Uuid := ⟨BitVec.ofNat 64 v, 7#64⟩
private def op (i r : Nat) (vals : List AVal := []) (t : Term := .reduced) : AOp :=
  ⟨u i, u r, vals, t⟩
private def noView : View := ⟨fun _ _ => false, fun _ => op 0 0⟩

/-! ## C30 — causal-tree merge converges -/

/-- The full claim: whatever pieces of a tree are merged, overlapping or not, the result is the
weave of the tree. -/
def C30_claim : Prop := ∀ (v : View) (root : Uuid) (ops : List AOp) (inputs : List (List AOp)),
  Tree ops root → (∀ i ∈ inputs, i ≠ [] ∧ Piece ops root i) →
  (∀ o, o ∈ ops ↔ o ∈ inputs.flatten) → inputs.length ≤ 3 →
  ∃ out w, mergeCursors v Form.RGA inputs = some (Status.OK, out) ∧ out = punctuate w ∧
    IsWeave ops root w

private theorem tree2 : Tree [op 1 0, op 2 1] (u 1) := by
  refine ⟨by decide, ?_⟩
  intro o ho
  have h1 : Path [op 1 0, op 2 1] (u 1) (op 1 0) [u 1] := .root _ (by decide) rfl
  simp only [List.mem_cons, List.not_mem_nil, or_false] at ho
  rcases ho with rfl | rfl
  · exact ⟨_, h1⟩
  · exact ⟨_, .child (op 1 0) _ _ h1 (by decide) rfl (by decide)⟩

private theorem piece2 : Piece [op 1 0, op 2 1] (u 1) [op 1 0, op 2 1] := by
  have h1 : Path [op 1 0, op 2 1] (u 1) (op 1 0) [u 1] := .root _ (by decide) rfl
  have h2 : Path [op 1 0, op 2 1] (u 1) (op 2 1) [u 1, u 2] :=
    .child (op 1 0) _ _ h1 (by decide) rfl (by decide)
  have hu := ids_inj tree2.unique
  refine ⟨?_, ?_⟩
  · unfold InOrder
    rw [List.pairwise_cons]
    refine ⟨?_, by simp⟩
    intro y hy p q hp hq
    rw [List.mem_singleton] at hy
    subst hy
    rw [hp.fun hu h1, hq.fun hu h2]; decide
  · intro pre o post e hne
    match pre, e, hne with
    | [], _, h => exact absurd rfl h
    | [x], e, _ =>
      simp only [List.cons_append, List.nil_append, List.cons.injEq] at e
      obtain ⟨rfl, rfl, _⟩ := e
      exact ⟨op 1 0, by simp, rfl⟩
    | x :: y :: l, e, _ => simp at e

/-- It fails: two copies of the same two ops give four ops. After an op is emitted, only the
copies at the front of the heap are skipped; when the first input moves on to a child, which has
a greater id, the other copy stays in the heap. -/
theorem C30_violated : ¬ C30_claim := by
  intro h
  obtain ⟨out, w, e, h1, h2⟩ := h noView (u 1) [op 1 0, op 2 1] [[op 1 0, op 2 1], [op 1 0, op 2 1]]
    tree2 (by
      intro i hi
      simp only [List.mem_cons, List.not_mem_nil, or_false, or_self] at hi
      subst hi; exact ⟨by simp, piece2⟩)
    (by intro o; simp; grind) (by decide)
  have hout : mergeCursors noView Form.RGA [[op 1 0, op 2 1], [op 1 0, op 2 1]] =
      some (Status.OK, [op 1 0, op 2 1, op 1 0, op 2 1 [] .raw]) := by decide +kernel
  rw [hout] at e
  cases e
  have l1 := congrArg List.length h1
  have l2 := h2.1.length_eq
  have l3 := congrArg List.length (punctuate_id w)
  simp only [List.length_map] at l3
  simp at l1 l2
  omega

/-- For pieces without common ops: up to three pieces of a tree, in any order, merge to the
weave of the tree. Missing for the full claim: pieces that share ops (see `C30_violated`). -/
theorem C30_weave_partial (v : View) (root : Uuid) (inputs : List (List AOp))
    (ht : Tree inputs.flatten root) (hp : ∀ i ∈ inputs, i ≠ [] ∧ Piece inputs.flatten root i)
    (hlen : inputs.length ≤ 3) (hne : inputs ≠ []) :
    ∃ out w, mergeCursors v Form.RGA inputs = some (Status.OK, out) ∧ out = punctuate w ∧
      IsWeave inputs.flatten root w := by
  have hvl : ∀ ins : List (List AOp), (valid ins).length ≤ ins.length := by
    intro ins
    induction ins with
    | nil => simp [valid]
    | cons i is ih => cases i <;> simp only [valid, List.length_cons] <;> omega
  have hvne : valid inputs ≠ [] := by
    cases inputs with
    | nil => exact absurd rfl hne
    | cons i is =>
      cases i with
      | nil => exact absurd rfl (hp [] (by simp)).1
      | cons o os => simp [valid]
  have hfl := flat_valid inputs
  obtain ⟨w, e, hw⟩ := rgaMerge_weave (root := root) (inputs := valid inputs) (by rw [hfl]; exact ht)
    (by intro c hc; rw [hfl]; exact (hp _ (mem_valid.1 hc)).2) hvne
  rw [hfl] at hw
  refine ⟨punctuate w, w, ?_, rfl, hw⟩
  have : master v Form.RGA ABuilder.empty inputs =
      some ((feed ABuilder.empty w).endChunk, Status.OK) := by
    show rga ABuilder.empty inputs = _
    unfold rga
    have := hvl inputs
    rw [if_neg (by omega), e]; rfl
  unfold mergeCursors
  rw [this]
  show some (Status.OK, if Status.OK.ok then ((feed ABuilder.empty w).endChunk).release else []) = _
  rw [show Status.OK.ok = true by decide, if_pos rfl, feed_release]

/-- Hence any two ways of cutting a tree into up to three pieces, in any order, give the same
frame. -/
theorem C30_converges_partial (v v' : View) (root : Uuid) (inputs inputs' : List (List AOp))
    (hsame : inputs'.flatten.Perm inputs.flatten) (ht : Tree inputs.flatten root)
    (hp : ∀ i ∈ inputs, i ≠ [] ∧ Piece inputs.flatten root i)
    (hp' : ∀ i ∈ inputs', i ≠ [] ∧ Piece inputs.flatten root i)
    (hlen : inputs.length ≤ 3) (hlen' : inputs'.length ≤ 3) (hne : inputs ≠ []) :
    ∃ out, mergeCursors v Form.RGA inputs = some (Status.OK, out) ∧
      mergeCursors v' Form.RGA inputs' = some (Status.OK, out) := by
  have hmem : ∀ o, o ∈ inputs'.flatten ↔ o ∈ inputs.flatten := fun o => hsame.mem_iff
  have tr : ∀ {A B : List AOp}, (∀ o, o ∈ A ↔ o ∈ B) → ∀ {o l}, Path A root o l → Path B root o l := by
    intro A B h o l hp
    induction hp with
    | root o ho e => exact .root o ((h o).1 ho) e
    | child p o l _ ho hr hlt ih => exact .child p o l ih ((h o).1 ho) hr hlt
  have hord : ∀ {A B : List AOp}, (∀ o, o ∈ A ↔ o ∈ B) → ∀ {l}, InOrder A root l → InOrder B root l := by
    intro A B h l hl
    refine List.Pairwise.imp ?_ hl
    intro a b hab p q h1 h2
    exact hab p q (tr (fun o => (h o).symm) h1) (tr (fun o => (h o).symm) h2)
  have ht' : Tree inputs'.flatten root := by
    refine ⟨(hsame.map AOp.id).nodup_iff.2 ht.unique, fun o ho => ?_⟩
    obtain ⟨l, hl⟩ := ht.reached o ((hmem o).1 ho)
    exact ⟨l, tr (fun o => (hmem o).symm) hl⟩
  have hne' : inputs' ≠ [] := by
    rintro rfl
    cases inputs with
    | nil => exact hne rfl
    | cons i is =>
      cases i with
      | nil => exact (hp [] (by simp)).1 rfl
      | cons o os => have := hsame.length_eq; simp at this
  obtain ⟨a, w, e1, ha, hw⟩ := C30_weave_partial v root inputs ht hp hlen hne
  obtain ⟨b, w', e2, hb, hw'⟩ := C30_weave_partial v' root inputs' ht'
    (fun i hi => ⟨(hp' i hi).1, hord (fun o => (hmem o).symm) (hp' i hi).2.1, (hp' i hi).2.2⟩)
    hlen' hne'
  have : w = w' := weave_unique ht hw ⟨hw'.1.trans hsame, hord hmem hw'.2⟩
  subst this
  exact ⟨a, e1, by rw [e2, hb, ha]⟩

/-- A tree in three pieces: root with a child, two later pieces. -/
example : (mergeCursors noView Form.RGA [[op 4 1], [op 1 0, op 2 1, op 6 2], [op 5 2]]).map
    (fun r => (r.1, r.2.map fun o => o.id.value.toNat)) =
    some (Status.OK, [1, 4, 2, 6, 5]) := by decide +kernel

example : Tree [[op 1 0], [op 2 1]].flatten (u 1) ∧
    ∀ i ∈ [[op 1 0], [op 2 1]], i ≠ [] ∧ Piece [[op 1 0], [op 2 1]].flatten (u 1) i := by
  refine ⟨tree2, ?_⟩
  intro i hi
  simp only [List.mem_cons, List.not_mem_nil, or_false] at hi
  have : ∀ x : AOp, Piece [[op 1 0], [op 2 1]].flatten (u 1) [x] := by
    intro x
    refine ⟨List.pairwise_singleton _ _, ?_⟩
    intro pre o post e hne
    cases pre with
    | nil => exact absurd rfl hne
    | cons y l => simp at e
  rcases hi with rfl | rfl <;> exact ⟨by simp, this _⟩

/-! ## C31 — causality is kept, or the merge refuses -/

/-- The full claim on accepted merges: every op but the first comes after the op it refers to. -/
def C31_claim : Prop := ∀ (v : View) (inputs : List (List AOp)) (out : List AOp),
  mergeCursors v Form.RGA inputs = some (Status.OK, out) →
  ∀ pre o post, out = pre ++ o :: post → pre ≠ [] → ∃ p ∈ pre, p.id = o.ref

/-- It fails: only the first op of an input is checked; an op inside an input may refer to
nothing at all. -/
theorem C31_violated : ¬ C31_claim := by
  intro h
  have := h noView [[op 1 0, op 5 99]] [op 1 0, op 5 99 [] .raw] (by decide +kernel)
    [op 1 0] (op 5 99 [] .raw) [] rfl (by simp)
  revert this
  decide

/-- Merging pieces of a tree keeps causality: every op but the root comes after the op it
refers to. Missing for the full claim: inputs that are not pieces of a tree. -/
theorem C31_causal_partial (v : View) (root : Uuid) (inputs : List (List AOp))
    (ht : Tree inputs.flatten root) (hp : ∀ i ∈ inputs, i ≠ [] ∧ Piece inputs.flatten root i)
    (hlen : inputs.length ≤ 3) (hne : inputs ≠ []) :
    ∃ out, mergeCursors v Form.RGA inputs = some (Status.OK, out) ∧
      ∀ pre o post, out = pre ++ o :: post → o.id ≠ root → ∃ p ∈ pre, p.id = o.ref := by
  obtain ⟨out, w, e, hout, hw⟩ := C30_weave_partial v root inputs ht hp hlen hne
  refine ⟨out, e, ?_⟩
  obtain ⟨path, P, hiff⟩ := ht.paths
  have key : ∀ pre o post, w = pre ++ o :: post → o.id ≠ root → ∃ p ∈ pre, p.id = o.ref := by
    intro pre o post hsplit hroot
    have hom : o ∈ inputs.flatten := hw.1.mem_iff.1 (by rw [hsplit]; simp)
    rcases P.step o hom with ⟨h, _⟩ | ⟨p, hpm, hr, hlt, hpath⟩
    · exact absurd h hroot
    · refine ⟨p, ?_, hr.symm⟩
      have hpw : p ∈ w := hw.1.mem_iff.2 hpm
      have hord := hw.2
      rw [hsplit] at hpw hord
      rw [List.mem_append, List.mem_cons] at hpw
      rcases hpw with h | rfl | h
      · exact h
      · rw [uuid_lin.irrefl] at hlt; cases hlt
      · exfalso
        unfold InOrder at hord
        rw [List.pairwise_append] at hord
        have := (List.pairwise_cons.1 hord.2.1).1 p h _ _ ((hiff o hom _).2 rfl) ((hiff p hpm _).2 rfl)
        have h2 := before_append (path p) [o.id] (by simp)
        rw [← hpath] at h2
        have h3 := before_asymm this
        rw [h2] at h3; cases h3
  -- the same by position in the punctuated frame
  intro pre o post hsplit hroot
  have hids : w.map AOp.body = pre.map AOp.body ++ o.body :: post.map AOp.body := by
    rw [← punctuate_body w, ← hout, hsplit]; simp
  obtain ⟨pre', rest, hs, hpre, hrest⟩ := List.map_eq_append_iff.1 hids
  obtain ⟨o', post', hr, ho, _⟩ := List.map_eq_cons_iff.1 hrest
  subst hr
  obtain ⟨p, hp1, hp2⟩ := key pre' o' post' hs (by rw [body_id ho]; exact hroot)
  have : p.body ∈ pre.map AOp.body := by rw [← hpre]; exact List.mem_map.2 ⟨p, hp1, rfl⟩
  obtain ⟨q, hq, hqb⟩ := List.mem_map.1 this
  refine ⟨q, hq, ?_⟩
  rw [body_id hqb, hp2]
  exact congrArg (·.2.1) ho

/-- A weave keeps every subtree in one piece: between two ops below `p` there are only ops
below `p`. -/
theorem C31_contiguous (ops : List AOp) (root : Uuid) (ht : Tree ops root) (w : List AOp)
    (hw : IsWeave ops root w) (p s t : List Uuid) (a b c d : List AOp) (x y z : AOp)
    (hs : w = a ++ x :: (b ++ z :: (c ++ y :: d))) (hx : Path ops root x (p ++ s))
    (hy : Path ops root y (p ++ t)) : ∃ r, Path ops root z (p ++ r) := by
  have hzm : z ∈ ops := hw.1.mem_iff.1 (by rw [hs]; simp)
  obtain ⟨q, hq⟩ := ht.reached z hzm
  have hord := hw.2
  unfold InOrder at hord
  rw [hs, List.pairwise_append] at hord
  have h1 := List.pairwise_cons.1 hord.2.1
  have hxz := h1.1 z (by simp) _ _ hx hq
  have h2 := (List.pairwise_append.1 h1.2).2.1
  have hzy := (List.pairwise_cons.1 h2).1 y (by simp) _ _ hq hy
  obtain ⟨r, hr⟩ := before_between p s t q hxz hzy
  exact ⟨r, by rw [← hr]; exact hq⟩

/-- Whatever the inputs: up to three frames are accepted exactly if each of them hangs on to
the others, and then every op is in the result; otherwise the merge is refused. -/
theorem C31_accepts_iff (v : View) (inputs : List (List AOp)) (hne : ∀ i ∈ inputs, i ≠ [])
    (hlen : inputs.length ≤ 3) :
    ∃ s out, mergeCursors v Form.RGA inputs = some (s, out) ∧
      (s = Status.OK ∨ s = Status.CAUSEBREAK) ∧
      (s = Status.OK ↔ ∀ i ∈ inputs, Attached inputs i) ∧
      (s = Status.OK → ∀ i ∈ inputs, ∀ o ∈ i, ∃ x ∈ out, x.id = o.id) := by
  have hvl : ∀ ins : List (List AOp), (valid ins).length ≤ ins.length := by
    intro ins
    induction ins with
    | nil => simp [valid]
    | cons i is ih => cases i <;> simp only [valid, List.length_cons] <;> omega
  obtain ⟨out, w, e, h1, h2⟩ := rgaMerge_attached inputs
  obtain ⟨out', w', e', _, _, h3⟩ := rgaMerge_any (valid inputs)
  rw [e] at e'
  simp only [Option.some.injEq, Prod.mk.injEq] at e'
  obtain ⟨rfl, rfl⟩ := e'
  have hm : master v Form.RGA ABuilder.empty inputs = some ((feed ABuilder.empty out).endChunk,
      if w.isEmpty then Status.OK else Status.CAUSEBREAK) := by
    show rga ABuilder.empty inputs = _
    unfold rga
    have := hvl inputs
    rw [if_neg (by omega), e]; rfl
  have hall : w = [] ↔ ∀ i ∈ inputs, Attached inputs i := by
    constructor
    · intro hw i hi
      cases i with
      | nil => exact absurd rfl (hne [] hi)
      | cons o os => exact ((h2 o os hi).1).1 (by rw [hw]; simp)
    · intro ha
      cases hw : w with
      | nil => rfl
      | cons c cs =>
        exfalso
        have hc := h3 c (by rw [hw]; simp)
        have hci := mem_valid.1 hc.1
        exact ((h2 c.1 c.2 hci).1).2 (ha _ hci) (by rw [hw]; simp)
  cases hw : w.isEmpty with
  | true =>
    have hw0 : w = [] := List.isEmpty_iff.1 hw
    rw [hw, if_pos rfl] at hm
    refine ⟨Status.OK, punctuate out, ?_, .inl rfl, ⟨fun _ => hall.1 hw0, fun _ => rfl⟩, ?_⟩
    · unfold mergeCursors
      rw [hm]
      show some (Status.OK, if Status.OK.ok then ((feed ABuilder.empty out).endChunk).release else []) = _
      rw [show Status.OK.ok = true by decide, if_pos rfl, feed_release]
    · intro _ i hi o ho
      cases i with
      | nil => exact absurd rfl (hne [] hi)
      | cons q qs =>
        obtain ⟨x, hx, ex⟩ := (h2 q qs hi).2 (by rw [hw0]; simp) o ho
        obtain ⟨x', hx', eb⟩ := mem_body (punctuate_body out).symm hx
        exact ⟨x', hx', (body_id eb).trans ex⟩
  | false =>
    have hw0 : w ≠ [] := fun h => by rw [h] at hw; cases hw
    rw [hw] at hm
    refine ⟨Status.CAUSEBREAK, [], ?_, .inr rfl, ⟨fun h => absurd h (by decide), fun h => ?_⟩,
      fun h => absurd h (by decide)⟩
    · unfold mergeCursors
      rw [hm]
      rfl
    · exact absurd (hall.2 h) hw0

/-- More than three inputs are refused, without output. -/
theorem C31_refuses_many (v : View) (inputs : List (List AOp)) (hne : ∀ i ∈ inputs, i ≠ [])
    (hlen : 3 < inputs.length) :
    mergeCursors v Form.RGA inputs = some (Status.NOT_IMPLEMENTED, []) := by
  have hvl : ∀ ins : List (List AOp), (∀ i ∈ ins, i ≠ []) → (valid ins).length = ins.length := by
    intro ins h
    induction ins with
    | nil => rfl
    | cons i is ih =>
      cases i with
      | nil => exact absurd rfl (h [] (by simp))
      | cons o os =>
        simp only [valid, List.length_cons]
        rw [ih fun i hi => h i (by simp [hi])]
  have : master v Form.RGA ABuilder.empty inputs = some (ABuilder.empty, Status.NOT_IMPLEMENTED) := by
    show rga ABuilder.empty inputs = _
    unfold rga
    rw [if_pos (by rw [hvl inputs hne]; exact hlen)]
  unfold mergeCursors
  rw [this]; rfl

example : (mergeCursors noView Form.RGA [[op 1 0, op 2 1], [op 5 3]]).map (·.1) =
    some Status.CAUSEBREAK := by decide +kernel

end Ron.Props
