import Verif.Lemmas.RgaGroups
import Verif.Props.Store
/-!
Causal trees merged bit by bit: C38, C42.
-/
namespace Ron.Props
open Ron Rdt Spec MemStore

/-- Test data. -/
private def u (v o : Nat) : Uuid := ⟨BitVec.ofNat 64 v, BitVec.ofNat 64 o⟩
private def op (i r : Nat) (t : Term := .reduced) : AOp := ⟨u i 7, u r 7, [], t⟩
private def noView : View := ⟨fun _ _ => false, fun _ => op 0 0⟩

private theorem engine_rga (v : View) {ops : List AOp} {root : Uuid} (ht : Tree ops root)
    {outs : List (List AOp)} (hp : ∀ i ∈ outs, PieceOf ops root i)
    (hu : (outs.flatten.map AOp.id).Nodup) {out : List AOp}
    (e : engineMerge (mergeCursors v) Form.RGA outs = some out) :
    PieceOf ops root out ∧ (out.map bare).Perm (outs.flatten.map bare) ∧ punctuate out = out := by
  unfold engineMerge at e
  split at e
  · rename_i s o hm
    split at e
    · rename_i hs
      cases e
      have hok : s = Status.OK := by
        obtain ⟨s', o', e', h1, -⟩ : ∃ s' o', mergeCursors v Form.RGA (withOps outs) = some (s', o') ∧
            (s' = Status.OK ∨ s'.ok = false) ∧ True := by
          have hne : ∀ i ∈ withOps outs, i ≠ [] := fun i hi => by
            have := (List.mem_filter.1 hi).2
            simpa using this
          by_cases h3 : 3 < (withOps outs).length
          · exact ⟨_, _, C31_refuses_many v _ hne h3, .inr (by decide), trivial⟩
          · obtain ⟨s', o', h1, h2, -⟩ := C31_accepts_iff v _ hne (by omega)
            refine ⟨s', o', h1, ?_, trivial⟩
            rcases h2 with h | h
            · exact .inl h
            · exact .inr (by rw [h]; decide)
        rw [hm] at e'
        cases e'
        rcases h1 with h | h
        · exact h
        · rw [h] at hs; cases hs
      subst hok
      have hf : (withOps outs).flatten = outs.flatten := withOps_flatten outs
      have := merge_group v ht (inputs := withOps outs)
        (fun i hi => by simpa using (List.mem_filter.1 hi).2)
        (fun i hi => hp i (List.mem_filter.1 hi).1) (by rw [hf]; exact hu) hm
      rw [hf] at this
      exact this
    · cases e
  · cases e

private theorem rga_eval (v : View) {ops : List AOp} {root : Uuid} (ht : Tree ops root) (t : MergeTree) :
    (∀ i ∈ t.leaves, PieceOf ops root i) → (t.leaves.flatten.map AOp.id).Nodup →
    ∀ out, t.eval (engineMerge (mergeCursors v) Form.RGA) = some out →
      PieceOf ops root out ∧ (out.map bare).Perm (t.leaves.flatten.map bare) ∧
        (∀ ts, t = .merge ts → punctuate out = out) := by
  refine MergeTree.rec
    (motive_1 := fun t => (∀ i ∈ t.leaves, PieceOf ops root i) → (t.leaves.flatten.map AOp.id).Nodup →
      ∀ out, t.eval (engineMerge (mergeCursors v) Form.RGA) = some out →
      PieceOf ops root out ∧ (out.map bare).Perm (t.leaves.flatten.map bare) ∧
        (∀ ts, t = .merge ts → punctuate out = out))
    (motive_2 := fun ts => (∀ i ∈ MergeTree.leavesAll ts, PieceOf ops root i) →
      ((MergeTree.leavesAll ts).flatten.map AOp.id).Nodup →
      ∀ outs, MergeTree.evalAll (engineMerge (mergeCursors v) Form.RGA) ts = some outs →
      (∀ i ∈ outs, PieceOf ops root i) ∧
        (outs.flatten.map bare).Perm ((MergeTree.leavesAll ts).flatten.map bare))
    ?_ ?_ ?_ ?_ t
  · intro f hp _ out e
    simp only [MergeTree.eval, Option.some.injEq] at e
    subst e
    exact ⟨hp f (by simp [MergeTree.leaves]), by simp [MergeTree.leaves], by simp⟩
  · intro ts ih hp hu out e
    simp only [MergeTree.leaves] at hp hu ⊢
    simp only [MergeTree.eval] at e
    obtain ⟨outs, e1, e2⟩ := Option.bind_eq_some_iff.1 e
    obtain ⟨h1, h2⟩ := ih hp hu outs e1
    have hi : (outs.flatten.map AOp.id).Nodup := by
      have := (h2.map AOp.id)
      rw [List.map_map, List.map_map] at this
      exact this.nodup_iff.2 hu
    obtain ⟨h3, h4, h5⟩ := engine_rga v ht h1 hi e2
    exact ⟨h3, h4.trans h2, fun _ _ => h5⟩
  · intro _ _ outs e
    simp only [MergeTree.evalAll, Option.some.injEq] at e
    subst e
    exact ⟨by simp, by simp [MergeTree.leavesAll]⟩
  · intro t ts ih1 ih2 hp hu outs e
    simp only [MergeTree.leavesAll, List.flatten_append, List.map_append] at hp hu ⊢
    simp only [MergeTree.evalAll] at e
    obtain ⟨x, e1, e⟩ := Option.bind_eq_some_iff.1 e
    obtain ⟨xs, e2, e⟩ := Option.map_eq_some_iff.1 e
    subst e
    rw [List.nodup_append] at hu
    obtain ⟨h1, h2, -⟩ := ih1 (fun i hi => hp i (List.mem_append_left _ hi)) hu.1 x e1
    obtain ⟨h3, h4⟩ := ih2 (fun i hi => hp i (List.mem_append_right _ hi)) hu.2.1 xs e2
    refine ⟨?_, ?_⟩
    · intro i hi
      rcases List.mem_cons.1 hi with rfl | hi
      · exact h1
      · exact h3 i hi
    · simp only [List.flatten_cons, List.map_append]
      exact h2.append h4

/-- Causal trees: a partial merge of some pieces of a tree, in whatever groups, is again a piece of
the tree, with the ops of the operands. -/
theorem C42_rga_piece_partial (v : View) (ops : List AOp) (root : Uuid) (ht : Tree ops root)
    (t : MergeTree) (hp : ∀ i ∈ t.leaves, PieceOf ops root i)
    (hu : (t.leaves.flatten.map AOp.id).Nodup) (out : List AOp)
    (e : t.eval (engineMerge (mergeCursors v) Form.RGA) = some out) :
    PieceOf ops root out ∧ (out.map bare).Perm (t.leaves.flatten.map bare) :=
  let h := rga_eval v ht t hp hu out e
  ⟨h.1, h.2.1⟩

/-- The pieces of a whole tree: however they are grouped, a merge that succeeds is the weave of
the tree. -/
theorem C42_rga_partial (v : View) (ops : List AOp) (root : Uuid) (ht : Tree ops root)
    (t : MergeTree) (hp : ∀ i ∈ t.leaves, PieceOf ops root i)
    (hall : (t.leaves.flatten.map bare).Perm ops) (out : List AOp)
    (e : t.eval (engineMerge (mergeCursors v) Form.RGA) = some out) :
    IsWeave ops root (out.map bare) := by
  have hu : (t.leaves.flatten.map AOp.id).Nodup := by
    have := hall.map AOp.id
    rw [List.map_map] at this
    exact this.nodup_iff.2 ht.unique
  obtain ⟨h1, h2, -⟩ := rga_eval v ht t hp hu out e
  exact ⟨h2.trans hall, h1.2.1⟩

/-- Hence two ways of cutting a tree into pieces and of grouping the pieces give the same frame,
if neither is refused. Missing for the full claim: a grouping may be refused (see `C42_violated`);
pieces that share ops. -/
theorem C42_rga_same_partial (v v' : View) (ops : List AOp) (root : Uuid) (ht : Tree ops root)
    (s t : List MergeTree)
    (hs : ∀ i ∈ MergeTree.leavesAll s, PieceOf ops root i)
    (hp : ∀ i ∈ MergeTree.leavesAll t, PieceOf ops root i)
    (hsall : ((MergeTree.leavesAll s).flatten.map bare).Perm ops)
    (hall : ((MergeTree.leavesAll t).flatten.map bare).Perm ops) (out out' : List AOp)
    (e : (MergeTree.merge s).eval (engineMerge (mergeCursors v) Form.RGA) = some out)
    (e' : (MergeTree.merge t).eval (engineMerge (mergeCursors v') Form.RGA) = some out') :
    out = out' := by
  have pun : ∀ (v : View) (r : List MergeTree) (out : List AOp),
      (∀ i ∈ MergeTree.leavesAll r, PieceOf ops root i) →
      ((MergeTree.leavesAll r).flatten.map bare).Perm ops →
      (MergeTree.merge r).eval (engineMerge (mergeCursors v) Form.RGA) = some out →
      punctuate out = out ∧ IsWeave ops root (out.map bare) := by
    intro v r out hr hra e
    have hw := C42_rga_partial v ops root ht (.merge r) (by simpa only [MergeTree.leaves] using hr)
      (by simpa only [MergeTree.leaves] using hra) out e
    have hu : ((MergeTree.merge r).leaves.flatten.map AOp.id).Nodup := by
      have := hra.map AOp.id
      rw [List.map_map] at this
      simp only [MergeTree.leaves]
      exact this.nodup_iff.2 ht.unique
    exact ⟨(rga_eval v ht (.merge r) (by simpa only [MergeTree.leaves] using hr) hu out e).2.2 r rfl, hw⟩
  obtain ⟨p1, w1⟩ := pun v s out hs hsall e
  obtain ⟨p2, w2⟩ := pun v' t out' hp hall e'
  rw [← p1, ← p2]
  exact punctuate_of_bare _ _ (weave_unique ht w1 w2)

/-! ## C42 — metadata -/

/-- Metadata: any grouping of the operands gives one record for every id in them, with the greatest
of the references the operands have for it. -/
theorem C42_meta_partial (v : View) (t : MergeTree) (hs : ∀ i ∈ t.leaves, IdSorted i) :
    ∃ out, t.eval (engineMerge (mergeCursors v) Form.META) = some out ∧ IdSorted out ∧
      (∀ o ∈ out, ∃ x ∈ t.leaves.flatten, x.body = o.body) ∧
      ∀ x ∈ t.leaves.flatten, ∃ o ∈ out, o.id = x.id ∧ Uuid.lt o.ref x.ref = false := by
  revert hs
  refine MergeTree.rec
    (motive_1 := fun t => (∀ i ∈ t.leaves, IdSorted i) →
      ∃ out, t.eval (engineMerge (mergeCursors v) Form.META) = some out ∧ IdSorted out ∧
      (∀ o ∈ out, ∃ x ∈ t.leaves.flatten, x.body = o.body) ∧
      ∀ x ∈ t.leaves.flatten, ∃ o ∈ out, o.id = x.id ∧ Uuid.lt o.ref x.ref = false)
    (motive_2 := fun ts => (∀ i ∈ MergeTree.leavesAll ts, IdSorted i) →
      ∃ outs, MergeTree.evalAll (engineMerge (mergeCursors v) Form.META) ts = some outs ∧
      (∀ i ∈ outs, IdSorted i) ∧
      (∀ o ∈ outs.flatten, ∃ x ∈ (MergeTree.leavesAll ts).flatten, x.body = o.body) ∧
      ∀ x ∈ (MergeTree.leavesAll ts).flatten, ∃ o ∈ outs.flatten, o.id = x.id ∧ Uuid.lt o.ref x.ref = false)
    ?_ ?_ ?_ ?_ t
  · intro f hs
    simp only [MergeTree.leaves] at hs ⊢
    refine ⟨f, by simp only [MergeTree.eval], hs f (by simp), fun o ho => ⟨o, by simpa using ho, rfl⟩,
      fun x hx => ⟨x, by simpa using hx, rfl, uuid_lin.irrefl _⟩⟩
  · intro ts ih hs
    simp only [MergeTree.leaves] at hs ⊢
    obtain ⟨outs, e1, h1, h2, h3⟩ := ih hs
    obtain ⟨out, e, g1, g2, g3⟩ := C35_meta_latest v outs h1
    refine ⟨out, ?_, g1, ?_, ?_⟩
    · simp only [MergeTree.eval, e1, Option.bind_some, engineMerge, mergeMeta_withOps, e]
      rfl
    · intro o ho
      obtain ⟨⟨x, hx, ex⟩, _⟩ := g3 o ho
      obtain ⟨y, hy, ey⟩ := h2 x hx
      exact ⟨y, hy, ey.trans ex⟩
    · intro x hx
      obtain ⟨o, ho, hid, hlt⟩ := h3 x hx
      obtain ⟨p, hp, hpid⟩ := (g2 o.id).2 ⟨o, ho, rfl⟩
      refine ⟨p, hp, hpid.trans hid, ?_⟩
      have := (g3 p hp).2 o ho hpid.symm
      cases hl : Uuid.lt p.ref x.ref
      · rfl
      · by_cases e : o.ref = p.ref
        · rw [← e, hlt] at hl; cases hl
        · have h := uuid_lin.trans _ _ _ (uuid_lin.of_not this (Ne.symm e)) hl
          rw [hlt] at h; cases h
  · intro _
    exact ⟨[], by simp only [MergeTree.evalAll], by simp, by simp, by simp [MergeTree.leavesAll]⟩
  · intro t ts ih1 ih2 hs
    simp only [MergeTree.leavesAll, List.flatten_append] at hs ⊢
    obtain ⟨x, e1, a1, a2, a3⟩ := ih1 fun i hi => hs i (List.mem_append_left _ hi)
    obtain ⟨xs, e2, b1, b2, b3⟩ := ih2 fun i hi => hs i (List.mem_append_right _ hi)
    refine ⟨x :: xs, by simp only [MergeTree.evalAll, e1, e2, Option.bind_some, Option.map_some], ?_, ?_, ?_⟩
    · intro i hi
      rcases List.mem_cons.1 hi with rfl | hi
      · exact a1
      · exact b1 i hi
    · intro o ho
      rw [List.flatten_cons] at ho
      rcases List.mem_append.1 ho with ho | ho
      · obtain ⟨y, hy, e⟩ := a2 o ho
        exact ⟨y, List.mem_append_left _ hy, e⟩
      · obtain ⟨y, hy, e⟩ := b2 o ho
        exact ⟨y, List.mem_append_right _ hy, e⟩
    · intro y hy
      rw [List.flatten_cons]
      rcases List.mem_append.1 hy with hy | hy
      · obtain ⟨o, ho, e⟩ := a3 y hy
        exact ⟨o, List.mem_append_left _ ho, e⟩
      · obtain ⟨o, ho, e⟩ := b3 y hy
        exact ⟨o, List.mem_append_right _ ho, e⟩

example : (MergeTree.merge [.merge [.frame [op 1 5, op 2 3], .frame [op 1 8]], .frame [op 1 6, op 3 1]]).eval
    (engineMerge (mergeCursors noView) Form.META) = some [op 1 8, op 2 3, op 3 1 .raw] := by decide +kernel

/-! ## C38 — reads of causal trees -/

/-- The reads of a key among the commands succeed. -/
def ReadsSucceed (mg : Reducer) (k : Key) : MemStore → List Cmd → Prop
  | _, [] => True
  | s, c :: cs =>
    (∀ res r, c = .read k res → s.read mg k res = some r → r.1.ok = true) ∧
    ∀ s', exec mg s c = some s' → ReadsSucceed mg k s' cs

private theorem exec_ok (mg : Reducer) (k : Key) (Inv : List Frame → List Frame → Prop)
    (Ok : List Frame → Prop) (hpre : ∀ a b, Ok (a ++ b) → Ok a)
    (hwrite : ∀ r W f, Inv r W → Ok (W ++ [f]) → Inv (r ++ [f]) (W ++ [f]))
    (hmerge : ∀ r W st out, Inv r W → Ok W → mg k.form (withOps r) = some (st, out) → st.ok = true →
      Inv [out] W) :
    ∀ (cmds : List Cmd) (s s' : MemStore) (W : List Frame), KeyOrder s → Inv (stored k s) W →
    Ok (W ++ written k cmds) → ReadsSucceed mg k s cmds → execAll mg s cmds = some s' →
    KeyOrder s' ∧ Inv (stored k s') (W ++ written k cmds) := by
  intro cmds
  induction cmds with
  | nil =>
    intro s s' W hs hi _ _ e
    simp only [execAll, Option.some.injEq] at e
    subst e
    exact ⟨hs, by simpa [written] using hi⟩
  | cons c cs ih =>
    intro s s' W hs hi hok hr e
    simp only [execAll] at e
    obtain ⟨s1, e1, e9⟩ := Option.bind_eq_some_iff.1 e
    obtain ⟨hs1, hoth⟩ := exec_other mg hs c e1
    have hr1 := hr.2 s1 e1
    by_cases hk : c.key = k
    · cases c with
      | write j f =>
        simp only [Cmd.key] at hk
        subst hk
        simp only [exec, write, Option.some.injEq] at e1
        by_cases he : j = Key.END
        · rw [if_pos he] at e1; subst e1
          have hw : written j (.write j f :: cs) = written j cs := by simp [written, he]
          rw [hw] at hok ⊢
          exact ih s s' W hs hi hok hr1 e9
        · rw [if_neg he] at e1
          have hw : written j (.write j f :: cs) = f :: written j cs := by simp [written, he]
          have e2 : W ++ f :: written j cs = (W ++ [f]) ++ written j cs := by simp
          rw [hw, e2] at hok ⊢
          refine ih s1 s' (W ++ [f]) hs1 ?_ hok hr1 e9
          rw [← e1]
          have := insert_recs hs j j f
          simp only [if_true] at this
          show Inv (recs j (insert j f s)) _
          rw [this]
          exact hwrite _ _ f hi (hpre _ _ hok)
      | read j res =>
        simp only [Cmd.key] at hk
        subst hk
        simp only [written] at hok ⊢
        refine ih s1 s' W hs1 ?_ hok hr1 e9
        simp only [exec] at e1
        rcases read_eq mg hs j res with ⟨_, e⟩ | ⟨_, _, e⟩ | ⟨hl, ⟨_, e⟩ | ⟨st, out, s2, em, e, _, h2, _⟩⟩
        · rw [e] at e1; cases e1; exact hi
        · rw [e] at e1; cases e1; exact hi
        · rw [e] at e1; cases e1
        · have hst := hr.1 res _ rfl e
          rw [e] at e1; cases e1
          have hst : st.ok = true := hst
          show Inv (recs j s2) W
          rw [h2, if_pos hst]
          exact hmerge _ _ _ _ hi (hpre _ _ hok) em hst
    · have hw : written k (c :: cs) = written k cs := by
        cases c with
        | write j f =>
          have hk : ¬ j = k := hk
          simp [written, hk]
        | read j res => rfl
      rw [hw] at hok ⊢
      refine ih s1 s' W hs1 ?_ hok hr1 e9
      show Inv (recs k s1) W
      rw [hoth k (Ne.symm hk)]
      exact hi

/-- Causal trees: pieces of a tree written in any order, with reads in between. If the reads succeed,
the store has the pieces, whatever they were merged to, and a read of the whole tree that succeeds
gives its weave. Missing for the full claim: reads that fail (see `C38_violated`), pieces that
share ops. -/
theorem C38_rga_partial (v : View) (s t t' : MemStore) (cmds : List Cmd) (k : Key) (res : Frame)
    (hf : k.form = Form.RGA) (hs : KeyOrder s) (ops : List AOp) (root : Uuid) (ht : Tree ops root)
    (hp : ∀ i ∈ stored k s ++ written k cmds, PieceOf ops root i)
    (hall : ((stored k s ++ written k cmds).flatten.map bare).Perm ops)
    (hr : ReadsSucceed (mergeCursors v) k s cmds) (e : execAll (mergeCursors v) s cmds = some t)
    (st : Status) (out : Frame) (e' : t.read (mergeCursors v) k res = some (st, out, t'))
    (hst : st.ok = true) : IsWeave ops root (out.map bare) := by
  have hmerge : ∀ (r W : List Frame) st out,
      ((∀ i ∈ r, PieceOf ops root i) ∧ (r.flatten.map bare).Perm (W.flatten.map bare)) →
      ((∀ i ∈ W, PieceOf ops root i) ∧ (W.flatten.map AOp.id).Nodup) →
      mergeCursors v k.form (withOps r) = some (st, out) → st.ok = true →
      (∀ i ∈ [out], PieceOf ops root i) ∧ ([out].flatten.map bare).Perm (W.flatten.map bare) := by
    intro r W st out hi hok em hst
    have hu : (r.flatten.map AOp.id).Nodup := by
      have := hi.2.map AOp.id
      rw [List.map_map, List.map_map] at this
      exact this.nodup_iff.2 hok.2
    have em2 : engineMerge (mergeCursors v) Form.RGA r = some out := by
      unfold engineMerge
      rw [← hf, em]
      show (if st.ok = true then some out else none) = some out
      rw [if_pos hst]
    obtain ⟨h1, h2, -⟩ := engine_rga v ht hi.1 hu em2
    refine ⟨by simpa using h1, ?_⟩
    simpa using h2.trans hi.2
  have hu : ((stored k s ++ written k cmds).flatten.map AOp.id).Nodup := by
    have := hall.map AOp.id
    rw [List.map_map] at this
    exact this.nodup_iff.2 ht.unique
  obtain ⟨ht1, hi⟩ := exec_ok (mergeCursors v) k
    (fun r W => (∀ i ∈ r, PieceOf ops root i) ∧ (r.flatten.map bare).Perm (W.flatten.map bare))
    (fun W => (∀ i ∈ W, PieceOf ops root i) ∧ (W.flatten.map AOp.id).Nodup)
    (fun a b h => ⟨fun i hi => h.1 i (List.mem_append_left _ hi), by
      have := h.2
      rw [List.flatten_append, List.map_append, List.nodup_append] at this
      exact this.1⟩)
    (fun r W f hi hok => ⟨fun i hi' => by
        rcases List.mem_append.1 hi' with h | h
        · exact hi.1 i h
        · exact hok.1 i (List.mem_append_right _ h),
      by
        simp only [List.flatten_append, List.map_append]
        exact hi.2.append_right _⟩)
    hmerge cmds s t (stored k s) hs ⟨fun i hi => hp i (List.mem_append_left _ hi), List.Perm.refl _⟩
    ⟨hp, hu⟩ hr e
  have ho : PieceOf ops root out ∧ (out.map bare).Perm ops := by
    rcases read_eq (mergeCursors v) ht1 k res with ⟨e1, h⟩ | ⟨g, e1, h⟩ | ⟨_, ⟨_, h⟩ | ⟨st2, o2, s2, em, h, _⟩⟩
    · rw [h] at e'; cases e'
      have h2 := hi.2
      rw [show stored k t = [] from e1] at h2
      exact ⟨⟨by simp, List.Pairwise.nil, by simp⟩, by simpa using h2.trans hall⟩
    · rw [h] at e'; cases e'
      have e1 : stored k t = [out] := e1
      have h2 := hi.2
      rw [e1] at h2
      exact ⟨hi.1 out (by rw [e1]; simp), by simpa using h2.trans hall⟩
    · rw [h] at e'; cases e'
    · rw [h] at e'; cases e'
      rw [if_pos hst]
      have := hmerge _ _ _ _ hi ⟨hp, hu⟩ em hst
      exact ⟨by simpa using this.1, by simpa using this.2.trans hall⟩
  exact ⟨ho.2, ho.1.2.1⟩

/-! Five pieces of a tree, one op each: too many for one merge, but they can be merged in groups. -/

private def five : List AOp := [op 1 0 .raw, op 2 1 .raw, op 3 2 .raw, op 4 1 .raw, op 5 4 .raw]
private def left : List MergeTree :=
  [.merge [.frame [op 1 0], .frame [op 2 1]], .merge [.frame [op 4 1 .raw], .frame [op 5 4]], .frame [op 3 2]]
private def right : List MergeTree :=
  [.frame [op 1 0], .merge [.merge [.frame [op 3 2]], .frame [op 2 1]], .frame [op 4 1, op 5 4]]

example : (MergeTree.merge left).eval (engineMerge (mergeCursors noView) Form.RGA) =
      some [op 1 0, op 4 1, op 5 4, op 2 1, op 3 2 .raw] ∧
    (MergeTree.merge right).eval (engineMerge (mergeCursors noView) Form.RGA) =
      some [op 1 0, op 4 1, op 5 4, op 2 1, op 3 2 .raw] := by decide +kernel

private theorem five_tree : Tree five (u 1 7) := by
  have p1 : Path five (u 1 7) (op 1 0 .raw) _ := .root _ (by decide) rfl
  have p2 : Path five (u 1 7) (op 2 1 .raw) _ := .child _ _ _ p1 (by decide) rfl (by decide)
  have p3 : Path five (u 1 7) (op 3 2 .raw) _ := .child _ _ _ p2 (by decide) rfl (by decide)
  have p4 : Path five (u 1 7) (op 4 1 .raw) _ := .child _ _ _ p1 (by decide) rfl (by decide)
  have p5 : Path five (u 1 7) (op 5 4 .raw) _ := .child _ _ _ p4 (by decide) rfl (by decide)
  refine ⟨by decide, fun o ho => ?_⟩
  simp only [five, List.mem_cons, List.not_mem_nil, or_false] at ho
  rcases ho with rfl | rfl | rfl | rfl | rfl
  · exact ⟨_, p1⟩
  · exact ⟨_, p2⟩
  · exact ⟨_, p3⟩
  · exact ⟨_, p4⟩
  · exact ⟨_, p5⟩

private theorem one_piece (o : AOp) (h : bare o ∈ five) : PieceOf five (u 1 7) [o] := by
  refine ⟨by simpa using h, by simp [InOrder], ?_⟩
  intro pre x post e hne
  have := congrArg List.length e
  cases pre with
  | nil => exact absurd rfl hne
  | cons a l => simp at this

example : (∀ i ∈ MergeTree.leavesAll left, PieceOf five (u 1 7) i) ∧
    ((MergeTree.leavesAll left).flatten.map bare).Perm five := by
  refine ⟨fun i hi => ?_, by decide⟩
  simp only [left, MergeTree.leavesAll, MergeTree.leaves, List.append_nil, List.cons_append, List.nil_append,
    List.mem_cons, List.not_mem_nil, or_false] at hi
  rcases hi with rfl | rfl | rfl | rfl | rfl <;> exact one_piece _ (by decide)

private def key1 : Key := Key.mk' (u 1 7) Form.RGA
private def cmds5 : List Cmd :=
  [.write key1 [op 1 0], .write key1 [op 2 1], .read key1 [], .write key1 [op 4 1], .write key1 [op 5 4],
    .read key1 [], .write key1 [op 3 2]]

private def okRun (mg : Reducer) : MemStore → List Cmd → Bool
  | _, [] => true
  | s, c :: cs =>
    (match c with
      | .read k res => match s.read mg k res with
        | some r => r.1.ok
        | none => true
      | .write _ _ => true) &&
    match exec mg s c with
    | some s' => okRun mg s' cs
    | none => true

private theorem okRun_ok (mg : Reducer) (k : Key) : ∀ (cmds : List Cmd) (s : MemStore),
    okRun mg s cmds = true → ReadsSucceed mg k s cmds
  | [], _, _ => trivial
  | c :: cs, s, h => by
    unfold okRun at h
    rw [Bool.and_eq_true] at h
    refine ⟨fun res r e e2 => ?_, fun s' e => okRun_ok mg k cs s' ?_⟩
    · subst e
      have := h.1
      simp only [e2] at this
      exact this
    · have := h.2
      simp only [e] at this
      exact this

example : (∀ i ∈ stored key1 (opened (u 9 9)) ++ written key1 cmds5, PieceOf five (u 1 7) i) ∧
    ((stored key1 (opened (u 9 9)) ++ written key1 cmds5).flatten.map bare).Perm five ∧
    ReadsSucceed (mergeCursors noView) key1 (opened (u 9 9)) cmds5 ∧
    ((execAll (mergeCursors noView) (opened (u 9 9)) cmds5).bind fun s =>
      (s.read (mergeCursors noView) key1 []).map fun r => (r.1, r.2.1)) =
      some (Status.OK, [op 1 0, op 4 1, op 5 4, op 2 1, op 3 2 .raw]) := by
  have e : stored key1 (opened (u 9 9)) ++ written key1 cmds5 =
      [[op 1 0], [op 2 1], [op 4 1], [op 5 4], [op 3 2]] := by decide +kernel
  rw [e]
  refine ⟨fun i hi => ?_, by decide, okRun_ok _ _ _ _ (by decide +kernel), by decide +kernel⟩
  simp only [List.mem_cons, List.not_mem_nil, or_false] at hi
  rcases hi with rfl | rfl | rfl | rfl | rfl <;> exact one_piece _ (by decide)

end Ron.Props
