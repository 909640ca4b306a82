import Verif.Props.Rga
/-!
Causal trees merged in groups: a merge of pieces of a tree is a piece of the tree.
-/
namespace Ron
namespace Spec
open Rdt

/-! ## Weaves and the punctuation of ops -/

theorem bare_eq {a b : AOp} (h : a.body = b.body) : bare a = bare b := by
  cases a; cases b; cases h; rfl

theorem path_bare {A B : List AOp} {root : Uuid} (h : ∀ o ∈ A, bare o ∈ B) {o : AOp} {l : List Uuid}
    (p : Path A root o l) : Path B root (bare o) l := by
  induction p with
  | root o ho e => exact .root (bare o) (h o ho) e
  | child p o l _ ho hr hlt ih => exact .child (bare p) (bare o) l ih (h o ho) hr hlt

theorem perm_bare {A B : List AOp} (hA : (A.map AOp.id).Nodup) (hB : (B.map AOp.id).Nodup)
    (h : ∀ o, o ∈ B ↔ ∃ a ∈ A, bare a = o) : (A.map bare).Perm B := by
  have hA' : ((A.map bare).map AOp.id).Nodup := by rw [List.map_map]; exact hA
  have un : ∀ {l : List AOp}, (l.map AOp.id).Nodup → l.Nodup := fun h =>
    List.Pairwise.of_map AOp.id (fun a b h e => h (by rw [e])) h
  refine (List.perm_ext_iff_of_nodup (un hA') (un hB)).2 fun o => ?_
  rw [List.mem_map, h]

/-- A weave of the ops is one of the bare ops. -/
theorem weave_bare {A B : List AOp} {root : Uuid} (hA : Tree A root) (hB : (B.map AOp.id).Nodup)
    (h : ∀ o, o ∈ B ↔ ∃ a ∈ A, bare a = o) {w : List AOp} (hw : IsWeave A root w) :
    Tree B root ∧ IsWeave B root (w.map bare) := by
  have mem : ∀ o ∈ A, bare o ∈ B := fun o ho => (h _).2 ⟨o, ho, rfl⟩
  refine ⟨⟨hB, fun o ho => ?_⟩, (hw.1.map bare).trans (perm_bare hA.unique hB h), ?_⟩
  · obtain ⟨a, ha, rfl⟩ := (h o).1 ho
    obtain ⟨l, hl⟩ := hA.reached a ha
    exact ⟨l, path_bare mem hl⟩
  · unfold InOrder
    rw [List.pairwise_map]
    refine List.Pairwise.imp_of_mem ?_ hw.2
    intro x y hx hy hxy p q hp hq
    obtain ⟨lx, px⟩ := hA.reached x (hw.1.mem_iff.1 hx)
    obtain ⟨ly, py⟩ := hA.reached y (hw.1.mem_iff.1 hy)
    rw [Path.fun (ids_inj hB) hp (path_bare mem px), Path.fun (ids_inj hB) hq (path_bare mem py)]
    exact hxy _ _ px py


theorem punctuate_bare : ∀ l : List AOp, (punctuate l).map bare = l.map bare
  | [] => rfl
  | [_] => rfl
  | o :: o' :: l => by
    have := punctuate_bare (o' :: l)
    simp only [punctuate, List.map_cons] at this ⊢
    rw [this]; rfl

/-- Punctuation is the same for the same bare ops. -/
theorem punctuate_of_bare : ∀ l l' : List AOp, l.map bare = l'.map bare → punctuate l = punctuate l'
  | [], [], _ => rfl
  | [], _ :: _, h => by simp at h
  | _ :: _, [], h => by simp at h
  | [o], [o'], h => by
    simp only [List.map_cons, List.map_nil, List.cons.injEq, and_true] at h
    simp only [punctuate, List.cons.injEq, and_true]
    exact h
  | [_], _ :: _ :: _, h => by simp at h
  | _ :: _ :: _, [_], h => by simp at h
  | o :: p :: l, o' :: p' :: l', h => by
    simp only [List.map_cons, List.cons.injEq] at h
    have ih := punctuate_of_bare (p :: l) (p' :: l') (by simp [h.2])
    simp only [punctuate]
    rw [ih]
    have e := h.1
    unfold bare at e
    simp only [AOp.mk.injEq, and_true] at e
    obtain ⟨e1, e2, e3⟩ := e
    rw [e1, e2, e3]

theorem punctuate_twice (l : List AOp) : punctuate (punctuate l) = punctuate l :=
  punctuate_of_bare _ _ (punctuate_bare l)

/-! ## Groups -/

theorem before_prefix : ∀ c a b : List Uuid, before (c ++ a) (c ++ b) = before a b
  | [], _, _ => rfl
  | x :: c, a, b => by
    rw [List.cons_append, List.cons_append, before_cons, before_prefix c a b, uuid_lin.irrefl]
    simp

theorem Paths.head {ops : List AOp} {root : Uuid} {path : AOp → List Uuid} (P : Paths ops root path) :
    ∀ o ∈ ops, ∃ s, path o = root :: s := by
  apply P.induct (Q := fun o => ∃ s, path o = root :: s)
  · intro o _ e h; exact ⟨[], by rw [h, e]⟩
  · intro p _ o _ _ _ e ⟨s, h⟩; exact ⟨s ++ [o.id], by rw [e, h]; rfl⟩

/-- Nothing comes before the root. -/
theorem Paths.first {ops : List AOp} {root : Uuid} {path : AOp → List Uuid} (P : Paths ops root path)
    {o : AOp} (ho : o ∈ ops) : before (path o) [root] = false := by
  obtain ⟨s, e⟩ := P.head o ho
  rw [e, before_cons, before_nil, uuid_lin.irrefl]
  simp

/-- A weave is a piece. -/
theorem weave_piece {ops : List AOp} {root : Uuid} (ht : Tree ops root) {w : List AOp}
    (hw : IsWeave ops root w) : Piece ops root w := by
  refine ⟨hw.2, fun pre o post e hne => ?_⟩
  obtain ⟨path, P, hiff⟩ := ht.paths
  have hom : o ∈ ops := hw.1.mem_iff.1 (by rw [e]; simp)
  have hord := hw.2
  unfold InOrder at hord
  rw [e, List.pairwise_append] at hord
  have hpre : ∀ a ∈ pre, before (path a) (path o) = true := fun a ha =>
    hord.2.2 a ha o (by simp) _ _ ((hiff a (hw.1.mem_iff.1 (by rw [e]; simp [ha])) _).2 rfl)
      ((hiff o hom _).2 rfl)
  rcases P.step o hom with ⟨h, hp⟩ | ⟨p, hpm, hr, hlt, hpath⟩
  · obtain ⟨a, l, rfl⟩ := List.exists_cons_of_ne_nil hne
    have := hpre a (by simp)
    rw [hp, h, P.first (hw.1.mem_iff.1 (by rw [e]; simp))] at this
    cases this
  · refine ⟨p, ?_, hr.symm⟩
    have hb : before (path p) (path o) = true := by rw [hpath]; exact before_append _ _ (by simp)
    have hpw : p ∈ w := hw.1.mem_iff.2 hpm
    rw [e] at hpw
    simp only [List.mem_append, List.mem_cons] at hpw
    rcases hpw with h | rfl | h
    · exact h
    · rw [before_irrefl] at hb; cases hb
    · have := (List.pairwise_cons.1 hord.2.1).1 p h _ _ ((hiff o hom _).2 rfl) ((hiff p hpm _).2 rfl)
      rw [before_asymm this] at hb; cases hb

theorem Attached.some_least {inputs : List (List AOp)} {i : List AOp} (h : Attached inputs i) :
    ∃ o os, o :: os ∈ inputs ∧ ∀ p ps, p :: ps ∈ inputs → Uuid.lt p.id o.id = false := by
  induction h with
  | least o os h1 h2 => exact ⟨o, os, h1, h2⟩
  | ref _ _ _ _ _ _ _ _ ih => exact ih

/-- The pieces of a tree that hang together are a tree, and its paths end the paths of the whole tree. -/
theorem group_tree {ops : List AOp} {root : Uuid} (ht : Tree ops root) {inputs : List (List AOp)}
    (hp : ∀ i ∈ inputs, PieceOf ops root i) (hu : (inputs.flatten.map AOp.id).Nodup)
    (hatt : ∀ i ∈ inputs, Attached inputs i) {o0 : AOp} {os0 : List AOp} (h0 : o0 :: os0 ∈ inputs)
    (hl : ∀ p ps, p :: ps ∈ inputs → Uuid.lt p.id o0.id = false) :
    Tree inputs.flatten o0.id ∧
      ∃ c, ∀ x l, Path inputs.flatten o0.id x l → Path ops root (bare x) (c ++ l) := by
  obtain ⟨path, P, hiff⟩ := ht.paths
  have hmem : ∀ o ∈ inputs.flatten, bare o ∈ ops := by
    intro o ho
    obtain ⟨i, hi, ho⟩ := List.mem_flatten.1 ho
    exact (hp i hi).1 o ho
  have hm0 : o0 ∈ inputs.flatten := List.mem_flatten.2 ⟨_, h0, by simp⟩
  -- a piece is reached if its first op is
  have run : ∀ o os, o :: os ∈ inputs → (∃ l, Path inputs.flatten o0.id o l) →
      ∀ x ∈ o :: os, ∃ l, Path inputs.flatten o0.id x l := by
    intro o os hi hr
    have : ∀ n pre x post, pre.length = n → o :: os = pre ++ x :: post →
        ∃ l, Path inputs.flatten o0.id x l := by
      intro n
      induction n using Nat.strongRecOn with
      | ind n ih =>
        intro pre x post hn e
        by_cases hne : pre = []
        · subst hne; cases e; exact hr
        have hxm : x ∈ inputs.flatten := List.mem_flatten.2 ⟨_, hi, by rw [e]; simp⟩
        obtain ⟨p, hpp, hpr⟩ := (hp _ hi).2.2 (pre.map bare) (bare x) (post.map bare)
          (by rw [e]; simp) (by simpa using hne)
        obtain ⟨p, hpq, rfl⟩ := List.mem_map.1 hpp
        have hpr : p.id = x.ref := hpr
        obtain ⟨a, b, rfl⟩ := List.append_of_mem hpq
        obtain ⟨l, hl⟩ := ih a.length (by rw [← hn]; simp) a p (b ++ x :: post) rfl (by rw [e]; simp)
        refine ⟨l ++ [x.id], .child p x l hl hxm hpr.symm ?_⟩
        have hpm := hmem p hl.mem
        rcases P.step (bare x) (hmem x hxm) with ⟨h, hpx⟩ | ⟨q, hqm, hqr, hlt, -⟩
        · have hord := (hp _ hi).2.1
          unfold InOrder at hord
          rw [e, List.map_append, List.pairwise_append] at hord
          have := hord.2.2 (bare p) (List.mem_map_of_mem (by simp)) (bare x) (by simp) _ _
            ((hiff _ hpm _).2 rfl) ((hiff _ (hmem x hxm) _).2 rfl)
          rw [hpx, h, P.first hpm] at this
          cases this
        · have hqr : x.ref = q.id := hqr
          rw [hpr, hqr]; exact hlt
    intro x hx
    obtain ⟨a, b, e⟩ := List.append_of_mem hx
    exact this a.length a x b rfl e
  have all : ∀ i, Attached inputs i → ∀ x ∈ i, ∃ l, Path inputs.flatten o0.id x l := by
    intro i h
    induction h with
    | least o os hi hmin =>
      refine run o os hi ⟨[o.id], .root o (List.mem_flatten.2 ⟨_, hi, by simp⟩) ?_⟩
      rcases uuid_lin.tri o.id o0.id with h | h | h
      · rw [hl o os hi] at h; cases h
      · exact h
      · rw [hmin o0 os0 h0] at h; cases h
    | ref o os j p hj hpj hi hr ih =>
      refine run o os hi ?_
      have hom : o ∈ inputs.flatten := List.mem_flatten.2 ⟨_, hi, by simp⟩
      rcases P.step (bare o) (hmem o hom) with ⟨h, -⟩ | ⟨q, hqm, hqr, hlt, -⟩
      · refine ⟨[o.id], .root o hom ?_⟩
        have h : o.id = root := h
        rcases ((hiff _ (hmem o0 hm0) _).2 rfl).ge_root with e | e
        · exact h.trans (Eq.symm e)
        · rw [← h] at e
          have e : Uuid.lt o.id o0.id = true := e
          rw [hl o os hi] at e; cases e
      · obtain ⟨l, hl⟩ := ih p hpj
        have hqr : o.ref = q.id := hqr
        exact ⟨l ++ [o.id], .child p o l hl hom hr (by rw [← hr, hqr]; exact hlt)⟩
  refine ⟨⟨hu, fun o ho => ?_⟩, ?_⟩
  · obtain ⟨i, hi, ho⟩ := List.mem_flatten.1 ho
    exact all i (hatt i hi) o ho
  · obtain ⟨c, hc⟩ := P.last (bare o0) (hmem o0 hm0)
    refine ⟨c, fun x l h => ?_⟩
    induction h with
    | root x hx e =>
      have : bare x = bare o0 := P.unique _ (hmem x hx) _ (hmem o0 hm0) e
      rw [this, e]
      exact (hiff _ (hmem o0 hm0) _).2 hc
    | child p x l _ hx hr hlt ih =>
      rw [← List.append_assoc]
      exact .child (bare p) (bare x) _ ih (hmem x hx) hr hlt

/-- A merge of pieces of a tree that succeeds is a piece of the tree. -/
theorem merge_group (v : View) {ops : List AOp} {root : Uuid} (ht : Tree ops root)
    {inputs : List (List AOp)} (hn : ∀ i ∈ inputs, i ≠ []) (hp : ∀ i ∈ inputs, PieceOf ops root i)
    (hu : (inputs.flatten.map AOp.id).Nodup) {out : List AOp}
    (h : mergeCursors v Form.RGA inputs = some (Status.OK, out)) :
    PieceOf ops root out ∧ (out.map bare).Perm (inputs.flatten.map bare) ∧ punctuate out = out := by
  by_cases h3 : 3 < inputs.length
  · rw [Props.C31_refuses_many v inputs hn h3] at h
    cases h
  by_cases hne : inputs = []
  · subst hne
    have : mergeCursors v Form.RGA [] = some (Status.OK, []) := by rfl
    rw [this] at h
    cases h
    exact ⟨⟨by simp, List.Pairwise.nil, by simp⟩, by simp, rfl⟩
  have hatt : ∀ i ∈ inputs, Attached inputs i := by
    obtain ⟨s, out', e, -, hs, -⟩ := Props.C31_accepts_iff v inputs hn (by omega)
    rw [h] at e
    cases e
    exact hs.1 rfl
  obtain ⟨o0, os0, h0, hl⟩ : ∃ o os, o :: os ∈ inputs ∧ ∀ p ps, p :: ps ∈ inputs → Uuid.lt p.id o.id = false := by
    obtain ⟨i, is, e⟩ := List.exists_cons_of_ne_nil hne
    exact (hatt i (by rw [e]; simp)).some_least
  obtain ⟨htF, c, hc⟩ := group_tree ht hp hu hatt h0 hl
  have hmem : ∀ o ∈ inputs.flatten, bare o ∈ ops := by
    intro o ho
    obtain ⟨i, hi, ho⟩ := List.mem_flatten.1 ho
    exact (hp i hi).1 o ho
  have hpF : ∀ i ∈ inputs, i ≠ [] ∧ Piece inputs.flatten o0.id i := by
    intro i hi
    refine ⟨hn i hi, ?_, ?_⟩
    · have := (hp i hi).2.1
      unfold InOrder at this ⊢
      rw [List.pairwise_map] at this
      refine List.Pairwise.imp ?_ this
      intro x y hxy p q hpx hpy
      have := hxy _ _ (hc x p hpx) (hc y q hpy)
      rwa [before_prefix] at this
    · intro pre o post e hne
      obtain ⟨p, hpp, hpr⟩ := (hp i hi).2.2 (pre.map bare) (bare o) (post.map bare) (by rw [e]; simp)
        (by simpa using hne)
      obtain ⟨p, hpq, rfl⟩ := List.mem_map.1 hpp
      exact ⟨p, hpq, hpr⟩
  obtain ⟨out', w, e, rfl, hw⟩ := Props.C30_weave_partial v o0.id inputs htF hpF
    (by omega) hne
  rw [h] at e
  cases e
  have hb : (punctuate w).map bare = w.map bare := punctuate_bare w
  have hperm : ((punctuate w).map bare).Perm (inputs.flatten.map bare) := by
    rw [hb]; exact hw.1.map bare
  refine ⟨⟨fun o ho => ?_, ?_, ?_⟩, hperm, punctuate_twice w⟩
  · obtain ⟨x, hx, ex⟩ := List.mem_map.1 (hperm.mem_iff.1 (List.mem_map_of_mem ho))
    rw [← ex]; exact hmem x hx
  · rw [hb]
    unfold InOrder
    rw [List.pairwise_map]
    refine List.Pairwise.imp_of_mem ?_ hw.2
    intro x y hx hy hxy p q hpx hpy
    obtain ⟨lx, px⟩ := htF.reached x (hw.1.mem_iff.1 hx)
    obtain ⟨ly, py⟩ := htF.reached y (hw.1.mem_iff.1 hy)
    rw [Path.fun (ids_inj ht.unique) hpx (hc x lx px), Path.fun (ids_inj ht.unique) hpy (hc y ly py),
      before_prefix]
    exact hxy _ _ px py
  · rw [hb]
    intro pre o post e hne
    obtain ⟨a, b, rfl, rfl, eb⟩ := List.map_eq_append_iff.1 e
    obtain ⟨x, b, rfl, rfl, rfl⟩ := List.map_eq_cons_iff.1 eb
    obtain ⟨p, hpa, hpr⟩ := (weave_piece htF hw).2 a x b rfl (by simpa using hne)
    exact ⟨bare p, List.mem_map_of_mem hpa, hpr⟩

end Spec
end Ron
