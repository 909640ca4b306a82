import Verif.Spec.MaxStore
import Verif.Props.MaxUuid
import Verif.Props.Store
/-!
C38 and C42 for max registers.
-/
namespace Ron.Props
open Ron Rdt Spec MemStore

theorem height_step (v : View) {P : AOp → Prop} (hP : P = NumberOp ∨ P = UuidOp) (a b : Placed) (ha : P a.1) (hb : P b.1) :
    if maxLess v a b then height a.1 ≤ height b.1 else height b.1 ≤ height a.1 := by
  have nil : a.1.vals = [] ∨ b.1.vals = [] →
      if maxLess v a b then height a.1 ≤ height b.1 else height b.1 ≤ height a.1 := by
    intro h
    rcases ea : a.1.vals with _ | ⟨x, xs⟩
    · have h0 : height a.1 = 0 := by simp [height, ea]
      rcases eb : b.1.vals with _ | ⟨y, ys⟩
      · have h1 : height b.1 = 0 := by simp [height, eb]
        rw [h0, h1]
        split <;> omega
      · have : maxLess v a b = true := by simp [maxLess, ea, eb]
        rw [this, if_pos rfl, h0]
        omega
    · rcases h with h | h
      · rw [ea] at h; cases h
      · have h1 : height b.1 = 0 := by simp [height, h]
        have : maxLess v a b = false := by simp [maxLess, ea, h]
        rw [this, h1]
        simp
  have num : ∀ x xs y ys (p q : Word), a.1.vals = x :: xs → b.1.vals = y :: ys → valWord? x = some p → valWord? y = some q →
      rawLess (v.tie a.2 b.2) x y = (decide (p.toNat < q.toNat) || (decide (p = q) && v.tie a.2 b.2)) →
      height a.1 = p.toNat + 1 → height b.1 = q.toNat + 1 →
      if maxLess v a b then height a.1 ≤ height b.1 else height b.1 ≤ height a.1 := by
    intro x xs y ys p q ea eb hp hq hr h1 h2
    have hl : maxLess v a b = (decide (p.toNat < q.toNat) || (decide (p = q) && v.tie a.2 b.2)) := by
      simp only [maxLess, ea, eb, hr]
    rw [hl, h1, h2]
    by_cases h : p.toNat < q.toNat
    · rw [decide_eq_true h, Bool.true_or, if_pos rfl]; omega
    · rw [decide_eq_false h, Bool.false_or]
      by_cases h' : p = q
      · rw [h']; split <;> exact Nat.le_refl _
      · rw [decide_eq_false h', Bool.false_and, if_neg (by decide)]; omega
  rcases hP with rfl | rfl
  · rcases ha with ha | ⟨n, r, ha⟩ | ⟨n, r, ha⟩
    · exact nil (.inl ha)
    · rcases hb with hb | ⟨n', r', hb⟩ | ⟨n', r', hb⟩
      · exact nil (.inr hb)
      · exact num _ _ _ _ _ _ ha hb rfl rfl rfl (by simp [height, ha]) (by simp [height, hb])
      · exact num _ _ _ _ _ _ ha hb rfl rfl rfl (by simp [height, ha]) (by simp [height, hb])
    · rcases hb with hb | ⟨n', r', hb⟩ | ⟨n', r', hb⟩
      · exact nil (.inr hb)
      · exact num _ _ _ _ _ _ ha hb rfl rfl rfl (by simp [height, ha]) (by simp [height, hb])
      · exact num _ _ _ _ _ _ ha hb rfl rfl rfl (by simp [height, ha]) (by simp [height, hb])
  · rcases ha with ha | ⟨x, r, ha⟩
    · exact nil (.inl ha)
    rcases hb with hb | ⟨y, r', hb⟩
    · exact nil (.inr hb)
    have ka : height a.1 = x.rank + 1 := by simp [height, ha, Uuid.rank]
    have kb : height b.1 = y.rank + 1 := by simp [height, hb, Uuid.rank]
    have hl : maxLess v a b = Uuid.lt x y := by simp only [maxLess, ha, hb, rawLess]
    rw [ka, kb, hl]
    cases h : Uuid.lt x y
    · rw [if_neg (by decide)]
      have := rank_le h
      omega
    · rw [if_pos rfl]
      have := Uuid.rank_lt h
      omega

theorem rest_sub {inputs : List (List AOp)} : ∀ o ∈ (Rdt.maxRest inputs).flatten, o ∈ inputs.flatten := by
  intro o ho
  cases inputs with
  | nil => exact ho
  | cons i rest =>
    cases i with
    | nil => exact ho
    | cons x xs =>
      simp only [Rdt.maxRest] at ho
      split at ho
      · simp only [List.flatten_cons, List.mem_append, List.mem_cons] at ho ⊢
        exact ho.elim (fun h => .inl (.inr h)) .inr
      · exact ho

theorem of_rest {inputs : List (List AOp)} : ∀ o ∈ inputs.flatten, o ∈ maxHeader inputs ∨ o ∈ (Rdt.maxRest inputs).flatten := by
  intro o ho
  cases inputs with
  | nil => exact .inr ho
  | cons i rest =>
    cases i with
    | nil => exact .inr ho
    | cons x xs =>
      simp only [Rdt.maxRest, maxHeader]
      split
      · simp only [List.flatten_cons, List.mem_append, List.mem_cons] at ho ⊢
        rcases ho with (h | h) | h
        · exact .inl (.inl h)
        · exact .inr (.inl h)
        · exact .inr (.inr h)
      · exact .inr ho

theorem header_sub {inputs : List (List AOp)} : ∀ o ∈ maxHeader inputs, o ∈ inputs.flatten := by
  intro o ho
  match inputs, ho with
  | (x :: xs) :: rest, ho =>
    simp only [maxHeader] at ho
    split at ho
    · rw [List.mem_singleton.1 ho]; simp
    · cases ho

theorem highest_merge (v : View) (inputs : List (List AOp)) (hk : OneKind inputs.flatten) (x : AOp) (xs : List AOp)
    (hl : (Rdt.maxRest inputs).getLast? = some (x :: xs)) :
    ∃ out, mergeCursors v Form.MAX inputs = some (Status.OK, out) ∧ out ≠ [] ∧ Highest out inputs.flatten := by
  obtain ⟨m, e, hm, hmax⟩ := max_spec v inputs x xs hl
  have hb := punctuate_body (maxHeader inputs ++ [m])
  refine ⟨punctuate (maxHeader inputs ++ [m]), ?_, ?_, ?_, ?_⟩
  · show some (Status.OK, if Status.OK.ok then (Rdt.max v ABuilder.empty inputs).release else []) = _
    rw [show Status.OK.ok = true by decide, if_pos rfl, e]
  · intro h
    rw [h] at hb
    simp at hb
  · intro o ho
    obtain ⟨y, hy, hyb⟩ := mem_body hb ho
    rcases List.mem_append.1 hy with h | h
    · exact ⟨y, header_sub y h, hyb⟩
    · exact ⟨y, by rw [List.mem_singleton.1 h]; exact rest_sub m hm, hyb⟩
  · have hgt : ∀ a b : AOp, a.body = b.body → height a = height b := by
      intro a b h
      unfold height
      rw [show a.vals = b.vals from congrArg (·.2.2) h]
    have key : ∀ y ∈ (Rdt.maxRest inputs).flatten, height y ≤ height m := by
      rcases hk with hk | hk
      · exact hmax NumberOp height (height_step v (.inl rfl)) (fun o ho => hk o (rest_sub o ho))
      · exact hmax UuidOp height (height_step v (.inr rfl)) (fun o ho => hk o (rest_sub o ho))
    intro y hy
    rcases of_rest y hy with h | h
    · obtain ⟨o, ho, hob⟩ := mem_body hb.symm (List.mem_append_left [m] h)
      exact ⟨o, ho, by rw [hgt _ _ hob]; exact Nat.le_refl _⟩
    · obtain ⟨o, ho, hob⟩ := mem_body hb.symm (List.mem_append_right (maxHeader inputs) (List.mem_singleton.2 rfl))
      exact ⟨o, ho, by rw [hgt _ _ hob]; exact key y h⟩

theorem highest_refl (ops : List AOp) : Highest ops ops := ⟨fun o ho => ⟨o, ho, rfl⟩, fun x hx => ⟨x, hx, Nat.le_refl _⟩⟩

theorem highest_trans {a b c : List AOp} (h : Highest a b) (g : Highest b c) : Highest a c := by
  refine ⟨fun o ho => ?_, fun x hx => ?_⟩
  · obtain ⟨y, hy, e⟩ := h.1 o ho
    obtain ⟨z, hz, e'⟩ := g.1 y hy
    exact ⟨z, hz, e'.trans e⟩
  · obtain ⟨y, hy, e⟩ := g.2 x hx
    obtain ⟨z, hz, e'⟩ := h.2 y hy
    exact ⟨z, hz, Nat.le_trans e e'⟩

theorem highest_append {a b c d : List AOp} (h : Highest a b) (g : Highest c d) : Highest (a ++ c) (b ++ d) := by
  refine ⟨fun o ho => ?_, fun x hx => ?_⟩
  · rcases List.mem_append.1 ho with ho | ho
    · obtain ⟨y, hy, e⟩ := h.1 o ho
      exact ⟨y, List.mem_append_left _ hy, e⟩
    · obtain ⟨y, hy, e⟩ := g.1 o ho
      exact ⟨y, List.mem_append_right _ hy, e⟩
  · rcases List.mem_append.1 hx with hx | hx
    · obtain ⟨y, hy, e⟩ := h.2 x hx
      exact ⟨y, List.mem_append_left _ hy, e⟩
    · obtain ⟨y, hy, e⟩ := g.2 x hx
      exact ⟨y, List.mem_append_right _ hy, e⟩

theorem oneKind_of {a b : List AOp} (h : Highest a b) (k : OneKind b) : OneKind a := by
  rcases k with k | k
  · refine .inl fun o ho => ?_
    obtain ⟨x, hx, e⟩ := h.1 o ho
    have := k x hx
    unfold NumberOp at this ⊢
    rwa [show o.vals = x.vals from congrArg (·.2.2) e.symm]
  · refine .inr fun o ho => ?_
    obtain ⟨x, hx, e⟩ := h.1 o ho
    have := k x hx
    unfold UuidOp at this ⊢
    rwa [show o.vals = x.vals from congrArg (·.2.2) e.symm]

/-- With two inputs at least, none of them empty, a cursor past the end is not looked at. -/
theorem last_two {inputs : List (List AOp)} (hne : ∀ i ∈ inputs, i ≠ []) (h2 : 2 ≤ inputs.length) :
    ∃ x xs, (Rdt.maxRest inputs).getLast? = some (x :: xs) := by
  obtain ⟨x, xs, e⟩ := last_of hne (by intro h; rw [h] at h2; simp at h2)
  match inputs, h2 with
  | i :: j :: rest, _ =>
    refine ⟨x, xs, ?_⟩
    rw [← e]
    cases i with
    | nil => rfl
    | cons y ys =>
      simp only [Rdt.maxRest]
      split <;> simp [List.getLast?_cons_cons]

/-- Max registers: after any reads and writes, reading gives the greatest of everything written, numbers as unsigned ones, from
any store. -/
theorem C38_max_partial (v : View) (s : MemStore) (cmds : List Cmd) (k : Key) (res : Frame)
    (hf : k.form = Form.MAX) (hs : KeyOrder s) (hne : ∀ f ∈ stored k s ++ written k cmds, f ≠ [])
    (hk : OneKind (stored k s ++ written k cmds).flatten) :
    ∃ t out t', execAll (mergeCursors v) s cmds = some t ∧ t.read (mergeCursors v) k res = some (Status.OK, out, t') ∧
      Highest out (stored k s ++ written k cmds).flatten := by
  let Ok : List Frame → Prop := fun W => (∀ f ∈ W, f ≠ []) ∧ OneKind W.flatten
  let Inv : List Frame → List Frame → Prop := fun r W => (∀ f ∈ r, f ≠ []) ∧ Highest r.flatten W.flatten
  have hmerge : ∀ r W : List Frame, Inv r W → Ok W → 2 ≤ r.length →
      ∃ out, mergeCursors v k.form (withOps r) = some (Status.OK, out) ∧ Inv [out] W := by
    rintro r W ⟨h1, h2⟩ ⟨-, h3⟩ hl
    have hw : withOps r = r := List.filter_eq_self.2 fun f hf => by
      cases f with
      | nil => exact absurd rfl (h1 [] hf)
      | cons => rfl
    rw [hw, hf]
    obtain ⟨x, xs, e⟩ := last_two h1 hl
    obtain ⟨out, e', h4, h5⟩ := highest_merge v r (oneKind_of h2 h3) x xs e
    refine ⟨out, e', by simpa using h4, ?_⟩
    simp only [List.flatten_cons, List.flatten_nil, List.append_nil]
    exact highest_trans h5 h2
  obtain ⟨t, e1, ht, hi⟩ := exec_inv (mergeCursors v) (mergeCursors_some v) k Ok Inv
    (fun a b h => ⟨fun f hf => h.1 f (List.mem_append_left _ hf), by
      rcases h.2 with h | h
      · exact .inl fun o ho => h o (by rw [List.flatten_append]; exact List.mem_append_left _ ho)
      · exact .inr fun o ho => h o (by rw [List.flatten_append]; exact List.mem_append_left _ ho)⟩)
    (by
      rintro r W f ⟨h1, h2⟩ ⟨h3, -⟩
      refine ⟨fun g hg => ?_, ?_⟩
      · rcases List.mem_append.1 hg with hg | hg
        · exact h1 g hg
        · exact h3 g (List.mem_append_right _ hg)
      · rw [List.flatten_append, List.flatten_append]
        exact highest_append h2 (highest_refl _))
    hmerge cmds s (stored k s) hs ⟨fun f hf => hne f (List.mem_append_left _ hf), highest_refl _⟩ ⟨hne, hk⟩
  obtain ⟨out, t', e2, h⟩ := read_inv (mergeCursors v) k Inv ht hi (hmerge _ _ hi ⟨hne, hk⟩) res
  refine ⟨t, out, t', e1, e2, ?_⟩
  rcases h with ⟨-, h⟩ | ⟨rfl, -, h⟩
  · simpa using h
  · exact h

/-- The frame is empty or has an update with a value; headers have none. -/
def Valued (f : List AOp) : Prop := (f ≠ [] → ∃ o ∈ f, 0 < height o) ∧ ∀ o ∈ f, o.ref = MAX_UUID → height o = 0

theorem valued_last {inputs : List (List AOp)} (h0 : inputs ≠ []) (hne : ∀ i ∈ inputs, i ≠ [])
    (hv : ∀ i ∈ inputs, Valued i) : ∃ x xs, (Rdt.maxRest inputs).getLast? = some (x :: xs) := by
  match inputs, h0 with
  | [i], _ =>
    have hi := hv i (by simp)
    cases i with
    | nil => exact absurd rfl (hne [] (by simp))
    | cons y ys =>
      simp only [Rdt.maxRest]
      split
      · rename_i hr
        cases ys with
        | nil =>
          obtain ⟨o, ho, hp⟩ := hi.1 (by simp)
          rw [List.mem_singleton.1 ho, hi.2 y (by simp) hr] at hp
          exact absurd hp (by omega)
        | cons z zs => exact ⟨z, zs, rfl⟩
      · exact ⟨y, ys, rfl⟩
  | i :: j :: rest, _ => exact last_two hne (by simp)

theorem max_nothing (v : View) : mergeCursors v Form.MAX [] = some (Status.OK, []) := rfl

theorem valued_merge (v : View) (ins : List (List AOp)) (hk : OneKind ins.flatten) (hv : ∀ i ∈ ins, Valued i) :
    ∃ out, engineMerge (mergeCursors v) Form.MAX ins = some out ∧ Highest out ins.flatten ∧ Valued out := by
  have hok : Status.OK.ok = true := by decide
  unfold engineMerge
  by_cases h0 : withOps ins = []
  · rw [h0, max_nothing]
    have hf : ins.flatten = [] := by rw [← withOps_flatten, h0]; rfl
    refine ⟨[], by simp only [hok, if_true], ?_, ⟨fun h => absurd rfl h, fun o ho => by cases ho⟩⟩
    rw [hf]
    exact highest_refl _
  · have hsub : ∀ i ∈ withOps ins, i ∈ ins ∧ i ≠ [] := by
      intro i hi
      have := List.mem_filter.1 hi
      exact ⟨this.1, by intro h; rw [h] at this; exact absurd this.2 (by decide)⟩
    obtain ⟨x, xs, hl⟩ := valued_last h0 (fun i hi => (hsub i hi).2) (fun i hi => hv i (hsub i hi).1)
    rw [← withOps_flatten] at hk
    obtain ⟨out, e, h1, h2⟩ := highest_merge v (withOps ins) hk x xs hl
    rw [e]
    rw [withOps_flatten] at h2
    refine ⟨out, by simp only [hok, if_true], h2, fun _ => ?_, fun o ho hr => ?_⟩
    · match hw : withOps ins, h0 with
      | i :: rest, _ =>
        have hi : i ∈ withOps ins := by rw [hw]; exact List.mem_cons_self
        obtain ⟨y, hy, hp⟩ := (hv i (hsub i hi).1).1 (hsub i hi).2
        obtain ⟨o, ho, hle⟩ := h2.2 y (List.mem_flatten.2 ⟨i, (hsub i hi).1, hy⟩)
        exact ⟨o, ho, by omega⟩
    · obtain ⟨y, hy, e⟩ := h2.1 o ho
      obtain ⟨i, hi, hyi⟩ := List.mem_flatten.1 hy
      have := (hv i hi).2 y hyi (by rw [show y.ref = o.ref from congrArg (·.2.1) e]; exact hr)
      unfold height at this ⊢
      rwa [show o.vals = y.vals from congrArg (·.2.2) e.symm]

/-- Max registers: however the frames are grouped, the merge is the greatest of all. -/
theorem C42_max_partial (v : View) (t : MergeTree) (hk : OneKind t.leaves.flatten) (hv : ∀ i ∈ t.leaves, Valued i) :
    ∃ out, t.eval (engineMerge (mergeCursors v) Form.MAX) = some out ∧ Highest out t.leaves.flatten := by
  suffices h : OneKind t.leaves.flatten → (∀ i ∈ t.leaves, Valued i) →
      ∃ out, t.eval (engineMerge (mergeCursors v) Form.MAX) = some out ∧ Highest out t.leaves.flatten ∧ Valued out by
    obtain ⟨out, h1, h2, -⟩ := h hk hv
    exact ⟨out, h1, h2⟩
  have left : ∀ {a b : List AOp}, OneKind (a ++ b) → OneKind a ∧ OneKind b := by
    rintro a b (h | h)
    · exact ⟨.inl fun o ho => h o (List.mem_append_left _ ho), .inl fun o ho => h o (List.mem_append_right _ ho)⟩
    · exact ⟨.inr fun o ho => h o (List.mem_append_left _ ho), .inr fun o ho => h o (List.mem_append_right _ ho)⟩
  refine MergeTree.rec
    (motive_1 := fun t => OneKind t.leaves.flatten → (∀ i ∈ t.leaves, Valued i) →
      ∃ out, t.eval (engineMerge (mergeCursors v) Form.MAX) = some out ∧ Highest out t.leaves.flatten ∧ Valued out)
    (motive_2 := fun ts => OneKind (MergeTree.leavesAll ts).flatten → (∀ i ∈ MergeTree.leavesAll ts, Valued i) →
      ∃ outs, MergeTree.evalAll (engineMerge (mergeCursors v) Form.MAX) ts = some outs ∧
        Highest outs.flatten (MergeTree.leavesAll ts).flatten ∧ ∀ i ∈ outs, Valued i)
    ?_ ?_ ?_ ?_ t
  · intro ops hk hv
    refine ⟨ops, by simp [MergeTree.eval], ?_, hv ops (by simp [MergeTree.leaves])⟩
    simp only [MergeTree.leaves, List.flatten_cons, List.flatten_nil, List.append_nil]
    exact highest_refl _
  · intro ts ih hk hv
    simp only [MergeTree.leaves] at hk hv ⊢
    obtain ⟨outs, e, h1, h2⟩ := ih hk hv
    obtain ⟨out, e', h3, h4⟩ := valued_merge v outs (oneKind_of h1 hk) h2
    exact ⟨out, by simp only [MergeTree.eval, e, Option.bind_some, e'], highest_trans h3 h1, h4⟩
  · intro _ _
    exact ⟨[], by simp [MergeTree.evalAll], by simpa [MergeTree.leavesAll] using highest_refl [], fun i hi => by cases hi⟩
  · intro t ts ih1 ih2 hk hv
    simp only [MergeTree.leavesAll, List.flatten_append] at hk hv ⊢
    obtain ⟨out, e1, h1, h2⟩ := ih1 (left hk).1 (fun i hi => hv i (List.mem_append_left _ hi))
    obtain ⟨outs, e2, h3, h4⟩ := ih2 (left hk).2 (fun i hi => hv i (List.mem_append_right _ hi))
    refine ⟨out :: outs, by simp [MergeTree.evalAll, e1, e2], ?_, ?_⟩
    · rw [List.flatten_cons]
      exact highest_append h1 h3
    · intro i hi
      rcases List.mem_cons.1 hi with rfl | hi
      · exact h2
      · exact h4 i hi

/-- What `Highest` is of integers that are not negative: the greatest one is there. -/
theorem highest_greatest {out ops : List AOp} (h : Highest out ops) (hk : MaxOps ops) (hsome : ∃ o ∈ ops, intOf o ≠ none)
    (hpos : ∀ o ∈ ops, ∀ k, intOf o = some k → 0 ≤ k) : ∃ m ∈ out, ∃ n, intOf m = some n ∧ Greatest ops n := by
  have ht : ∀ o ∈ ops, ∀ k, intOf o = some k → (height o : Int) = k + 1 := by
    intro o ho k hk'
    have h0 := hpos o ho k hk'
    rcases hk o ho with h1 | ⟨k', h1, h2, h3⟩
    · simp [intOf, h1] at hk'
    · rw [hk'] at h1
      cases h1
      have hv : ∃ r, o.vals = .int k :: r := by
        unfold intOf at hk'
        split at hk'
        · cases hk'; exact ⟨_, by assumption⟩
        · cases hk'
      obtain ⟨r, hv⟩ := hv
      simp only [height, hv, BitVec.toNat_ofInt]
      have : k % ((2 ^ 64 : Nat) : Int) = k := Int.emod_eq_of_lt h0 (by omega)
      rw [this]
      omega
  -- an op with the greatest height
  have top : ∀ l : List AOp, (∃ o ∈ l, intOf o ≠ none) → (∀ o ∈ l, o ∈ ops) →
      ∃ o ∈ l, intOf o ≠ none ∧ ∀ x ∈ l, intOf x ≠ none → height x ≤ height o := by
    intro l
    induction l with
    | nil => rintro ⟨o, ho, -⟩; cases ho
    | cons a l ih =>
      intro hs hl
      by_cases hex : ∃ o ∈ l, intOf o ≠ none
      · obtain ⟨o, ho, h1, h2⟩ := ih hex (fun o ho => hl o (List.mem_cons_of_mem _ ho))
        by_cases hc : intOf a ≠ none ∧ height o < height a
        · refine ⟨a, List.mem_cons_self, hc.1, fun x hx hi => ?_⟩
          rcases List.mem_cons.1 hx with rfl | hx
          · exact Nat.le_refl _
          · have := h2 x hx hi; omega
        · refine ⟨o, List.mem_cons_of_mem _ ho, h1, fun x hx hi => ?_⟩
          rcases List.mem_cons.1 hx with rfl | hx
          · by_cases hlt : height o < height x
            · exact absurd ⟨hi, hlt⟩ hc
            · omega
          · exact h2 x hx hi
      · obtain ⟨o, ho, hi⟩ := hs
        rcases List.mem_cons.1 ho with rfl | ho
        · refine ⟨o, List.mem_cons_self, hi, fun x hx hxi => ?_⟩
          rcases List.mem_cons.1 hx with rfl | hx
          · exact Nat.le_refl _
          · exact absurd ⟨x, hx, hxi⟩ hex
        · exact absurd ⟨o, ho, hi⟩ hex
  obtain ⟨b, hb, hbi, hbt⟩ := top ops hsome fun _ h => h
  obtain ⟨m, hm, hle⟩ := h.2 b hb
  obtain ⟨y, hy, hyb⟩ := h.1 m hm
  have hym : height y = height m := by
    unfold height
    rw [show y.vals = m.vals from congrArg (·.2.2) hyb]
  have hyi : intOf y = intOf m := by
    unfold intOf
    rw [show y.vals = m.vals from congrArg (·.2.2) hyb]
  obtain ⟨kb, hkb⟩ := Option.ne_none_iff_exists'.1 hbi
  have hb1 := ht b hb kb hkb
  have hbp := hpos b hb kb hkb
  have hn : ∃ n, intOf y = some n := by
    rcases hk y hy with h1 | ⟨n, h1, -⟩
    · have : height y = 0 := by simp [height, h1]
      omega
    · exact ⟨n, h1⟩
  obtain ⟨n, hn⟩ := hn
  have hy1 := ht y hy n hn
  refine ⟨m, hm, n, by rw [← hyi]; exact hn, ⟨y, hy, hn⟩, fun x hx k hxk => ?_⟩
  have hx1 := ht x hx k hxk
  have := hbt x hx (by rw [hxk]; simp)
  omega

theorem C38_max_numbers_partial (v : View) (s : MemStore) (cmds : List Cmd) (k : Key) (res : Frame)
    (hf : k.form = Form.MAX) (hs : KeyOrder s) (hne : ∀ f ∈ stored k s ++ written k cmds, f ≠ [])
    (hk : MaxOps (stored k s ++ written k cmds).flatten)
    (hsome : ∃ o ∈ (stored k s ++ written k cmds).flatten, intOf o ≠ none)
    (hpos : ∀ o ∈ (stored k s ++ written k cmds).flatten, ∀ n, intOf o = some n → 0 ≤ n) :
    ∃ t out t', execAll (mergeCursors v) s cmds = some t ∧ t.read (mergeCursors v) k res = some (Status.OK, out, t') ∧
      ∃ m ∈ out, ∃ n, intOf m = some n ∧ Greatest (stored k s ++ written k cmds).flatten n := by
  obtain ⟨t, out, t', e1, e2, h⟩ := C38_max_partial v s cmds k res hf hs hne (.inl fun o ho => by
    rcases hk o ho with h | ⟨n, h, -⟩
    · exact .inl h
    · unfold intOf at h
      split at h
      · exact .inr (.inl ⟨_, _, by assumption⟩)
      · cases h)
  exact ⟨t, out, t', e1, e2, highest_greatest h hk hsome hpos⟩

private def evA (t : Nat) : Uuid := ⟨BitVec.ofNat 64 t, 7#64⟩
private def mx (t : Nat) (vals : List AVal := []) : AOp := ⟨evA t, evA 1, vals, .reduced⟩
private def key1 : Key := Key.mk' (evA 1) Form.MAX
/-- A register, reads between writes. -/
private def max38 : List Cmd := [.write key1 [⟨evA 1, MAX_UUID, [], .header⟩], .write key1 [mx 2 [.int 5]], .read key1 [],
  .write key1 [mx 3 [.int 9], mx 4 [.int 7]], .read key1 [], .write key1 [mx 5 [.int 8]]]

example : KeyOrder ([] : MemStore) ∧ (∀ f ∈ stored key1 [] ++ written key1 max38, f ≠ []) ∧
    MaxOps (stored key1 [] ++ written key1 max38).flatten ∧
    ∃ o ∈ (stored key1 [] ++ written key1 max38).flatten, intOf o ≠ none := by
  refine ⟨List.Pairwise.nil, by decide +kernel, ?_, by decide +kernel⟩
  rw [show (stored key1 [] ++ written key1 max38).flatten =
    [⟨evA 1, MAX_UUID, [], .header⟩, mx 2 [.int 5], mx 3 [.int 9], mx 4 [.int 7], mx 5 [.int 8]] by decide +kernel]
  intro o ho
  simp only [List.mem_cons, List.not_mem_nil, or_false] at ho
  rcases ho with rfl | rfl | rfl | rfl | rfl
  · exact .inl rfl
  · exact .inr ⟨5, rfl, by omega, by omega⟩
  · exact .inr ⟨9, rfl, by omega, by omega⟩
  · exact .inr ⟨7, rfl, by omega, by omega⟩
  · exact .inr ⟨8, rfl, by omega, by omega⟩

example : Valued [⟨evA 1, MAX_UUID, [], .header⟩, mx 2 [.int 5]] ∧ Valued [mx 3 [.int 9]] := by
  unfold Valued
  decide +kernel

end Ron.Props
