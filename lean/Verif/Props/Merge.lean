import Verif.Lemmas.MaxRdt
/-!
Merging of frames: C27, C28, C34–C37.
-/
namespace Ron.Props
open Ron Rdt Spec

/-- Test data. -/
private def u (v o : Nat) : Uuid := ⟨BitVec.ofNat 64 v, BitVec.ofNat 64 o⟩
private def op (i r : Nat) (vals : List AVal := []) (t : Term := .reduced) : AOp :=
  ⟨u i 7, u r 7, vals, t⟩
private def noView : View := ⟨fun _ _ => false, fun _ => op 0 0⟩

/-! ## C27 — the k-way merge emits every op once, in order -/

/-- Merging any number of id-ordered inputs succeeds with an id-ordered frame without duplicates
which has an id if and only if some input has it. -/
theorem C27_ordered_merge (v : View) (f : Form) (hf : f = Form.LWW ∨ f = Form.MX ∨ f = Form.YARN)
    (inputs : List (List AOp)) (hs : ∀ i ∈ inputs, IdSorted i) :
    ∃ out, mergeCursors v f inputs = some (Status.OK, out) ∧ IdSorted out ∧
      ∀ x, (∃ o ∈ out, o.id = x) ↔ ∃ i ∈ inputs, ∃ o ∈ i, o.id = x := by
  obtain ⟨out, e, h1, h2, _⟩ := merge_id v hf inputs hs
  refine ⟨out, e, h1, fun x => ?_⟩
  rw [h2]
  simp only [List.mem_flatten]
  constructor
  · rintro ⟨o, ⟨i, hi, ho⟩, rfl⟩; exact ⟨i, hi, o, ho, rfl⟩
  · rintro ⟨i, hi, o, ho, rfl⟩; exact ⟨o, ⟨i, hi, ho⟩, rfl⟩

/-- The iterator itself, whatever the contents of the inputs: it ends, does not leave its heap,
and hands out every id of the inputs and only ops of the inputs. -/
theorem C27_iterator_total (inputs : List (List AOp)) :
    ∃ out, Heap.merge idLess sameId inputs = some out ∧ (∀ o ∈ out, ∃ i ∈ inputs, o ∈ i) ∧
      ∀ i ∈ inputs, ∀ o ∈ i, ∃ p ∈ out, p.id = o.id := by
  obtain ⟨out, e, h1, h2⟩ := Heap.merge_any (same := sameId) idOrder same_refl inputs
  refine ⟨out, e, fun o ho => ?_, fun i hi o ho => ?_⟩
  · obtain ⟨i, hi, h⟩ := List.mem_flatten.1 (h1 o ho); exact ⟨i, hi, h⟩
  · obtain ⟨p, hp, h⟩ := h2 o (List.mem_flatten.2 ⟨i, hi, ho⟩)
    exact ⟨p, hp, ((same_iff _ _).1 h).symm⟩

example : (∀ i ∈ [[op 1 0, op 3 1, op 5 3], [op 1 0, op 2 1], [op 4 1]], IdSorted i) ∧
    (mergeCursors noView Form.LWW [[op 1 0, op 3 1, op 5 3], [op 1 0, op 2 1], [op 4 1]]).map
      (fun r => r.2.map fun o => o.id.value.toNat) = some [1, 2, 3, 4, 5] := by
  refine ⟨by unfold IdSorted; decide, by decide +kernel⟩

/-! ## C28 — state merge is independent of order, grouping and repetition -/

/-- Two ways of merging, with any number of inputs and any intermediate merges, that start from
the same events give the same frame. -/
theorem C28_merge_confluent (v : View) (f : Form)
    (hf : f = Form.LWW ∨ f = Form.MX ∨ f = Form.YARN) (s t : List MergeTree)
    (hs : (MergeTree.merge s).Sorted) (ht : (MergeTree.merge t).Sorted)
    (hc : Consistent (MergeTree.merge t).ops)
    (he : SameEvents (MergeTree.merge s).ops (MergeTree.merge t).ops) :
    ∃ out, (MergeTree.merge s).eval (mergeFn v f) = some out ∧
      (MergeTree.merge t).eval (mergeFn v f) = some out ∧ SameEvents out (MergeTree.merge t).ops := by
  have one : ∀ ts : List MergeTree, (MergeTree.merge ts).Sorted →
      Consistent (MergeTree.merge ts).ops → ∃ out, (MergeTree.merge ts).eval (mergeFn v f) = some out ∧
        IdSorted out ∧ SameEvents out (MergeTree.merge ts).ops ∧ punctuate out = out := by
    intro ts hs hc
    simp only [MergeTree.Sorted] at hs
    simp only [MergeTree.ops] at hc ⊢
    obtain ⟨outs, e, h1, h2⟩ := tree_evalAll v hf ts hs hc
    obtain ⟨out, e', g1, g2, g3⟩ := merge_id_same v hf outs h1 (Rdt.Consistent.of_same h2 hc)
    refine ⟨out, ?_, g1, Rdt.SameEvents.trans g2 h2, g3⟩
    simp only [MergeTree.eval, e, Option.bind_some, mergeFn, e']
    rfl
  obtain ⟨a, ea, a1, a2, a3⟩ := one s hs (Rdt.Consistent.of_same he hc)
  obtain ⟨b, eb, b1, b2, b3⟩ := one t ht hc
  have hab : a = b := by
    rw [← a3, ← b3]
    exact punctuate_congr _ _ (sorted_unique a b a1 b1
      (Rdt.SameEvents.trans a2 (Rdt.SameEvents.trans he (Rdt.SameEvents.symm b2))))
  subst hab
  exact ⟨a, ea, eb, b2⟩

/-- In particular: order, grouping and repetition of three frames do not matter. -/
theorem C28_comm_assoc_idem (v : View) (f : Form)
    (hf : f = Form.LWW ∨ f = Form.MX ∨ f = Form.YARN) (a b c : List AOp)
    (ha : IdSorted a) (hb : IdSorted b) (hc : IdSorted c) (hcon : Consistent (a ++ b ++ c)) :
    ∃ abc ab bc, mergeFn v f [a, b, c] = some abc ∧ mergeFn v f [c, a, b, a, c] = some abc ∧
      mergeFn v f [a, b] = some ab ∧ mergeFn v f [ab, c] = some abc ∧
      mergeFn v f [b, c] = some bc ∧ mergeFn v f [a, bc] = some abc ∧
      mergeFn v f [abc, abc] = some abc := by
  have hid : ∀ x, SameEvents x x := fun _ _ => .rfl
  obtain ⟨abc, e1, h1, h1s, h1p⟩ := merge_id_same v hf [a, b, c] (by simp [ha, hb, hc]) (by simpa using hcon)
  have uniq : ∀ ins : List (List AOp), (∀ i ∈ ins, IdSorted i) → SameEvents ins.flatten (a ++ b ++ c) →
      mergeFn v f ins = some abc := by
    intro ins hs he
    obtain ⟨x, e, g1, g2, g3⟩ := merge_id_same v hf ins hs (Rdt.Consistent.of_same he hcon)
    have : x = abc := by
      rw [← g3, ← h1p]
      refine punctuate_congr _ _ (sorted_unique x abc g1 h1 (Rdt.SameEvents.trans g2
        (Rdt.SameEvents.trans he (Rdt.SameEvents.symm ?_))))
      simpa using h1s
    subst this
    unfold mergeFn; rw [e]; rfl
  obtain ⟨ab, e2, h2, h2s, _⟩ := merge_id_same v hf [a, b] (by simp [ha, hb])
    (fun x hx y hy => hcon x (by simp at hx ⊢; grind) y (by simp at hy ⊢; grind))
  obtain ⟨bc, e3, h3, h3s, _⟩ := merge_id_same v hf [b, c] (by simp [hb, hc])
    (fun x hx y hy => hcon x (by simp at hx ⊢; grind) y (by simp at hy ⊢; grind))
  refine ⟨abc, ab, bc, uniq _ (by simp [ha, hb, hc]) (by intro x; simp), ?_, ?_, ?_, ?_, ?_, ?_⟩
  · refine uniq _ (by simp [ha, hb, hc]) ?_
    intro x; simp only [List.flatten_cons, List.flatten_nil, List.mem_append, List.append_nil]
    constructor
    · rintro ⟨o, h, e⟩; exact ⟨o, by grind, e⟩
    · rintro ⟨o, h, e⟩; exact ⟨o, by grind, e⟩
  · unfold mergeFn; rw [e2]; rfl
  · refine uniq _ (by simp [h2, hc]) ?_
    have : SameEvents (ab ++ c) ([a, b].flatten ++ c) := Rdt.SameEvents.append h2s (hid c)
    simpa using this
  · unfold mergeFn; rw [e3]; rfl
  · refine uniq _ (by simp [h3, ha]) ?_
    have : SameEvents (a ++ bc) (a ++ [b, c].flatten) := Rdt.SameEvents.append (hid a) h3s
    simpa using this
  · refine uniq _ (by simp [h1]) ?_
    intro x
    have := h1s x
    simp only [List.flatten_cons, List.flatten_nil, List.append_nil] at this
    simp only [List.flatten_cons, List.flatten_nil, List.append_nil, List.mem_append, or_self]
    rw [this]
    simp [or_assoc]

example : IdSorted [op 1 0, op 2 1] ∧ IdSorted [op 1 0, op 3 1] ∧ IdSorted [op 3 1 [] .raw] ∧
    Consistent ([op 1 0, op 2 1] ++ [op 1 0, op 3 1] ++ [op 3 1 [] .raw]) := by
  unfold IdSorted Consistent; decide

/-! ## C34 — the max type keeps the maximum -/

/-- The full claim. -/
def C34_claim : Prop := ∀ (v : View) (inputs : List (List AOp)), (∀ i ∈ inputs, i ≠ []) →
  MaxOps inputs.flatten → (∃ o ∈ inputs.flatten, intOf o ≠ none) →
  (∀ o ∈ inputs.flatten, o.ref = MAX_UUID → o.vals = []) →
  ∃ out m n, mergeCursors v Form.MAX inputs = some (Status.OK, out) ∧ m ∈ out ∧
    intOf m = some n ∧ Greatest inputs.flatten n

/-- It fails: the comparison is unsigned, so `-1` beats `5`. -/
theorem C34_violated : ¬ C34_claim := by
  intro h
  have := h noView [[⟨u 1 7, MAX_UUID, [], .reduced⟩, op 2 1 [.int 5]], [op 3 1 [.int (-1)]]]
    (by decide) (by unfold MaxOps; decide +kernel) (by decide) (by decide)
  obtain ⟨out, m, n, e, hm, hn, h1, h2⟩ := this
  have hout : mergeCursors noView Form.MAX
      [[⟨u 1 7, MAX_UUID, [], .reduced⟩, op 2 1 [.int 5]], [op 3 1 [.int (-1)]]] =
      some (Status.OK, [⟨u 1 7, MAX_UUID, [], .reduced⟩, op 3 1 [.int (-1)] .raw]) := by decide +kernel
  rw [hout] at e
  cases e
  have h5 := h2 (op 2 1 [.int 5]) (by decide) 5 rfl
  have : ∀ m ∈ [(⟨u 1 7, MAX_UUID, [], .reduced⟩ : AOp), op 3 1 [.int (-1)] .raw],
      ∀ n, intOf m = some n → n = -1 := by
    intro m hm n hn
    simp only [List.mem_cons, List.not_mem_nil, or_false] at hm
    rcases hm with rfl | rfl
    · cases hn
    · cases hn; rfl
  have := this m hm n hn
  omega

/-- What does hold for all integers: the op with the greatest value *as an unsigned number*
is kept, whatever the order of the inputs.
Missing for the full claim: negative values, see `C34_violated`. -/
theorem C34_unsigned_partial (v : View) (inputs : List (List AOp)) (hne : ∀ i ∈ inputs, i ≠ [])
    (hops : MaxOps inputs.flatten) (hsome : ∃ o ∈ inputs.flatten, intOf o ≠ none)
    (hhdr : ∀ o ∈ inputs.flatten, o.ref = MAX_UUID → o.vals = []) :
    ∃ out m n, mergeCursors v Form.MAX inputs = some (Status.OK, out) ∧ m ∈ out ∧
      intOf m = some n ∧ (∃ o ∈ inputs.flatten, o.body = m.body) ∧
      ∀ o ∈ inputs.flatten, ∀ k, intOf o = some k →
        (BitVec.ofInt 64 k).toNat ≤ (BitVec.ofInt 64 n).toNat := by
  -- the last of the remaining inputs is not empty
  have hrest : ∀ o, o ∈ inputs.flatten → intOf o ≠ none → o ∈ (maxRest inputs).flatten := by
    intro o ho hi
    cases inputs with
    | nil => simp at ho
    | cons i rest =>
      cases i with
      | nil => exact absurd rfl (hne [] (by simp))
      | cons x xs =>
        simp only [maxRest]
        by_cases hr : x.ref = MAX_UUID
        · rw [if_pos hr]
          simp only [List.flatten_cons, List.mem_append, List.mem_cons] at ho ⊢
          rcases ho with (rfl | h) | h
          · have := hhdr o (by simp) hr
            simp [intOf, this] at hi
          · exact .inl h
          · exact .inr h
        · rw [if_neg hr]; exact ho
  have hsub : ∀ o ∈ (maxRest inputs).flatten, o ∈ inputs.flatten := by
    intro o ho
    cases inputs with
    | nil => exact ho
    | cons i rest =>
      cases i with
      | nil => exact ho
      | cons x xs =>
        simp only [maxRest] at ho
        by_cases hr : x.ref = MAX_UUID
        · rw [if_pos hr] at ho
          simp only [List.flatten_cons, List.mem_append, List.mem_cons] at ho ⊢
          rcases ho with h | h
          · exact .inl (.inr h)
          · exact .inr h
        · rw [if_neg hr] at ho; exact ho
  obtain ⟨w, hw, hwi⟩ := hsome
  have hlast : ∃ x xs, (maxRest inputs).getLast? = some (x :: xs) := by
    have hw' := hrest w hw hwi
    cases inputs with
    | nil => simp at hw
    | cons i rest =>
      cases i with
      | nil => exact absurd rfl (hne [] (by simp))
      | cons x xs =>
        rcases List.eq_nil_or_concat rest with hr0 | ⟨ini, l, hr0⟩
        · subst hr0
          simp only [maxRest] at hw' ⊢
          by_cases hr : x.ref = MAX_UUID
          · rw [if_pos hr] at hw' ⊢
            cases xs with
            | nil => simp at hw'
            | cons y ys => exact ⟨y, ys, rfl⟩
          · rw [if_neg hr]; exact ⟨x, xs, rfl⟩
        · rw [List.concat_eq_append] at hr0
          have hl : l ≠ [] := hne l (by simp [hr0])
          cases l with
          | nil => exact absurd rfl hl
          | cons y ys =>
            refine ⟨y, ys, ?_⟩
            subst hr0
            simp only [maxRest]
            by_cases hr : x.ref = MAX_UUID
            · rw [if_pos hr, show xs :: (ini ++ [y :: ys]) = (xs :: ini) ++ [y :: ys] from rfl,
                List.getLast?_concat]
            · rw [if_neg hr, show (x :: xs) :: (ini ++ [y :: ys]) = ((x :: xs) :: ini) ++ [y :: ys]
                from rfl, List.getLast?_concat]
  obtain ⟨x, xs, hlast⟩ := hlast
  obtain ⟨m, e, hm, hmax⟩ := max_spec v inputs x xs hlast
  let key : AOp → Nat := fun o => match intOf o with
    | none => 0
    | some n => (BitVec.ofInt 64 n).toNat + 1
  have hkey := hmax (fun o => o.vals = [] ∨ ∃ n, intOf o = some n) key (by
      intro a b ha hb
      have hint : ∀ o : AOp, (∃ n, intOf o = some n) → ∃ n r, o.vals = .int n :: r := by
        intro o ⟨n, hn⟩
        unfold intOf at hn
        cases hv : o.vals with
        | nil => rw [hv] at hn; cases hn
        | cons y ys =>
          rw [hv] at hn
          cases y <;> simp at hn
          exact ⟨_, _, rfl⟩
      rcases ha with ha | ha <;> rcases hb with hb | hb
      · have ka : key a.1 = 0 := by simp [key, intOf, ha]
        have kb : key b.1 = 0 := by simp [key, intOf, hb]
        rw [ka, kb]; split <;> exact Nat.le_refl _
      · obtain ⟨n, r, hb⟩ := hint _ hb
        have ka : key a.1 = 0 := by simp [key, intOf, ha]
        have : maxLess v a b = true := by simp [maxLess, ha, hb]
        rw [this, if_pos rfl, ka]; exact Nat.zero_le _
      · obtain ⟨n, r, ha⟩ := hint _ ha
        have kb : key b.1 = 0 := by simp [key, intOf, hb]
        have : maxLess v a b = false := by simp [maxLess, ha, hb]
        rw [this, kb]; simp
      · obtain ⟨n, r, ha⟩ := hint _ ha
        obtain ⟨n', r', hb⟩ := hint _ hb
        have ka : key a.1 = (BitVec.ofInt 64 n).toNat + 1 := by simp [key, intOf, ha]
        have kb : key b.1 = (BitVec.ofInt 64 n').toNat + 1 := by simp [key, intOf, hb]
        have hl : maxLess v a b = (decide ((BitVec.ofInt 64 n).toNat < (BitVec.ofInt 64 n').toNat) ||
            (decide (BitVec.ofInt 64 n = BitVec.ofInt 64 n') && v.tie a.2 b.2)) := by
          simp only [maxLess, ha, hb, rawLess, valWord?]
        rw [hl, ka, kb]
        by_cases h1 : (BitVec.ofInt 64 n).toNat < (BitVec.ofInt 64 n').toNat
        · rw [decide_eq_true h1, Bool.true_or, if_pos rfl]; omega
        · rw [decide_eq_false h1, Bool.false_or]
          by_cases h2 : BitVec.ofInt 64 n = BitVec.ofInt 64 n'
          · rw [h2]; split <;> exact Nat.le_refl _
          · rw [decide_eq_false h2, Bool.false_and, if_neg (by decide)]; omega)
    (fun o ho => (hops o (hsub o ho)).imp_right fun ⟨n, h, _⟩ => ⟨n, h⟩)
  have hmi : ∃ n, intOf m = some n := by
    have := hkey w (hrest w hw hwi)
    rcases hops m (hsub m hm) with h | ⟨n, h, _⟩
    · have k0 : key m = 0 := by simp [key, intOf, h]
      have kw : key w ≠ 0 := by
        cases hc : intOf w with
        | none => exact absurd hc hwi
        | some k => simp [key, hc]
      omega
    · exact ⟨n, h⟩
  obtain ⟨n, hn⟩ := hmi
  -- the kept op is in the output
  have hin : ∃ m' ∈ punctuate (maxHeader inputs ++ [m]), m'.body = m.body :=
    mem_body (punctuate_body _).symm (by simp)
  obtain ⟨m', hm', hb⟩ := hin
  have hn' : intOf m' = some n := by
    rw [← hn]; unfold intOf
    rw [show m'.vals = m.vals from congrArg (·.2.2) hb]
  refine ⟨_, m', n, ?_, hm', hn', ⟨m, hsub m hm, hb.symm⟩, ?_⟩
  · show some (Status.OK, if Status.OK.ok then (Rdt.max v ABuilder.empty inputs).release else []) = _
    rw [show Status.OK.ok = true by decide, if_pos rfl, e]
  · intro o ho k hk
    have := hkey o (hrest o ho (by rw [hk]; simp))
    have ko : key o = (BitVec.ofInt 64 k).toNat + 1 := by simp [key, hk]
    have km : key m = (BitVec.ofInt 64 n).toNat + 1 := by simp [key, hn]
    omega

/-- Without negative values the greatest value is kept. -/
theorem C34_nonnegative_partial (v : View) (inputs : List (List AOp)) (hne : ∀ i ∈ inputs, i ≠ [])
    (hops : MaxOps inputs.flatten) (hsome : ∃ o ∈ inputs.flatten, intOf o ≠ none)
    (hhdr : ∀ o ∈ inputs.flatten, o.ref = MAX_UUID → o.vals = [])
    (hpos : ∀ o ∈ inputs.flatten, ∀ k, intOf o = some k → 0 ≤ k) :
    ∃ out m n, mergeCursors v Form.MAX inputs = some (Status.OK, out) ∧ m ∈ out ∧
      intOf m = some n ∧ Greatest inputs.flatten n := by
  obtain ⟨out, m, n, e, hm, hn, ⟨o, ho, hb⟩, h⟩ := C34_unsigned_partial v inputs hne hops hsome hhdr
  have hon : intOf o = some n := by
    rw [← hn]; unfold intOf
    rw [show o.vals = m.vals from congrArg (·.2.2) hb]
  have range : ∀ o ∈ inputs.flatten, ∀ k, intOf o = some k →
      ((BitVec.ofInt 64 k).toNat : Int) = k := by
    intro o ho k hk
    have h0 := hpos o ho k hk
    rcases hops o ho with h1 | ⟨k', h1, h2, h3⟩
    · simp [intOf, h1] at hk
    · rw [hk] at h1; cases h1
      rw [BitVec.toNat_ofInt]
      have : k % ((2 ^ 64 : Nat) : Int) = k := Int.emod_eq_of_lt h0 (by omega)
      rw [this]; omega
  refine ⟨out, m, n, e, hm, hn, ⟨o, ho, hon⟩, fun p hp k hk => ?_⟩
  have := h p hp k hk
  have a := range p hp k hk
  have b := range o ho n hon
  omega

/-- So the value kept does not depend on the order of the inputs. -/
theorem C34_order_independent_partial (v v' : View) (inputs inputs' : List (List AOp))
    (hp : inputs.Perm inputs') (hne : ∀ i ∈ inputs, i ≠ [])
    (hops : MaxOps inputs.flatten) (hsome : ∃ o ∈ inputs.flatten, intOf o ≠ none)
    (hhdr : ∀ o ∈ inputs.flatten, o.ref = MAX_UUID → o.vals = [])
    (hpos : ∀ o ∈ inputs.flatten, ∀ k, intOf o = some k → 0 ≤ k) :
    ∃ out out' n, mergeCursors v Form.MAX inputs = some (Status.OK, out) ∧
      mergeCursors v' Form.MAX inputs' = some (Status.OK, out') ∧
      (∃ m ∈ out, intOf m = some n) ∧ ∃ m ∈ out', intOf m = some n := by
  have hf : ∀ o, o ∈ inputs'.flatten ↔ o ∈ inputs.flatten := fun o => (hp.flatten).mem_iff.symm
  obtain ⟨out, m, n, e, hm, hn, ⟨o1, ho1, h1⟩, g1⟩ :=
    C34_nonnegative_partial v inputs hne hops hsome hhdr hpos
  obtain ⟨out', m', n', e', hm', hn', ⟨o2, ho2, h2⟩, g2⟩ := C34_nonnegative_partial v' inputs'
    (fun i hi => hne i (hp.mem_iff.2 hi)) (fun o ho => hops o ((hf o).1 ho))
    (by obtain ⟨o, ho, h⟩ := hsome; exact ⟨o, (hf o).2 ho, h⟩)
    (fun o ho => hhdr o ((hf o).1 ho)) (fun o ho => hpos o ((hf o).1 ho))
  have : n = n' := by
    have a := g1 o2 ((hf o2).1 ho2) n' h2
    have b := g2 o1 ((hf o1).2 ho1) n h1
    omega
  subst this
  exact ⟨out, out', n, e, e', ⟨m, hm, hn⟩, ⟨m', hm', hn'⟩⟩

example : let ins := [[(⟨u 1 7, MAX_UUID, [], .reduced⟩ : AOp), op 2 1 [.int 5]], [op 3 1 [.int 8]]]
    (∀ i ∈ ins, i ≠ []) ∧ (∃ o ∈ ins.flatten, intOf o ≠ none) ∧
    (∀ o ∈ ins.flatten, o.ref = MAX_UUID → o.vals = []) ∧ MaxOps ins.flatten ∧
    (mergeCursors noView Form.MAX ins).map (fun r => r.2.map intOf) = some [none, some 8] := by
  unfold MaxOps; decide +kernel

/-! ## C35 — metadata merge keeps the latest record -/

/-- For every id the record with the greatest reference is kept, ids are ordered and unique. -/
theorem C35_meta_latest (v : View) (inputs : List (List AOp)) (hs : ∀ i ∈ inputs, IdSorted i) :
    ∃ out, mergeCursors v Form.META inputs = some (Status.OK, out) ∧ IdSorted out ∧
      (∀ x, (∃ o ∈ out, o.id = x) ↔ ∃ o ∈ inputs.flatten, o.id = x) ∧
      ∀ o ∈ out, (∃ x ∈ inputs.flatten, x.body = o.body) ∧
        ∀ y ∈ inputs.flatten, y.id = o.id → Uuid.lt o.ref y.ref = false := by
  obtain ⟨out, e, m⟩ := Heap.merge_spec metaKeyed inputs hs
  obtain ⟨a, b, c⟩ := merged_punctuate m
  refine ⟨punctuate out, by rw [mergeCursors_meta, e]; rfl, a, b, fun o ho => ?_⟩
  obtain ⟨x, hx, e, h⟩ := c o ho
  refine ⟨⟨x, hx, e⟩, fun y hy hid => ?_⟩
  have hxid := body_id e
  have := h y hy (hid.trans hxid.symm)
  unfold metaLess Uuid.gt at this
  rw [if_pos (hid.trans hxid.symm)] at this
  rw [show o.ref = x.ref from (congrArg (·.2.1) e).symm]; exact this

/-- The result does not depend on the order (or repetition) of the inputs, if an id and a
reference determine a record. -/
theorem C35_order_independent (v v' : View) (inputs inputs' : List (List AOp))
    (hs : ∀ i ∈ inputs, IdSorted i) (hs' : ∀ i ∈ inputs', IdSorted i)
    (hc : ∀ a ∈ inputs.flatten, ∀ b ∈ inputs.flatten, a.id = b.id → a.ref = b.ref → a.body = b.body)
    (he : SameEvents inputs.flatten inputs'.flatten) :
    ∃ out, mergeCursors v Form.META inputs = some (Status.OK, out) ∧
      mergeCursors v' Form.META inputs' = some (Status.OK, out) := by
  obtain ⟨a, ea, ma⟩ := Heap.merge_spec metaKeyed inputs hs
  obtain ⟨b, eb, mb⟩ := Heap.merge_spec metaKeyed inputs' hs'
  have l := uuid_lin
  -- one direction of the equality of events
  have dir : ∀ (i i' : List (List AOp)) (a b : List AOp), SameEvents i.flatten i'.flatten →
      (∀ a ∈ i.flatten, ∀ b ∈ i.flatten, a.id = b.id → a.ref = b.ref → a.body = b.body) →
      Heap.Merged metaLess AOp.id Uuid.lt i.flatten a →
      Heap.Merged metaLess AOp.id Uuid.lt i'.flatten b →
      ∀ x, (∃ o ∈ a, o.body = x) → ∃ o ∈ b, o.body = x := by
    rintro i i' a b he hc ma mb _ ⟨o, ho, rfl⟩
    obtain ⟨h1, h2⟩ := ma.sound o ho
    obtain ⟨o', ho', eo⟩ := (he o.body).1 ⟨o, h1, rfl⟩
    obtain ⟨p, hp, ep⟩ := mb.full o' ho'
    obtain ⟨h3, h4⟩ := mb.sound p hp
    obtain ⟨p', hp', ep'⟩ := (he p.body).2 ⟨p, h3, rfl⟩
    have hid : p'.id = o.id := (body_id ep').trans (ep.trans (body_id eo))
    have r1 := h2 p' hp' hid
    have r2 := h4 o' ho' ep.symm
    unfold metaLess Uuid.gt at r1 r2
    rw [if_pos hid] at r1
    rw [if_pos ep.symm] at r2
    rw [show p'.ref = p.ref from congrArg (·.2.1) ep'] at r1
    rw [show o'.ref = o.ref from congrArg (·.2.1) eo] at r2
    have hrr : o.ref = p.ref := by
      rcases l.tri o.ref p.ref with h | h | h
      · rw [h] at r1; cases r1
      · exact h
      · rw [h] at r2; cases r2
    refine ⟨p, hp, ?_⟩
    rw [← ep']
    exact hc p' hp' o h1 hid (by rw [show p'.ref = p.ref from congrArg (·.2.1) ep', hrr])
  have hc' : ∀ a ∈ inputs'.flatten, ∀ b ∈ inputs'.flatten, a.id = b.id → a.ref = b.ref →
      a.body = b.body := by
    intro x hx y hy h1 h2
    obtain ⟨x', hx', ex⟩ := (he x.body).2 ⟨x, hx, rfl⟩
    obtain ⟨y', hy', ey⟩ := (he y.body).2 ⟨y, hy, rfl⟩
    rw [← ex, ← ey]
    exact hc x' hx' y' hy' (by rw [body_id ex, body_id ey, h1]) (by
      rw [show x'.ref = x.ref from congrArg (·.2.1) ex, show y'.ref = y.ref from congrArg (·.2.1) ey, h2])
  have same : SameEvents a b := fun x => ⟨dir inputs inputs' a b he hc ma mb x,
    dir inputs' inputs b a (Rdt.SameEvents.symm he) hc' mb ma x⟩
  have hab := sorted_unique a b ma.sorted mb.sorted same
  refine ⟨punctuate a, by rw [mergeCursors_meta, ea]; rfl, ?_⟩
  rw [mergeCursors_meta, eb, punctuate_congr a b hab]; rfl

example : (mergeCursors noView Form.META [[op 1 10, op 3 12], [op 1 11, op 2 10], [op 3 9]]).map
    (fun r => r.2.map fun o => (o.id.value.toNat, o.ref.value.toNat)) =
    some [(1, 11), (2, 10), (3, 12)] := by decide +kernel

/-! ## C36 — log merge is concatenation -/

/-- Merging logs gives all the ops in order; only the punctuation of the very last op may
change (a frame does not end with a comma). -/
theorem C36_log_concat (v : View) (inputs : List (List AOp)) :
    mergeCursors v Form.LOG inputs = some (Status.OK, closeLast inputs.flatten) ∧
      (closeLast inputs.flatten).map AOp.body = (inputs.map fun i => i.map AOp.body).flatten := by
  refine ⟨?_, ?_⟩
  · show some (Status.OK, if Status.OK.ok then (log ABuilder.empty inputs).release else []) = _
    rw [show Status.OK.ok = true by decide, if_pos rfl, log_flatten, appendAll_empty]
  · rw [closeLast_body, List.map_flatten]

example : (mergeCursors noView Form.LOG [[op 5 4 [] .raw, op 1 0], [], [op 1 0, op 3 1]]).map
    (fun r => r.2.map fun o => (o.id.value.toNat, o.term)) =
    some [(5, .raw), (1, .reduced), (1, .reduced), (3, .raw)] := by decide +kernel

/-! ## C37 — merging never invents or alters ops -/

/-- The full claim. -/
def C37_claim : Prop := ∀ (v : View) (f : Form) (inputs : List (List AOp)), (∀ i ∈ inputs, i ≠ []) →
  ∀ s out, mergeCursors v f inputs = some (s, out) →
    ∀ o ∈ out, ∃ i ∈ inputs, ∃ x ∈ i, x.body = o.body

/-- It fails: a max frame that is only a header, with whitespace after it, gets a second op
made of what the exhausted cursor shows. -/
theorem C37_violated : ¬ C37_claim := by
  intro h
  have := h ⟨fun _ _ => false, fun _ => op 2 1⟩ Form.MAX
    [[⟨u 1 7, MAX_UUID, [], .raw⟩]] (by decide) Status.OK
    [⟨u 1 7, MAX_UUID, [], .reduced⟩, op 2 1 [] .raw] (by decide +kernel) (op 2 1 [] .raw) (by decide)
  revert this
  decide

/-- The forms other than max: every op of the output is an op of an input. -/
theorem C37_no_new_ops_partial (v : View) (f : Form) (inputs : List (List AOp))
    (hmax : f = Form.MAX → ∃ x xs, (maxRest inputs).getLast? = some (x :: xs)) :
    ∃ s out, mergeCursors v f inputs = some (s, out) ∧
      ∀ o ∈ out, ∃ i ∈ inputs, ∃ x ∈ i, x.body = o.body := by
  have fin : ∀ (s : Status) (b : ABuilder), master v f ABuilder.empty inputs = some (b, s) →
      (∀ o ∈ b.release, ∃ x ∈ inputs.flatten, x.body = o.body) →
      ∃ s out, mergeCursors v f inputs = some (s, out) ∧
        ∀ o ∈ out, ∃ i ∈ inputs, ∃ x ∈ i, x.body = o.body := by
    intro s b e h
    refine ⟨s, if s.ok then b.release else [], by unfold mergeCursors; rw [e]; rfl, ?_⟩
    intro o ho
    cases hs : s.ok with
    | false => rw [hs] at ho; simp at ho
    | true =>
      rw [hs, if_pos rfl] at ho
      obtain ⟨x, hx, e⟩ := h o ho
      obtain ⟨i, hi, hxi⟩ := List.mem_flatten.1 hx
      exact ⟨i, hi, x, hxi, e⟩
  -- the ways to fill the output
  have all : ∀ ops, (∀ o ∈ ops, o ∈ inputs.flatten) →
      ∀ o ∈ closeLast ops, ∃ x ∈ inputs.flatten, x.body = o.body := by
    intro ops h o ho
    obtain ⟨x, hx, e⟩ := mem_body (closeLast_body ops) ho
    exact ⟨x, h x hx, e⟩
  have fed : ∀ ops, (∀ o ∈ ops, o ∈ inputs.flatten) →
      ∀ o ∈ punctuate ops, ∃ x ∈ inputs.flatten, x.body = o.body := by
    intro ops h o ho
    obtain ⟨x, hx, e⟩ := mem_body (punctuate_body ops) ho
    exact ⟨x, h x hx, e⟩
  have heap : ∀ (less : AOp → AOp → Bool), Heap.Order less → ∃ b, mergeInto less ABuilder.empty inputs = some b ∧
      ∀ o ∈ b.release, ∃ x ∈ inputs.flatten, x.body = o.body := by
    intro less ho
    obtain ⟨out, e, h1, _⟩ := Heap.merge_any (same := sameId) ho same_refl inputs
    have hr := mergeInto_release less inputs
    rw [e] at hr
    cases em : mergeInto less ABuilder.empty inputs with
    | none => rw [em] at hr; cases hr
    | some b =>
      rw [em] at hr
      refine ⟨b, rfl, ?_⟩
      rw [show b.release = punctuate out from Option.some.inj hr]
      exact fed out h1
  have last : ∀ o ∈ (keepLast ABuilder.empty inputs).release, ∃ x ∈ inputs.flatten, x.body = o.body := by
    unfold keepLast
    cases hl : inputs.getLast? with
    | none => intro o ho; simp [ABuilder.release, ABuilder.empty, ABuilder.endChunk, ABuilder.writeTerm] at ho
    | some i =>
      simp only [appendAll_empty]
      apply all
      intro o ho
      exact List.mem_flatten.2 ⟨i, List.mem_of_getLast? hl, ho⟩
  unfold master at fin
  by_cases h1 : f = Form.LOG
  · rw [if_pos h1] at fin
    refine fin _ _ rfl ?_
    rw [log_flatten, appendAll_empty]
    exact all _ fun o h => h
  rw [if_neg h1] at fin
  by_cases h2 : f = Form.ZERO
  · rw [if_pos h2] at fin; exact fin _ _ rfl last
  rw [if_neg h2] at fin
  by_cases h3 : f = Form.META
  · rw [if_pos h3] at fin
    obtain ⟨b, e, h⟩ := heap metaLess metaOrder
    exact fin Status.OK b (by rw [show metaMerge ABuilder.empty inputs = some b from e]; rfl) h
  rw [if_neg h3] at fin
  by_cases h4 : f = Form.YARN ∨ f = Form.LWW
  · rw [if_pos h4] at fin
    obtain ⟨b, e, h⟩ := heap idLess idOrder
    exact fin Status.OK b (by rw [show lww ABuilder.empty inputs = some b from e]; rfl) h
  rw [if_neg h4] at fin
  by_cases h5 : f = Form.MX
  · rw [if_pos h5] at fin
    obtain ⟨b, e, h⟩ := heap idLess idOrder
    exact fin Status.OK b (by rw [show mx ABuilder.empty inputs = some b from e]; rfl) h
  rw [if_neg h5] at fin
  by_cases h6 : f = Form.RGA
  · rw [if_pos h6] at fin
    unfold rga at fin
    by_cases h7 : (valid inputs).length > 3
    · rw [if_pos h7] at fin
      refine fin _ _ rfl ?_
      intro o ho
      simp [ABuilder.release, ABuilder.empty, ABuilder.endChunk, ABuilder.writeTerm] at ho
    · rw [if_neg h7] at fin
      obtain ⟨out, w, e, g1, _, _⟩ := rgaMerge_any (valid inputs)
      rw [e] at fin
      refine fin _ _ rfl ?_
      rw [feed_release]
      apply fed
      rw [← flat_valid]; exact g1
  rw [if_neg h6] at fin
  by_cases h7 : f = Form.MAX
  · rw [if_pos h7] at fin
    refine fin _ _ rfl ?_
    obtain ⟨x, xs, hl⟩ := hmax h7
    obtain ⟨m, e, hm, _⟩ := max_spec v inputs x xs hl
    rw [e]
    apply fed
    intro o ho
    cases inputs with
    | nil => simp [maxRest] at hl
    | cons i rest =>
      cases i with
      | nil => 
        simp only [maxHeader, List.nil_append, List.mem_singleton] at ho
        rw [ho]; exact hm
      | cons y ys =>
        simp only [maxHeader] at ho
        simp only [maxRest] at hm
        by_cases hr : y.ref = MAX_UUID
        · rw [if_pos hr] at ho hm
          simp only [List.cons_append, List.nil_append, List.mem_cons, List.not_mem_nil, or_false] at ho
          rcases ho with rfl | rfl
          · simp
          · simp only [List.flatten_cons, List.mem_append, List.mem_cons] at hm ⊢
            rcases hm with h | h
            · exact .inl (.inr h)
            · exact .inr h
        · rw [if_neg hr] at ho hm
          simp only [List.nil_append, List.mem_singleton] at ho
          rw [ho]; exact hm
  rw [if_neg h7] at fin
  by_cases h8 : f = Form.ERROR
  · rw [if_pos h8] at fin; exact fin _ _ rfl last
  rw [if_neg h8] at fin
  refine fin _ _ rfl ?_
  intro o ho
  simp [ABuilder.release, ABuilder.empty, ABuilder.endChunk, ABuilder.writeTerm] at ho

example : ∃ x xs, (maxRest [[⟨u 1 7, MAX_UUID, [], .reduced⟩], [op 3 1 [.int 8]]]).getLast? =
    some (x :: xs) := ⟨op 3 1 [.int 8], [], rfl⟩

end Ron.Props
