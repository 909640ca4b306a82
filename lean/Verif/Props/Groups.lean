import Verif.Lemmas.Groups
import Verif.Props.TextMerge
/-!
C86: frames merged in groups, as text.
-/
namespace Ron.Props
open Ron.Spec

/-- C86: states of an LWW object, as frames, are merged to the same ops whatever the order and the groups. -/
def C86_claim : Prop := ∀ (mx : MaxReducer) (is js : List (List Byte × List (Nat × OpView))),
  (∀ i ∈ is, Contents i.1 (i.2.map Prod.snd) .endOfFrame ∧ Headed lwwName (i.2.map Prod.snd)) →
  OrderedFrames is → OneOpPerId is → (∀ i, i ∈ is ↔ i ∈ js) →
  ∀ a b, Grouped (Merges mx) a is → Grouped (Merges mx) b js →
  ∀ ops ops' e e', Contents a ops e → Contents b ops' e' → ops = ops' ∧ e = e'

/-! ### C86 is violated -/

def bad86 : List Byte := lit "@1+A :lww;\n@1000000005+A :1+A 'w' 3;\n"

/-- The frames have their ops in order, and are merged with the status OK; the frames that come of two groupings have
different numbers of ops. -/
def misgrouped (a b c : List Byte) : Bool :=
  match readOps 20 a, readOps 20 b, readOps 20 c, TextMerge.mergeFrames noMax 20 [a, b],
    TextMerge.mergeFrames noMax 20 [b, c] with
  | .ok (some ([x, y], .endOfFrame)), .ok (some ([x', z], .endOfFrame)), .ok (some ([x'', w], .endOfFrame)),
      .ok (some (st, ab)), .ok (some (st', bc)) =>
    decide (x = x') && decide (x = x'') && decide (x.ref = lwwName) && Uuid.lt x.id y.id && Uuid.lt y.id z.id &&
    Uuid.lt z.id w.id && decide (st = Status.OK) && decide (st' = Status.OK) && decide (ab.length < 2 ^ 30) &&
    decide (bc.length < 2 ^ 30) &&
    (match TextMerge.mergeFrames noMax 20 [ab, c], TextMerge.mergeFrames noMax 20 [a, bc] with
     | .ok (some (s, l)), .ok (some (s', r)) =>
       decide (s = Status.OK) && decide (s' = Status.OK) && decide (l.length < 2 ^ 30) && decide (r.length < 2 ^ 30) &&
       (match readOps 20 l, readOps 20 r with
        | .ok (some (_, e)), .ok (some (_, e')) => decide (e ≠ e')
        | _, _ => false)
     | _, _ => false)
  | _, _, _, _, _ => false

theorem grouped_two {M : List (List Byte) → Status × List Byte → Prop} {a b text : List Byte}
    {is js : List (List Byte × List (Nat × OpView))} (ha : Grouped M a is) (hb : Grouped M b js)
    (h : M [a, b] (Status.OK, text)) (hl : text.length < 2 ^ 30) : Grouped M text (is ++ js) := by
  have := Grouped.merge (M := M) [(a, is), (b, js)] text (by simp) (by
    intro g hg
    simp only [List.mem_cons, List.not_mem_nil, or_false] at hg
    rcases hg with rfl | rfl
    · exact ha
    · exact hb) h hl
  simpa using this

/-- C86 is violated: with the op that `C84_violated` misreads, one grouping gives a frame that reads to the end, another
gives a frame with an error. -/
theorem C86_violated : ¬ C86_claim := by
  intro hc
  have k : misgrouped bad84a bad84b bad86 = true := by decide +kernel
  unfold misgrouped at k
  split at k
  · rename_i x y x' z x'' w st ab st' bc h1 h2 h3 h4 h5
    simp only [Bool.and_eq_true, decide_eq_true_eq] at k
    obtain ⟨⟨⟨⟨⟨⟨⟨⟨⟨⟨rfl, rfl⟩, k1⟩, k2⟩, k3⟩, k4⟩, rfl⟩, rfl⟩, k5⟩, k6⟩, k⟩ := k
    split at k
    · rename_i s l s' r h6 h7
      simp only [Bool.and_eq_true, decide_eq_true_eq] at k
      obtain ⟨⟨⟨⟨rfl, rfl⟩, k7⟩, k8⟩, k⟩ := k
      split at k
      · rename_i o1 e1 o2 e2 h8 h9
        have l1 := Rdt.uuid_lin
        have xz := l1.trans _ _ _ k2 k3
        have xw := l1.trans _ _ _ xz k4
        have yw := l1.trans _ _ _ k3 k4
        have ne : ∀ {u v : Uuid}, Uuid.lt u v = true → u ≠ v := by
          rintro u v h rfl; rw [l1.irrefl] at h; cases h
        let A : List Byte × List (Nat × OpView) := (bad84a, [(0, x), (0, y)])
        let B : List Byte × List (Nat × OpView) := (bad84b, [(0, x), (0, z)])
        let C : List Byte × List (Nat × OpView) := (bad86, [(0, x), (0, w)])
        have gA : Grouped (Merges noMax) bad84a [A] := Grouped.frame A
        have gB : Grouped (Merges noMax) bad84b [B] := Grouped.frame B
        have gC : Grouped (Merges noMax) bad86 [C] := Grouped.frame C
        have gl := grouped_two (grouped_two gA gB ⟨20, h4⟩ k5) gC ⟨20, h6⟩ k7
        have gr := grouped_two gA (grouped_two gB gC ⟨20, h5⟩ k6) ⟨20, h7⟩ k8
        refine of_decide_eq_true k (hc noMax [A, B, C] [A, B, C] ?_ ?_ ?_ (fun _ => Iff.rfl) l r gl gr _ _ _ _
          (contents_of 20 h8) (contents_of 20 h9)).2
        · intro i hi
          simp only [List.mem_cons, List.not_mem_nil, or_false] at hi
          rcases hi with rfl | rfl | rfl
          · exact ⟨contents_of 20 h1, x, _, rfl, k1⟩
          · exact ⟨contents_of 20 h2, x, _, rfl, k1⟩
          · exact ⟨contents_of 20 h3, x, _, rfl, k1⟩
        · intro i hi
          simp only [List.mem_cons, List.not_mem_nil, or_false] at hi
          rcases hi with rfl | rfl | rfl
          · simpa [A] using k2
          · simpa [B] using xz
          · simpa [C] using xw
        · intro i hi p hp j hj q hq e
          simp only [List.mem_cons, List.not_mem_nil, or_false] at hi hj
          have m : ∀ i : List Byte × List (Nat × OpView), i = A ∨ i = B ∨ i = C → ∀ p ∈ i.2,
              p.2 = x ∨ p.2 = y ∨ p.2 = z ∨ p.2 = w := by
            rintro i (rfl | rfl | rfl) p hp <;>
              simp only [A, B, C, List.mem_cons, List.not_mem_nil, or_false] at hp <;>
              rcases hp with rfl | rfl <;> simp
          have n1 := ne k2
          have n2 := ne k3
          have n3 := ne k4
          have n4 := ne xz
          have n5 := ne xw
          have n6 := ne yw
          rcases m i hi p hp with hp | hp | hp | hp <;> rcases m j hj q hq with hq | hq | hq | hq <;>
            rw [hp, hq] at e ⊢ <;> grind
      · cases k
    · cases k
  · cases k

/-! ### where it holds -/

theorem mergesAs_unique {mx : MaxReducer} {f : Form} {frames : List (List Byte)} {r r' : Status × List Byte}
    (h : MergesAs mx f frames r) (h' : MergesAs mx f frames r') : r = r' := by
  obtain ⟨n, cs, e, h⟩ := h
  obtain ⟨m, cs', e', h'⟩ := h'
  rw [e] at e'
  injection e' with e'
  subst e'
  have a := TextMerge.mergeCursors_mono h m
  have b := TextMerge.mergeCursors_mono h' n
  rw [Nat.add_comm, a] at b
  injection b with b
  injection b

/-- The forms that are merged as sets of ops. -/
def Setlike (f : Form) : Prop := f = Form.LWW ∨ f = Form.MX ∨ f = Form.YARN ∨ f = Form.META

theorem steps_as {mx : MaxReducer} {f : Form} (hf : Setlike f) : TextMerge.Steps (MergesAs mx f) fun _ => True where
  merge := by
    intro ins out text _ hi hs h1 ho hc hl hm
    obtain ⟨t, g1, g2, g3, -⟩ := C84_union_partial mx f hf ins (fun i h => (hi i h).1) hs h1 out ho hc hl
    have e := mergesAs_unique hm g1
    injection e with _ e
    rw [e]
    exact ⟨g2, g3⟩
  keep := fun _ _ _ _ => trivial

theorem headed_union {u : Uuid} {ins : List (List Byte × List (Nat × OpView))} {out : List OpView} (hne : ins ≠ [])
    (h : ∀ i ∈ ins, Headed u (i.2.map Prod.snd)) (hs : OrderedFrames ins) (ho : UnionOf ins out) : Headed u out := by
  cases out with
  | nil =>
    cases ins with
    | nil => exact absurd rfl hne
    | cons i ins =>
      obtain ⟨o, l, e, -⟩ := h i (by simp)
      have : o ∈ i.2.map Prod.snd := by rw [e]; simp
      obtain ⟨x, hx, rfl⟩ := List.mem_map.1 this
      have := (ho.same x.2).2 ⟨i, by simp, x, hx, rfl⟩
      simp at this
  | cons o l =>
    refine ⟨o, l, rfl, ?_⟩
    obtain ⟨i, hi, x, hx, rfl⟩ := (ho.same o).1 (by simp)
    obtain ⟨p, m, e, e'⟩ := h i hi
    have hsi : (i.2.map Prod.snd).Pairwise fun a b => Uuid.lt a.id b.id = true := List.pairwise_map.2 (hs i hi)
    rw [e, List.pairwise_cons] at hsi
    have hx' : x.2 ∈ p :: m := by rw [← e]; exact List.mem_map.2 ⟨x, hx, rfl⟩
    rcases List.mem_cons.1 hx' with hx' | hx'
    · rw [hx']; exact e'
    · have lt := hsi.1 _ hx'
      have hp : p ∈ i.2.map Prod.snd := by rw [e]; simp
      obtain ⟨y, hy, rfl⟩ := List.mem_map.1 hp
      have hs' := ho.sorted
      rw [List.pairwise_cons] at hs'
      rcases List.mem_cons.1 ((ho.same y.2).2 ⟨i, hi, y, hy, rfl⟩) with h | h
      · rw [← h]; exact e'
      · have := Rdt.uuid_lin.trans _ _ _ lt (hs'.1 _ h)
        rw [Rdt.uuid_lin.irrefl] at this
        cases this

theorem steps_named {mx : MaxReducer} {u : Uuid} (hu : u.version = Uuid.vNAME) (hz : u.zero = false)
    (hf : Setlike (uuid2form u)) : TextMerge.Steps (Merges mx) fun i => Headed u (i.2.map Prod.snd) where
  merge := by
    intro ins out text hne hi hs h1 ho hc hl hm
    have heads : ∀ i ∈ ins, ∃ x, i.2.head? = some x ∧ x.2.ref = u := by
      intro i h
      obtain ⟨o, l, e, e'⟩ := (hi i h).2
      cases hx : i.2 with
      | nil => rw [hx] at e; simp at e
      | cons x m =>
        rw [hx] at e
        injection e with e _
        exact ⟨x, rfl, by rw [e]; exact e'⟩
    have hm' := (C84_form mx u hu hz ins (fun i h => (hi i h).1) (by
      intro i h x hx _
      obtain ⟨y, hy, e⟩ := heads i h
      rw [hx] at hy
      injection hy with hy
      rw [hy]; exact e) (by
      cases ins with
      | nil => exact absurd rfl hne
      | cons i l => exact ⟨i, by simp, heads i (by simp)⟩) _).1 hm
    exact (steps_as hf).merge hne (fun i h => ⟨(hi i h).1, trivial⟩) hs h1 ho hc hl hm'
  keep := by
    intro ins out text hne hi hs ho
    show Headed u ((saidBy (mergedSteps out)).map Prod.snd)
    rw [TextMerge.saidBy_merged]
    exact headed_union hne hi hs ho

/-- Frames that can be merged in any groups: frames of the grammar that can be copied, in the order of ids, ops that can
be put into a frame in any company. -/
structure Mergeable (is : List (List Byte × List (Nat × OpView))) : Prop where
  copyable : ∀ i ∈ is, Copyable i
  sorted : OrderedFrames is
  one : OneOpPerId is
  apart : Mixable (allOps is)
  size : (allOps is).length < 2 ^ 31

/-- C86: frames of one of the forms LWW, MX, YARN and META, merged in any order and any groups, any number of times, make
a frame that reads as all the ops of them, each once, in the order of ids. Missing from the claim: the ops of the
violation above and the frames of C84 and C59 (`Mergeable`); frames of 2^30 bytes or 2^31 ops, and more. -/
theorem C86_union_partial (mx : MaxReducer) (f : Form) (hf : Setlike f) (is : List (List Byte × List (Nat × OpView)))
    (h : Mergeable is) (text : List Byte) (hg : Grouped (MergesAs mx f) text is) :
    ∃ out, UnionOf is out ∧ Contents text out .endOfFrame := by
  obtain ⟨l, g1, -, g2⟩ := TextMerge.grouped_ok (steps_as hf) hg (fun i hi => ⟨h.copyable i hi, trivial⟩) h.sorted h.one
    h.apart h.size
  exact ⟨_, g2, (C20_frames_partial text g1.size _ g1.text).1⟩

/-- C86: the same for frames that name the form in their headers. -/
theorem C86_named_partial (mx : MaxReducer) (u : Uuid) (hu : u.version = Uuid.vNAME) (hz : u.zero = false)
    (hf : Setlike (uuid2form u)) (is : List (List Byte × List (Nat × OpView))) (h : Mergeable is)
    (hh : ∀ i ∈ is, Headed u (i.2.map Prod.snd)) (text : List Byte) (hg : Grouped (Merges mx) text is) :
    ∃ out, UnionOf is out ∧ Contents text out .endOfFrame := by
  obtain ⟨l, g1, -, g2⟩ := TextMerge.grouped_ok (steps_named hu hz hf) hg (fun i hi => ⟨h.copyable i hi, hh i hi⟩)
    h.sorted h.one h.apart h.size
  exact ⟨_, g2, (C20_frames_partial text g1.size _ g1.text).1⟩

/-- C86: two frames made of the same ops, in any orders and any groups, of any frames that have them, read the same. -/
theorem C86_confluent_partial (mx : MaxReducer) (f : Form) (hf : Setlike f)
    (is js : List (List Byte × List (Nat × OpView))) (h : Mergeable is) (h' : Mergeable js)
    (same : ∀ o, o ∈ allOps is ↔ o ∈ allOps js) (a b : List Byte) (ha : Grouped (MergesAs mx f) a is)
    (hb : Grouped (MergesAs mx f) b js) (ops ops' : List OpView) (e e' : Cursor.NextStatus) (ca : Contents a ops e)
    (cb : Contents b ops' e') : ops = ops' ∧ e = .endOfFrame ∧ e' = .endOfFrame := by
  obtain ⟨o, u1, c1⟩ := C86_union_partial mx f hf is h a ha
  obtain ⟨o', u2, c2⟩ := C86_union_partial mx f hf js h' b hb
  obtain ⟨rfl, rfl⟩ := Chains.contents_unique ca c1
  obtain ⟨rfl, rfl⟩ := Chains.contents_unique cb c2
  refine ⟨TextMerge.ordered_unique u1.sorted u2.sorted fun x => ?_, rfl, rfl⟩
  rw [TextMerge.union_mem u1, TextMerge.union_mem u2, same]

/-- C86: a merge of what was made of frames is done, with the status OK. -/
theorem C86_done (mx : MaxReducer) (f : Form) (hf : Setlike f)
    (gs : List (List Byte × List (List Byte × List (Nat × OpView)))) (hne : gs ≠ [])
    (h : Mergeable (gs.map Prod.snd).flatten) (hg : ∀ g ∈ gs, Grouped (MergesAs mx f) g.1 g.2) :
    ∃ text, MergesAs mx f (gs.map Prod.fst) (Status.OK, text) := by
  have key : ∀ g ∈ gs, ∃ l, Copyable (g.1, l) ∧ True ∧ UnionOf g.2 (l.map Prod.snd) := by
    intro g hm
    have sub : ∀ {i}, i ∈ g.2 → i ∈ (gs.map Prod.snd).flatten := fun hi =>
      List.mem_flatten.2 ⟨_, List.mem_map.2 ⟨_, hm, rfl⟩, hi⟩
    have submem : ∀ {o}, o ∈ allOps g.2 → o ∈ allOps (gs.map Prod.snd).flatten := by
      intro o ho
      unfold allOps at *
      simp only [List.mem_flatten, List.mem_map] at *
      obtain ⟨_, ⟨i, hi, rfl⟩, ho⟩ := ho
      exact ⟨_, ⟨i, ⟨_, ⟨g, hm, rfl⟩, hi⟩, rfl⟩, ho⟩
    refine TextMerge.grouped_ok (steps_as hf) (hg g hm) (fun i hi => ⟨h.copyable i (sub hi), trivial⟩)
      (fun i hi => h.sorted i (sub hi)) (fun i hi x hx j hj y hy e => h.one i (sub hi) x hx j (sub hj) y hy e)
      ⟨fun o ho => h.apart.1 o (submem ho), fun p hp o ho => h.apart.2 p (submem hp) o (submem ho)⟩ ?_
    have := TextMerge.allOps_length hm
    have := h.size
    omega
  obtain ⟨ins, out, e1, -, e2, hord, hone, ho, -, hc, hlen⟩ := TextMerge.regroup (Q := fun _ => True) hne h.one h.apart h.size key
  obtain ⟨text, g1, -⟩ := C84_union_partial mx f hf ins (fun i hi => (e2 i hi).1) hord hone out ho hc hlen
  rw [e1] at g1
  exact ⟨text, g1⟩

/-! ### concrete frames -/

theorem mergeable84 : Mergeable ins84 := by
  refine ⟨ins84_copyable, ?_, ?_, ?_, by decide +kernel⟩
  · have k : (ins84.all fun i => decide (i.2.Pairwise fun a b => Uuid.lt a.2.id b.2.id = true)) = true := by
      decide +kernel
    intro i hi
    exact of_decide_eq_true (List.all_eq_true.1 k i hi)
  · have k : ((ins84.map Prod.snd).flatten.all fun x => (ins84.map Prod.snd).flatten.all fun y =>
        decide (x.2.id = y.2.id → x.2 = y.2)) = true := by decide +kernel
    intro i hi x hx j hj y hy
    exact of_decide_eq_true (List.all_eq_true.1 (List.all_eq_true.1 k x
      (List.mem_flatten.2 ⟨_, List.mem_map.2 ⟨i, hi, rfl⟩, hx⟩)) y
      (List.mem_flatten.2 ⟨_, List.mem_map.2 ⟨j, hj, rfl⟩, hy⟩))
  · unfold Mixable
    decide +kernel

-- Those of `C86_named_partial`, besides.
example : lwwName.version = Uuid.vNAME ∧ lwwName.zero = false ∧ Setlike (uuid2form lwwName) ∧
    ∀ i ∈ [ins84[0], ins84[1]], Headed lwwName (i.2.map Prod.snd) := by
  have hf : uuid2form lwwName = Form.LWW := by decide +kernel
  refine ⟨by decide +kernel, by decide +kernel, .inl hf, fun i hi => ?_⟩
  have k : ([ins84[0], ins84[1]].all fun i => match i.2.map Prod.snd with
    | x :: _ => decide (x.ref = lwwName) | [] => false) = true := by decide +kernel
  have := List.all_eq_true.1 k i hi
  split at this
  · rename_i x l e
    exact ⟨x, l, e, of_decide_eq_true this⟩
  · cases this

-- Two groupings of the frames: the third with the second and then with the first; all at once, the second one twice.
example : ∃ a b, Grouped (Merges noMax) a [ins84[2], ins84[1], ins84[0]] ∧
    Grouped (Merges noMax) b [ins84[1], ins84[0], ins84[2], ins84[1]] ∧ a = b ∧ 100 < a.length ∧ a.length < 200 := by
  have k : (match TextMerge.mergeFrames noMax 20 [ins84[2].1, ins84[1].1] with
    | .ok (some (s, m)) => decide (s = Status.OK) && decide (m.length < 2 ^ 30) &&
      (match TextMerge.mergeFrames noMax 20 [m, ins84[0].1],
        TextMerge.mergeFrames noMax 20 [ins84[1].1, ins84[0].1, ins84[2].1, ins84[1].1] with
       | .ok (some (s', a)), .ok (some (s'', b)) => decide (s' = Status.OK) && decide (s'' = Status.OK) && decide (a = b) &&
          decide (100 < a.length ∧ a.length < 200)
       | _, _ => false)
    | _ => false) = true := by decide +kernel
  split at k
  · rename_i s m h1
    simp only [Bool.and_eq_true, decide_eq_true_eq] at k
    obtain ⟨⟨rfl, k1⟩, k⟩ := k
    split at k
    · rename_i s' a s'' b h2 h3
      simp only [Bool.and_eq_true, decide_eq_true_eq] at k
      obtain ⟨⟨⟨rfl, rfl⟩, rfl⟩, k⟩ := k
      refine ⟨a, a, ?_, ?_, rfl, k⟩
      · exact grouped_two (grouped_two (.frame ins84[2]) (.frame ins84[1]) ⟨20, h1⟩ k1) (.frame ins84[0]) ⟨20, h2⟩ (by omega)
      · exact Grouped.merge (M := Merges noMax) [(ins84[1].1, [ins84[1]]), (ins84[0].1, [ins84[0]]),
          (ins84[2].1, [ins84[2]]), (ins84[1].1, [ins84[1]])] a (by simp) (by
            intro g hg
            simp only [List.mem_cons, List.not_mem_nil, or_false] at hg
            rcases hg with rfl | rfl | rfl | rfl <;> exact .frame _) ⟨20, h3⟩ (by omega)
    · cases k
  · cases k

/-! ### causal trees: which frames are merged -/

/-- C84: up to three frames with ops of an array (in any order, with missing parts): they are merged with the status OK
if and only if each of them hangs on to the others, and then there is an op of every id in the result; otherwise the
status is `CAUSEBREAK`, and there is no frame. -/
theorem C84_rga_accepts_partial (mx : MaxReducer) (ins : List (List Byte × List (Nat × OpView)))
    (hi : ∀ i ∈ ins, Copyable i) (hne : ∀ i ∈ ins, i.2 ≠ []) (h3 : ins.length ≤ 3) (hm : Mixable (allOps ins))
    (hl : (allOps ins).length < 2 ^ 31) :
    ((∀ i ∈ ins, Attached (ins.map fun i => i.2.map fun x => shape x.2) (i.2.map fun x => shape x.2)) →
      ∃ text w, MergesAs mx Form.RGA (ins.map Prod.fst) (Status.OK, text) ∧
        FrameText Uuid.NIL text (saidBy (mergedSteps w)) ∧ (∀ o ∈ w, o ∈ allOps ins) ∧
        (∀ o ∈ allOps ins, ∃ x ∈ w, x.id = o.id)) ∧
    (¬ (∀ i ∈ ins, Attached (ins.map fun i => i.2.map fun x => shape x.2) (i.2.map fun x => shape x.2)) →
      MergesAs mx Form.RGA (ins.map Prod.fst) (Status.CAUSEBREAK, [])) := by
  obtain ⟨cs, e1, hcs⟩ := TextMerge.firsts_ok hi
  have hfil : ((ins.map Prod.snd).filter fun l => !l.isEmpty) = ins.map Prod.snd := by
    rw [List.filter_eq_self]
    intro l hm
    obtain ⟨i, hi, rfl⟩ := List.mem_map.1 hm
    have := hne i hi
    cases h : i.2 with
    | nil => exact absurd h this
    | cons a l => rfl
  rw [hfil] at hcs
  have ha : allOps ins = (ins.map Prod.snd).flatten.map Prod.snd := by
    unfold allOps
    rw [List.map_flatten, List.map_map]
    rfl
  have hs := TextMerge.starts_atS (L := (ins.map Prod.snd).flatten) hcs fun _ h => h
  have hmap : (ins.map Prod.snd).map (List.map fun x => shape x.2) = ins.map fun i => i.2.map fun x => shape x.2 := by
    rw [List.map_map]; rfl
  rw [hmap] at hs
  generalize hins : (ins.map fun i => i.2.map fun x => shape x.2) = ais at hs
  have hlen : cs.length ≤ 3 := by
    have := TextMerge.same2_length hcs
    rw [List.length_map] at this
    omega
  obtain ⟨out, left, e, m1, m2⟩ := Rdt.rgaMerge_attached ais
  obtain ⟨out', left', e', -, -, m3⟩ := Rdt.rgaMerge_any (Rdt.valid ais)
  rw [e] at e'
  simp only [Option.some.injEq, Prod.mk.injEq] at e'
  obtain ⟨rfl, rfl⟩ := e'
  have hflat : ais.flatten = (allOps ins).map shape := by
    rw [ha, ← hins, ← hmap, ← List.map_flatten, List.map_map]
    rfl
  have hall : left = [] ↔ ∀ i ∈ ins, Attached ais (i.2.map fun x => shape x.2) := by
    constructor
    · intro hw i hi
      have hmem : (i.2.map fun x => shape x.2) ∈ ais := by rw [← hins]; exact List.mem_map.2 ⟨i, hi, rfl⟩
      cases h : i.2.map fun x => shape x.2 with
      | nil => exact absurd (List.map_eq_nil_iff.1 h) (hne i hi)
      | cons o os =>
        rw [h] at hmem
        exact ((m2 o os hmem).1).1 (by rw [hw]; simp)
    · intro hat
      cases hw : left with
      | nil => rfl
      | cons c l =>
        exfalso
        have hc := m3 c (by rw [hw]; simp)
        have hci := Rdt.mem_valid.1 hc.1
        have hci' := hci
        rw [← hins] at hci'
        obtain ⟨i, hi, e⟩ := List.mem_map.1 hci'
        have := hat i hi
        rw [e] at this
        exact ((m2 c.1 c.2 hci).1).2 this (by rw [hw]; simp)
  rcases TextMerge.rga_ok (TextMerge.atS_sim _) TextMerge.atS_ref hs with ⟨h, -⟩ | h
  · omega
  obtain ⟨-, ds, N0, d1, d2⟩ := h _ e
  obtain ⟨l', a1, a2, a3⟩ := TextMerge.same2_atS' d1
  have hsub : ∀ o ∈ l'.map Prod.snd, o ∈ allOps ins := by
    intro o ho
    obtain ⟨y, hy, rfl⟩ := List.mem_map.1 ho
    rw [ha]
    exact List.mem_map.2 ⟨y, a2 y hy, rfl⟩
  have hol : out.length ≤ (allOps ins).length := by
    have := TextMerge.rgaMerge_length e
    rw [← Heap.flat_length, Rdt.flat_valid, hflat, List.length_map] at this
    exact this
  obtain ⟨b, text, b', w1, w2, w3, w4⟩ := Builder.work_whole (TextMerge.merged_fits a1) (TextMerge.mixable_clean hm hsub) (by
    have : l'.length = out.length := by simp only at a3; rw [a3, List.length_map]
    unfold mergedSteps; simp only [List.length_append, List.length_map, List.length_cons, List.length_nil]; omega)
  have hrun := d2 _ _ w1 N0 (Nat.le_refl _)
  constructor
  · intro hat
    have hl0 := hall.2 hat
    simp only [hl0, List.isEmpty_nil, if_true] at hrun
    refine ⟨text, l'.map Prod.snd, mergesAs_ok (n := N0) e1 hrun w2, w3, hsub, fun o ho => ?_⟩
    have hoa : shape o ∈ ais.flatten := by rw [hflat]; exact List.mem_map.2 ⟨o, ho, rfl⟩
    obtain ⟨i, hi, hoi⟩ := List.mem_flatten.1 hoa
    cases i with
    | nil => simp at hoi
    | cons q qs =>
      obtain ⟨x, hx, ex⟩ := (m2 q qs hi).2 (by rw [hl0]; simp) _ hoi
      simp only at a3
      rw [a3] at hx
      obtain ⟨y, hy, rfl⟩ := List.mem_map.1 hx
      exact ⟨y.2, List.mem_map.2 ⟨y, hy, rfl⟩, ex⟩
  · intro hat
    have hl0 : left ≠ [] := fun h => hat (hall.1 h)
    have : left.isEmpty = false := by cases left <;> simp_all
    simp only [this] at hrun
    refine ⟨N0, cs, e1, ?_⟩
    unfold TextMerge.mergeCursors
    rw [show TextMerge.master mx N0 Form.RGA Builder.init cs = _ from hrun, Op.obind]
    rfl

/-- A piece of the tree whose root is elsewhere, and one that hangs on to nothing. -/
def orphan84 : List (List Byte × List (Nat × OpView)) :=
  [frame84 r84, frame84 [.op (tid 11 1) (tid 10 1) [.str (lit "c")], .endChunk 0]]

-- The hypotheses of `C84_rga_accepts_partial`, in both cases.
example : (∀ i ∈ tree84, Copyable i) ∧ (∀ i ∈ tree84, i.2 ≠ []) ∧ Mixable (allOps tree84) ∧
    ∀ i ∈ tree84, Attached (tree84.map fun i => i.2.map fun x => shape x.2) (i.2.map fun x => shape x.2) := by
  refine ⟨?_, by decide +kernel, by unfold Mixable; decide +kernel, ?_⟩
  · intro i hi
    simp only [tree84, List.mem_cons, List.not_mem_nil, or_false] at hi
    rcases hi with rfl | rfl <;> exact copyable_lit (by decide +kernel)
  · have e : (tree84.map fun i => i.2.map fun x => shape x.2) = [[x9], [x5, x7]] := by decide +kernel
    rw [e]
    have h5 : Attached [[x9], [x5, x7]] [x5, x7] := .least x5 [x7] (by simp) (by
      intro p ps h
      simp only [List.mem_cons, List.not_mem_nil, or_false, List.cons.injEq] at h
      rcases h with ⟨rfl, -⟩ | ⟨rfl, -⟩ <;> decide)
    have h9 : Attached [[x9], [x5, x7]] [x9] := .ref x9 [] [x5, x7] x5 h5 (by simp) (by simp) rfl
    intro i hi
    have : (i.2.map fun x => shape x.2) ∈ [[x9], [x5, x7]] := by
      rw [← e]; exact List.mem_map.2 ⟨i, hi, rfl⟩
    simp only [List.mem_cons, List.not_mem_nil, or_false] at this
    rcases this with h | h <;> rw [h] <;> assumption

example : (∀ i ∈ orphan84, Copyable i) ∧ (∀ i ∈ orphan84, i.2 ≠ []) ∧ Mixable (allOps orphan84) ∧
    TextMerge.mergeFrames noMax 20 (orphan84.map Prod.fst) = .ok (some (Status.CAUSEBREAK, [])) := by
  refine ⟨?_, by decide +kernel, by unfold Mixable; decide +kernel, by decide +kernel⟩
  intro i hi
  simp only [orphan84, List.mem_cons, List.not_mem_nil, or_false] at hi
  rcases hi with rfl | rfl <;> exact copyable_lit (by decide +kernel)

end Ron.Props
