import Verif.Lemmas.TextMerge
/-!
Merges of merges.
-/
namespace Ron.TextMerge
open Spec Heap

theorem nodup_length {α : Type} [DecidableEq α] : ∀ {l m : List α}, l.Nodup → (∀ x ∈ l, x ∈ m) → l.length ≤ m.length := by
  intro l
  induction l with
  | nil => intros; exact Nat.zero_le _
  | cons a l ih =>
    intro m hn hs
    rw [List.nodup_cons] at hn
    have ha := hs a (by simp)
    have := ih (m := m.erase a) hn.2 fun x hx =>
      (List.mem_erase_of_ne (by rintro rfl; exact hn.1 hx)).2 (hs x (by simp [hx]))
    rw [List.length_erase_of_mem ha] at this
    have := List.length_pos_of_mem ha
    simp only [List.length_cons]
    omega

theorem rgaLoop_length : ∀ {fuel : Nat} {h w : List (Cur AOp)} {out : List AOp} {w' : List (Cur AOp)},
    Rdt.rgaLoop fuel h w = some (out, w') → out.length < fuel
  | 0, _, _, _, _, e => by cases e
  | fuel + 1, [], w, out, w', e => by
    rw [Rdt.rgaLoop] at e
    injection e with e
    injection e with e _
    rw [← e]; simp
  | fuel + 1, c :: t, w, out, w', e => by
    rw [Rdt.rgaLoop] at e
    obtain ⟨h, -, e⟩ := optBind e
    obtain ⟨r, -, e⟩ := optBind e
    obtain ⟨o, e1, e⟩ := Option.map_eq_some_iff.1 e
    injection e with e _
    have := rgaLoop_length (out := o.1) (w' := o.2) e1
    rw [← e, List.length_cons]
    omega

theorem rgaMerge_length {ins : List (Cur AOp)} {out : List AOp} {w : List (Cur AOp)}
    (e : Rdt.rgaMerge ins = some (out, w)) : out.length ≤ Heap.total ins := by
  unfold Rdt.rgaMerge at e
  split at e
  · injection e with e
    injection e with e _
    rw [← e]; simp
  · obtain ⟨r, -, e⟩ := optBind e
    have := rgaLoop_length e
    omega

theorem mixable_clean {l : List OpView} (h : Mixable l) {out : List OpView} (hs : ∀ o ∈ out, o ∈ l) :
    CleanFrom copyHeadOk (mergedSteps out) := by
  have key : ∀ (out : List OpView) (p : OpView) (mid : Bool), p ∈ l → (∀ o ∈ out, o ∈ l) →
      CleanSteps copyHeadOk p.id p.vals false mid (mergedSteps out) := by
    intro out
    induction out with
    | nil =>
      intro p mid _ _
      show CleanSteps copyHeadOk p.id p.vals false mid [.endChunk 0]
      unfold CleanSteps
      exact ⟨by decide, by unfold CleanSteps; trivial⟩
    | cons o out ih =>
      intro p mid hp hs
      have ho := hs o (by simp)
      obtain ⟨h1, h2⟩ := h.2 p hp o ho
      show CleanSteps copyHeadOk p.id p.vals false mid (.op o :: mergedSteps out)
      unfold CleanSteps
      exact ⟨h1, fun hf => ⟨rfl, .inr (h2 hf)⟩, ih o _ ho fun x hx => hs x (by simp [hx])⟩
  unfold CleanFrom
  cases out with
  | nil =>
    show CleanSteps copyHeadOk _ _ true false [.endChunk 0]
    unfold CleanSteps
    exact ⟨by decide, by unfold CleanSteps; trivial⟩
  | cons o out =>
    have ho := hs o (by simp)
    obtain ⟨h1, h2⟩ := h.1 o ho
    show CleanSteps copyHeadOk _ _ true false (.op o :: mergedSteps out)
    unfold CleanSteps
    exact ⟨h1, fun hf => (by rw [h2] at hf; cases hf), key out o _ ho fun x hx => hs x (by simp [hx])⟩

/-- There is a union. -/
theorem union_exists {ins : List (List Byte × List (Nat × OpView))} (hs : OrderedFrames ins) (h1 : OneOpPerId ins) :
    ∃ out, UnionOf ins out := by
  obtain ⟨o, -, m⟩ := merge_spec idOrd_keyed (ins.map Prod.snd) (by
    intro l hl
    obtain ⟨i, hi, rfl⟩ := List.mem_map.1 hl
    exact hs i hi)
  refine ⟨o.map Prod.snd, List.pairwise_map.2 m.sorted, fun v => ?_⟩
  have mem : ∀ {x}, x ∈ (ins.map Prod.snd).flatten ↔ ∃ i ∈ ins, x ∈ i.2 := by
    intro x
    simp only [List.mem_flatten, List.mem_map]
    constructor
    · rintro ⟨l, ⟨i, hi, rfl⟩, hx⟩; exact ⟨i, hi, hx⟩
    · rintro ⟨i, hi, hx⟩; exact ⟨_, ⟨i, hi, rfl⟩, hx⟩
  constructor
  · intro hv
    obtain ⟨x, hx, rfl⟩ := List.mem_map.1 hv
    obtain ⟨i, hi, hx⟩ := mem.1 (m.sound x hx).1
    exact ⟨i, hi, x, hx, rfl⟩
  · rintro ⟨i, hi, x, hx, rfl⟩
    obtain ⟨y, hy, e⟩ := m.full x (mem.2 ⟨i, hi, hx⟩)
    obtain ⟨j, hj, hy'⟩ := mem.1 (m.sound y hy).1
    rw [List.mem_map]
    exact ⟨y, hy, h1 j hj y hy' i hi x hx e⟩

theorem union_mem {ins : List (List Byte × List (Nat × OpView))} {out : List OpView} (h : UnionOf ins out) {o : OpView} :
    o ∈ out ↔ o ∈ allOps ins := by
  rw [h.same]
  unfold allOps
  simp only [List.mem_flatten, List.mem_map]
  constructor
  · rintro ⟨i, hi, x, hx, rfl⟩
    exact ⟨_, ⟨i, hi, rfl⟩, List.mem_map.2 ⟨x, hx, rfl⟩⟩
  · rintro ⟨_, ⟨i, hi, rfl⟩, ho⟩
    obtain ⟨x, hx, rfl⟩ := List.mem_map.1 ho
    exact ⟨i, hi, x, hx, rfl⟩

theorem union_length {ins : List (List Byte × List (Nat × OpView))} {out : List OpView} (h : UnionOf ins out) :
    out.length ≤ (allOps ins).length := by
  refine nodup_length ?_ fun o ho => (union_mem h).1 ho
  refine List.Pairwise.imp ?_ h.sorted
  rintro a b hab rfl
  rw [Rdt.uuid_lin.irrefl] at hab
  cases hab

theorem union_unique {ins : List (List Byte × List (Nat × OpView))} {a b : List OpView} (ha : UnionOf ins a)
    (hb : UnionOf ins b) : a = b :=
  ordered_unique ha.sorted hb.sorted fun o => by rw [ha.same, hb.same]

theorem allOps_length {gs : List (List Byte × List (List Byte × List (Nat × OpView)))} {g} (hg : g ∈ gs) :
    (allOps g.2).length ≤ (allOps (gs.map Prod.snd).flatten).length := by
  induction gs with
  | nil => simp at hg
  | cons h gs ih =>
    have e : allOps ((h :: gs).map Prod.snd).flatten = allOps h.2 ++ allOps (gs.map Prod.snd).flatten := by
      unfold allOps
      simp
    rw [e, List.length_append]
    rcases List.mem_cons.1 hg with rfl | hg
    · omega
    · have := ih hg
      omega

/-- A step of the grouping: the merges of frames are as of their union. `Q` is what is known of frames besides. -/
structure Steps (M : List (List Byte) → Status × List Byte → Prop) (Q : List Byte × List (Nat × OpView) → Prop) : Prop where
  merge : ∀ {ins : List (List Byte × List (Nat × OpView))} {out : List OpView} {text : List Byte}, ins ≠ [] →
    (∀ i ∈ ins, Copyable i ∧ Q i) → OrderedFrames ins → OneOpPerId ins → UnionOf ins out →
    CleanFrom copyHeadOk (mergedSteps out) → out.length < 2 ^ 31 → M (ins.map Prod.fst) (Status.OK, text) →
    FrameText Uuid.NIL text (saidBy (mergedSteps out)) ∧ NoOverlong text
  keep : ∀ {ins : List (List Byte × List (Nat × OpView))} {out : List OpView} {text : List Byte}, ins ≠ [] →
    (∀ i ∈ ins, Q i) → OrderedFrames ins → UnionOf ins out → Q (text, saidBy (mergedSteps out))

/-- The frames of groups, each made of the frames of its group: they are as good, and their union is the union of all. -/
theorem regroup {Q : List Byte × List (Nat × OpView) → Prop}
    {gs : List (List Byte × List (List Byte × List (Nat × OpView)))} (hne : gs ≠ [])
    (h1 : OneOpPerId (gs.map Prod.snd).flatten) (ha : Mixable (allOps (gs.map Prod.snd).flatten))
    (hl : (allOps (gs.map Prod.snd).flatten).length < 2 ^ 31)
    (each : ∀ g ∈ gs, ∃ l, Copyable (g.1, l) ∧ Q (g.1, l) ∧ UnionOf g.2 (l.map Prod.snd)) :
    ∃ ins out, ins.map Prod.fst = gs.map Prod.fst ∧ ins ≠ [] ∧ (∀ i ∈ ins, Copyable i ∧ Q i) ∧ OrderedFrames ins ∧
      OneOpPerId ins ∧ UnionOf ins out ∧ UnionOf (gs.map Prod.snd).flatten out ∧
      CleanFrom copyHeadOk (mergedSteps out) ∧ out.length < 2 ^ 31 := by
  have sub : ∀ {g}, g ∈ gs → ∀ {i}, i ∈ g.2 → i ∈ (gs.map Prod.snd).flatten := fun hg _ hi =>
    List.mem_flatten.2 ⟨_, List.mem_map.2 ⟨_, hg, rfl⟩, hi⟩
  obtain ⟨ins, e1, e2, e3, e4⟩ : ∃ ins : List (List Byte × List (Nat × OpView)), ins.map Prod.fst = gs.map Prod.fst ∧
      (∀ i ∈ ins, Copyable i ∧ Q i) ∧ (∀ i ∈ ins, ∃ g ∈ gs, UnionOf g.2 (i.2.map Prod.snd)) ∧
      (∀ g ∈ gs, ∃ i ∈ ins, UnionOf g.2 (i.2.map Prod.snd)) := by
    clear h1 ha hl sub hne
    induction gs with
    | nil => exact ⟨[], rfl, by simp, by simp, by simp⟩
    | cons g gs ih =>
      obtain ⟨ins, e1, e2, e3, e4⟩ := ih fun h hm => each h (by simp [hm])
      obtain ⟨l, l1, l2, l3⟩ := each g (by simp)
      refine ⟨(g.1, l) :: ins, by simp [e1], ?_, ?_, ?_⟩
      · intro i hi
        rcases List.mem_cons.1 hi with rfl | hi
        · exact ⟨l1, l2⟩
        · exact e2 i hi
      · intro i hi
        rcases List.mem_cons.1 hi with rfl | hi
        · exact ⟨g, by simp, l3⟩
        · obtain ⟨h, hh, e⟩ := e3 i hi
          exact ⟨h, by simp [hh], e⟩
      · intro h hh
        rcases List.mem_cons.1 hh with rfl | hh
        · exact ⟨(h.1, l), List.mem_cons_self, l3⟩
        · obtain ⟨i, hi, e⟩ := e4 h hh
          exact ⟨i, by simp [hi], e⟩
  have orig : ∀ i ∈ ins, ∀ x ∈ i.2, ∃ j ∈ (gs.map Prod.snd).flatten, ∃ y ∈ j.2, y.2 = x.2 := by
    intro i hi x hx
    obtain ⟨g, hg, hu⟩ := e3 i hi
    obtain ⟨j, hj, y, hy, e⟩ := (hu.same x.2).1 (List.mem_map.2 ⟨x, hx, rfl⟩)
    exact ⟨j, sub hg hj, y, hy, e⟩
  have hord : OrderedFrames ins := by
    intro i hi
    obtain ⟨g, hg, hu⟩ := e3 i hi
    exact List.pairwise_map.1 hu.sorted
  have hone : OneOpPerId ins := by
    intro i hi x hx j hj y hy e
    obtain ⟨i', hi', x', hx', ex⟩ := orig i hi x hx
    obtain ⟨j', hj', y', hy', ey⟩ := orig j hj y hy
    rw [← ex, ← ey] at e ⊢
    exact h1 i' hi' x' hx' j' hj' y' hy' e
  obtain ⟨out, ho⟩ := union_exists hord hone
  have hou : UnionOf (gs.map Prod.snd).flatten out := by
    refine ⟨ho.sorted, fun o => ?_⟩
    rw [ho.same]
    constructor
    · rintro ⟨i, hi, x, hx, rfl⟩
      obtain ⟨j, hj, y, hy, e⟩ := orig i hi x hx
      exact ⟨j, hj, y, hy, e⟩
    · rintro ⟨j, hj, y, hy, rfl⟩
      obtain ⟨l, hl, hj⟩ := List.mem_flatten.1 hj
      obtain ⟨g, hg, rfl⟩ := List.mem_map.1 hl
      obtain ⟨i, hi, hu⟩ := e4 g hg
      obtain ⟨x, hx, e⟩ := List.mem_map.1 ((hu.same y.2).2 ⟨j, hj, y, hy, rfl⟩)
      exact ⟨i, hi, x, hx, e⟩
  have hins : ins ≠ [] := by
    rintro rfl
    cases gs with
    | nil => exact hne rfl
    | cons g gs => simp at e1
  exact ⟨ins, out, e1, hins, e2, hord, hone, ho, hou, mixable_clean ha fun o h => (union_mem hou).1 h, by
    have := union_length hou; omega⟩

/-- A frame made of frames can be copied, and has their union. -/
theorem grouped_ok {M : List (List Byte) → Status × List Byte → Prop} {Q : List Byte × List (Nat × OpView) → Prop}
    (s : Steps M Q) {text : List Byte} {is : List (List Byte × List (Nat × OpView))} (hg : Grouped M text is)
    (hi : ∀ i ∈ is, Copyable i ∧ Q i) (hs : OrderedFrames is) (h1 : OneOpPerId is) (ha : Mixable (allOps is))
    (hl : (allOps is).length < 2 ^ 31) :
    ∃ l, Copyable (text, l) ∧ Q (text, l) ∧ UnionOf is (l.map Prod.snd) := by
  induction hg with
  | frame i =>
    refine ⟨i.2, (hi i (by simp)).1, (hi i (by simp)).2, List.pairwise_map.2 (hs i (by simp)), fun o => ?_⟩
    rw [List.mem_map]
    simp
  | merge gs text hne hg hm ht ih =>
    have sub : ∀ {g}, g ∈ gs → ∀ {i}, i ∈ g.2 → i ∈ (gs.map Prod.snd).flatten := fun hg _ hi =>
      List.mem_flatten.2 ⟨_, List.mem_map.2 ⟨_, hg, rfl⟩, hi⟩
    have sublen : ∀ {g}, g ∈ gs → (allOps g.2).length ≤ (allOps (gs.map Prod.snd).flatten).length := fun hg =>
      allOps_length hg
    have submem : ∀ {g}, g ∈ gs → ∀ {o}, o ∈ allOps g.2 → o ∈ allOps (gs.map Prod.snd).flatten := by
      intro g hg o ho
      unfold allOps at *
      simp only [List.mem_flatten, List.mem_map] at *
      obtain ⟨_, ⟨i, hi, rfl⟩, ho⟩ := ho
      exact ⟨_, ⟨i, ⟨_, ⟨g, hg, rfl⟩, hi⟩, rfl⟩, ho⟩
    have each : ∀ g ∈ gs, ∃ l, Copyable (g.1, l) ∧ Q (g.1, l) ∧ UnionOf g.2 (l.map Prod.snd) := by
      intro g hg
      refine ih g hg (fun i h => hi i (sub hg h)) (fun i h => hs i (sub hg h))
        (fun i h x hx j hj y hy e => h1 i (sub hg h) x hx j (sub hg hj) y hy e) ?_ ?_
      · exact ⟨fun o ho => ha.1 o (submem hg ho), fun p hp o ho => ha.2 p (submem hg hp) o (submem hg ho)⟩
      · have := sublen hg; omega
    obtain ⟨ins, out, e1, hins, e2, hord, hone, ho, hou, hc, hlen⟩ := regroup hne h1 ha hl each
    rw [← e1] at hm
    obtain ⟨f1, f2⟩ := s.merge hins e2 hord hone ho hc hlen hm
    refine ⟨saidBy (mergedSteps out), ⟨f1, ht, f2, ?_⟩, s.keep hins (fun i hi => (e2 i hi).2) hord ho, ?_⟩
    · intro x hx v hv
      have hx' : x.2 ∈ out := by
        have : x.2 ∈ (saidBy (mergedSteps out)).map Prod.snd := List.mem_map.2 ⟨x, hx, rfl⟩
        rwa [saidBy_merged] at this
      obtain ⟨i, hi, y, hy, e⟩ := (ho.same _).1 hx'
      rw [← e] at hv
      exact (e2 i hi).1.vals y hy v hv
    · rw [saidBy_merged]; exact hou

end Ron.TextMerge
