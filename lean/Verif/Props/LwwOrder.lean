import Verif.Props.LwwUuid
import Verif.Props.TextMerge
/-!
C122: last-write-wins objects that get frames in any order.
-/
namespace Ron.Props
open Ron Spec Cursor LwwText

/-- Of the ops that write the key the one with the greatest id writes this value. -/
def WinsView (ops : List OpView) (k : Uuid) (v : View) : Prop :=
  ∃ o ∈ ops, ViewWrites o k v ∧ ∀ p ∈ ops, ∀ w, ViewWrites p k w → Uuid.lt o.id p.id = false

/-- C122: an object gets frames by `Update`. The UUID of a key is the one the op with the greatest id writes, in whatever
order the frames come. -/
def C122_claim : Prop := ∀ (state : List Byte) (ts : List (List Byte)) (ops : List OpView) (opss : List (List OpView))
  (k u : Uuid), Contents state ops .endOfFrame → Same2 (fun t ops => Contents t ops .endOfFrame) ts opss →
  (∀ l ∈ ops :: opss, l.Pairwise fun a b => Uuid.lt a.id b.id = true) →
  WinsView (ops ++ opss.flatten) k (.uuid u) → SaysUuid state ts k u

/-! ### Lemmas -/

/-- If the writes for the key come in the order of their ids, the greatest is the last. -/
theorem wins_last {ops : List OpView} {k : Uuid} {v : View} (h : WinsView ops k v)
    (hs : ops.Pairwise fun a b => (∃ x, ViewWrites a k x) → (∃ x, ViewWrites b k x) → Uuid.lt a.id b.id = true) :
    LastView ops k v := by
  obtain ⟨o, ho, hw, hm⟩ := h
  obtain ⟨a, b, rfl⟩ := List.append_of_mem ho
  refine ⟨a, o, b, rfl, hw, fun p hp w hpw => ?_⟩
  have h1 := (List.pairwise_cons.1 (List.pairwise_append.1 hs).2.1).1 p hp ⟨v, hw⟩ ⟨w, hpw⟩
  rw [hm p (List.mem_append_right _ (List.mem_cons_of_mem _ hp)) w hpw] at h1
  cases h1

/-! ### Theorems -/

/-- C122: it is so if the ops that write the key come in the order of their ids. Missing from the claim: frames that come
late. -/
theorem C122_order_partial (state : List Byte) (ts : List (List Byte)) (ops : List OpView) (opss : List (List OpView))
    (k u : Uuid) (h : Contents state ops .endOfFrame) (hts : Same2 (fun t ops => Contents t ops .endOfFrame) ts opss)
    (hs : (ops ++ opss.flatten).Pairwise fun a b =>
      (∃ x, ViewWrites a k x) → (∃ x, ViewWrites b k x) → Uuid.lt a.id b.id = true)
    (hw : WinsView (ops ++ opss.flatten) k (.uuid u)) : SaysUuid state ts k u :=
  C121_last state ts ops opss k u h hts (wins_last hw hs)

/-- C122: a frame that comes late and writes the key wins whatever ids its ops have. -/
theorem C122_late (state text : List Byte) (ts : List (List Byte)) (ops more : List OpView) (opss : List (List OpView))
    (k u : Uuid) (h : Contents state ops .endOfFrame) (hts : Same2 (fun t ops => Contents t ops .endOfFrame) ts opss)
    (ht : Contents text more .endOfFrame) (hl : LastView more k (.uuid u)) : SaysUuid state (ts ++ [text]) k u := by
  have hall : ∀ {ts : List (List Byte)} {opss : List (List OpView)},
      Same2 (fun t ops => Contents t ops .endOfFrame) ts opss →
      Same2 (fun t ops => Contents t ops .endOfFrame) (ts ++ [text]) (opss ++ [more]) := by
    intro ts opss h
    induction h with
    | nil => exact .cons ht .nil
    | cons x _ ih => exact .cons x ih
  refine C121_last state _ ops _ k u h (hall hts) ?_
  obtain ⟨a, o, b, rfl, hw, hn⟩ := hl
  refine ⟨ops ++ opss.flatten ++ a, o, b, ?_, hw, hn⟩
  rw [List.flatten_append, List.flatten_cons, List.flatten_nil, List.append_nil]
  simp only [List.append_assoc]

/-- C122: frames that are merged first, in whatever order, make an object with the strings and UUIDs of the ops with the
greatest ids. What is needed is what merges of texts need (`C84_union_partial`). -/
theorem C122_merged_partial (mx : MaxReducer) (ins : List (List Byte × List (Nat × OpView)))
    (hi : ∀ i ∈ ins, Copyable i) (hs : OrderedFrames ins) (h1 : OneOpPerId ins) (out : List OpView)
    (ho : UnionOf ins out) (hc : CleanFrom copyHeadOk (mergedSteps out)) (hl : out.length < 2 ^ 31) :
    ∃ text, MergesAs mx Form.LWW (ins.map Prod.fst) (Status.OK, text) ∧ (text.length < 2 ^ 30 → ∀ k v,
      WinsView (allOps ins) k v → (∀ u, v = .uuid u → SaysUuid text [] k u) ∧ ∀ t, v = .text t → SaysString text [] k t) := by
  obtain ⟨text, g1, -, -, g2⟩ := C84_union_partial mx Form.LWW (.inl rfl) ins hi hs h1 out ho hc hl
  refine ⟨text, g1, fun ht k v hv => ?_⟩
  have hmem : ∀ o, o ∈ out ↔ o ∈ allOps ins := by
    intro o
    rw [ho.same]
    unfold allOps
    simp only [List.mem_flatten, List.mem_map]
    constructor
    · rintro ⟨i, hi, x, hx, rfl⟩
      exact ⟨_, ⟨i, hi, rfl⟩, List.mem_map_of_mem hx⟩
    · rintro ⟨_, ⟨i, hi, rfl⟩, h⟩
      obtain ⟨x, hx, rfl⟩ := List.mem_map.1 h
      exact ⟨i, hi, x, hx, rfl⟩
  have hv' : LastView out k v := by
    refine wins_last ?_ (ho.sorted.imp fun h _ _ => h)
    obtain ⟨o, k1, k2, k3⟩ := hv
    exact ⟨o, (hmem o).2 k1, k2, fun p hp => k3 p ((hmem p).1 hp)⟩
  constructor
  · rintro u rfl
    exact C121_last text [] out [] k u (g2 ht) .nil (by rw [List.flatten_nil, List.append_nil]; exact hv')
  · rintro t rfl
    exact C119_partial text [] out [] k t (g2 ht) .nil hv' (fun _ h => nomatch h)

/-! ### Concrete frames -/

/-- The ops of a frame. -/
def ops122 (t : List Byte) : List OpView :=
  match readOps 20 t with
  | .ok (some (l, .endOfFrame)) => l
  | _ => []

theorem ops122_reads {t : List Byte} (h : ops122 t ≠ []) : Contents t (ops122 t) .endOfFrame := by
  unfold ops122 at h ⊢
  split
  · rename_i l e
    exact contents_of 20 e
  · rename_i hn
    refine absurd ?_ h
    split
    · rename_i l e
      exact absurd e (hn l)
    · rfl

/-- What an op writes. -/
def wrote122 (o : OpView) : Option (Uuid × View) :=
  match o.vals with
  | .uuid k :: v :: _ => some (k, v)
  | _ => none

theorem wrote122_iff {o : OpView} {k : Uuid} {v : View} : ViewWrites o k v ↔ wrote122 o = some (k, v) := by
  unfold ViewWrites wrote122
  constructor
  · rintro ⟨more, e⟩
    rw [e]
  · intro h
    split at h
    · rename_i a b c e
      cases h
      exact ⟨c, e⟩
    · cases h

theorem wins_lit {l : List OpView} {k : Uuid} {v : View} (h : (l.any fun o => decide (wrote122 o = some (k, v)) &&
    l.all fun p => decide ((wrote122 p).map Prod.fst = some k → Uuid.lt o.id p.id = false)) = true) : WinsView l k v := by
  obtain ⟨o, ho, h⟩ := List.any_eq_true.1 h
  rw [Bool.and_eq_true, decide_eq_true_eq] at h
  refine ⟨o, ho, wrote122_iff.2 h.1, fun p hp w hw => ?_⟩
  exact of_decide_eq_true (List.all_eq_true.1 h.2 p hp) (by rw [wrote122_iff.1 hw]; rfl)

theorem ordered_lit {l : List OpView} {k : Uuid} (h : l.Pairwise fun a b => (wrote122 a).map Prod.fst = some k →
    (wrote122 b).map Prod.fst = some k → Uuid.lt a.id b.id = true) :
    l.Pairwise fun a b => (∃ x, ViewWrites a k x) → (∃ x, ViewWrites b k x) → Uuid.lt a.id b.id = true := by
  refine h.imp fun h => ?_
  rintro ⟨x, hx⟩ ⟨y, hy⟩
  exact h (by rw [wrote122_iff.1 hx]; rfl) (by rw [wrote122_iff.1 hy]; rfl)

def state122 : List Byte := lit "@1+A :lww, @3+A :1+A str abc;"
def late122 : List Byte := lit "@2+A :1+A str str;"
def next122 : List Byte := lit "@4+A :1+A str str;"

theorem saysUuid_of {state text : List Byte} {k u : Uuid} {l l' : List OpView} (h : Contents state l .endOfFrame)
    (h' : Contents text l' .endOfFrame) (hl : LastView l' k (.uuid u)) : SaysUuid state [text] k u :=
  C122_late state text [] l l' [] k u h .nil h' hl

/-- C122 is violated: the UUID of the op 3 is replaced by the one of the op 2, which comes late. -/
theorem C122_violated : ¬ C122_claim := by
  intro hc
  have h1 := ops122_reads (t := state122) (by decide +kernel)
  have h2 := ops122_reads (t := late122) (by decide +kernel)
  obtain ⟨N, h⟩ := hc state122 [late122] _ [_] str119 abc121 h1 (.cons h2 .nil) (by
    intro l hl
    rcases List.mem_cons.1 hl with rfl | hl
    · decide +kernel
    · rw [List.mem_singleton.1 hl]
      decide +kernel) (wins_lit (by decide +kernel))
  have hlast : LastView (ops122 late122) str119 (.uuid str119) := by
    refine wins_last (wins_lit (by decide +kernel)) (ordered_lit (by decide +kernel))
  obtain ⟨N', h'⟩ := saysUuid_of h1 h2 hlast
  have := h (N + N') (by omega)
  rw [h' _ (by omega)] at this
  exact absurd this (by decide +kernel)

/-- The frames in the order of the ids. -/
example : Contents state122 (ops122 state122) .endOfFrame ∧
    Same2 (fun t ops => Contents t ops .endOfFrame) [next122] [ops122 next122] ∧
    ((ops122 state122 ++ [ops122 next122].flatten).Pairwise fun a b =>
      (∃ x, ViewWrites a str119 x) → (∃ x, ViewWrites b str119 x) → Uuid.lt a.id b.id = true) ∧
    WinsView (ops122 state122 ++ [ops122 next122].flatten) str119 (.uuid str119) ∧
    uuidOf 20 state122 [next122] str119 = .ok (some str119) :=
  ⟨ops122_reads (by decide +kernel), .cons (ops122_reads (by decide +kernel)) .nil, ordered_lit (by decide +kernel),
    wins_lit (by decide +kernel), by decide +kernel⟩

/-- The frame that comes late. -/
example : LastView (ops122 late122) str119 (.uuid str119) ∧ uuidOf 20 state122 [late122] str119 = .ok (some str119) :=
  ⟨wins_last (wins_lit (by decide +kernel)) (ordered_lit (by decide +kernel)), by decide +kernel⟩

/-- The frames of `C84_union_partial`, whose hypotheses are shown there: the string of the greatest op of a key. -/
example : (∀ i ∈ ins84, Copyable i) ∧ UnionOf ins84 out84 ∧
    WinsView (allOps ins84) (denote 0 (lit "abc") 0 []) (.text (lit "it's")) ∧
    (TextMerge.mergeFrames noMax 20 (ins84.map Prod.fst)).bind (fun r => match r with
      | some r => stringOf 20 r.2 [] (denote 0 (lit "abc") 0 [])
      | none => .ok none) = .ok (some (lit "it's")) :=
  ⟨ins84_copyable, union84, wins_lit (by decide +kernel), by decide +kernel⟩

end Ron.Props
