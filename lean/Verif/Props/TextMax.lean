import Verif.Lemmas.TextMax
import Verif.Props.TextMerge
/-!
C92: merging max objects as text.
-/
namespace Ron.Props
open Ron.Spec

/-- Merging the frames ends with the status and the frame. -/
def MaxMerges (fl : List Byte → Word) (frames : List (List Byte)) (r : Status × List Byte) : Prop :=
  ∃ n, TextMerge.mergeFrames (TextMerge.max fl n) n frames = .ok (some r)

/-- `max`. -/
def maxName : Uuid := denote 0 (lit "max") 0 []

/-- `n` is the greatest integer of the ops. -/
def GreatestInt (ops : List OpView) (n : Int) : Prop := (∃ o ∈ ops, intAt o = some n) ∧ ∀ o ∈ ops, ∀ i, intAt o = some i → i ≤ n

/-- C92: states of a max object of integers, as frames, are merged to the header and the op with the greatest one. -/
def C92_claim : Prop := ∀ (fl : List Byte → Word) (ins : List (List Byte × List OpView)) (h : OpView),
  ins ≠ [] → h.ref = maxName → h.vals = [] →
  (∀ i ∈ ins, Contents i.1 i.2 .endOfFrame ∧ i.2.head? = some h ∧ ∀ o ∈ i.2.tail, intAt o ≠ none) →
  (∃ i ∈ ins, i.2.tail ≠ []) →
  ∃ text m n, MaxMerges fl (ins.map Prod.fst) (Status.OK, text) ∧ Contents text [h, m] .endOfFrame ∧
    intAt m = some n ∧ GreatestInt (ins.map Prod.snd).flatten n

/-- C92: what is said by the merged frame was said by one of the frames. -/
def C92_invented_claim : Prop := ∀ (fl : List Byte → Word) (ins : List (List Byte × List OpView)) (text : List Byte)
  (out : List OpView), (∀ i ∈ ins, Contents i.1 i.2 .endOfFrame ∧ Headed maxName i.2) →
  MaxMerges fl (ins.map Prod.fst) (Status.OK, text) → Contents text out .endOfFrame →
  ∀ o ∈ out, ∃ i ∈ ins, o ∈ i.2

/-- C92: the order of the frames does not matter. -/
def C92_order_claim : Prop := ∀ (fl : List Byte → Word) (ins ins' : List (List Byte × List OpView)) (text text' : List Byte)
  (out out' : List OpView), (∀ i ∈ ins, Contents i.1 i.2 .endOfFrame ∧ Headed maxName i.2) → ins.Perm ins' →
  MaxMerges fl (ins.map Prod.fst) (Status.OK, text) → MaxMerges fl (ins'.map Prod.fst) (Status.OK, text') →
  Contents text out .endOfFrame → Contents text' out' .endOfFrame → out = out'

/-- There is one result. -/
theorem maxMerges_unique {fl : List Byte → Word} {frames : List (List Byte)} {r r' : Status × List Byte}
    (h : MaxMerges fl frames r) (h' : MaxMerges fl frames r') : r = r' := by
  obtain ⟨n, h⟩ := h
  obtain ⟨m, h'⟩ := h'
  have a := TextMerge.mergeFrames_max h m
  have b := TextMerge.mergeFrames_max h' n
  rw [Nat.add_comm m n, a] at b
  injection b with b
  injection b

/-! ### violations -/

def bad92a : List Byte := lit "@1+A :max,\n@2+A :1+A 5;\n"
def bad92b : List Byte := lit "@1+A :max,\n@3+A :1+A -7;\n"
def bad92c : List Byte := lit "@1+A :max;\n"
def bad92d : List Byte := lit "@1+A :max,\n@2+A :1+A 'zzz';\n"
def bad92e : List Byte := lit "@1+A :max,\n@3+A :1+A 'bbb';\n"
def noFloat : List Byte → Word := fun _ => 0#64

/-- The frames have a header and an integer each; the merged frame has an op with the lesser one. -/
def mismaxed (a b : List Byte) : Bool :=
  match readOps 20 a, readOps 20 b, TextMerge.mergeFrames (TextMerge.max noFloat 20) 20 [a, b] with
  | .ok (some ([h, x], .endOfFrame)), .ok (some ([h', y], .endOfFrame)), .ok (some (_, t)) =>
    decide (h = h' ∧ h.ref = maxName ∧ h.vals = []) &&
    (match intAt x, intAt y, readOps 20 t with
     | some i, some j, .ok (some ([_, m], .endOfFrame)) => decide (j < i ∧ intAt m = some j)
     | _, _, _ => false)
  | _, _, _ => false

/-- C92 is violated: -7 is greater than 5. -/
theorem C92_violated : ¬ C92_claim := by
  intro hc
  have k : mismaxed bad92a bad92b = true := by decide +kernel
  unfold mismaxed at k
  split at k
  · rename_i h x h' y st t h1 h2 h3
    rw [Bool.and_eq_true, decide_eq_true_eq] at k
    obtain ⟨⟨rfl, k1, k2⟩, k⟩ := k
    split at k
    · rename_i i j h'' m e1 e2 h4
      rw [decide_eq_true_eq] at k
      obtain ⟨text, m', n, g1, g2, g3, -, g4⟩ := hc noFloat [(bad92a, [h, x]), (bad92b, [h, y])] h (by simp) k1 k2 (by
        intro i hi
        simp only [List.mem_cons, List.not_mem_nil, or_false] at hi
        rcases hi with rfl | rfl
        · exact ⟨contents_of 20 h1, rfl, by simp [e1]⟩
        · exact ⟨contents_of 20 h2, rfl, by simp [e2]⟩) ⟨(bad92a, [h, x]), by simp, by simp⟩
      have e := maxMerges_unique g1 ⟨20, h3⟩
      injection e with e3 e4
      subst e4
      obtain ⟨e5, -⟩ := Chains.contents_unique g2 (contents_of 20 h4)
      injection e5 with e5 e6
      injection e6 with e6
      subst e6
      rw [k.2] at g3
      injection g3 with g3
      have := g4 x (by simp) i e1
      omega
    · cases k
  · cases k

/-- C92 is violated: a frame that has nothing but the header is merged to a frame with one more op. -/
theorem C92_invented_violated : ¬ C92_invented_claim := by
  intro hc
  have k : (match readOps 20 bad92c, TextMerge.mergeFrames (TextMerge.max noFloat 20) 20 [bad92c] with
    | .ok (some ([h], .endOfFrame)), .ok (some (st, t)) =>
      decide (st = Status.OK ∧ h.ref = maxName) && (match readOps 20 t with
        | .ok (some ([_, m], .endOfFrame)) => decide (m ≠ h)
        | _ => false)
    | _, _ => false) = true := by decide +kernel
  split at k
  · rename_i h st t h1 h2
    rw [Bool.and_eq_true, decide_eq_true_eq] at k
    obtain ⟨⟨rfl, k1⟩, k⟩ := k
    split at k
    · rename_i h' m h3
      obtain ⟨i, hi, hm⟩ := hc noFloat [(bad92c, [h])] t [h', m] (by
        intro i hi
        simp only [List.mem_cons, List.not_mem_nil, or_false] at hi
        subst hi
        exact ⟨contents_of 20 h1, h, [], rfl, k1⟩) ⟨20, h2⟩ (contents_of 20 h3) m (by simp)
      simp only [List.mem_cons, List.not_mem_nil, or_false] at hi
      subst hi
      simp only [List.mem_cons, List.not_mem_nil, or_false] at hm
      rw [decide_eq_true_eq] at k
      exact k hm
    · cases k
  · cases k

/-- C92 is violated: of two strings at the same place in their frames the one of the last frame is kept. -/
theorem C92_order_violated : ¬ C92_order_claim := by
  intro hc
  have k : (match readOps 20 bad92d, readOps 20 bad92e,
      TextMerge.mergeFrames (TextMerge.max noFloat 20) 20 [bad92d, bad92e],
      TextMerge.mergeFrames (TextMerge.max noFloat 20) 20 [bad92e, bad92d] with
    | .ok (some ([h, _], .endOfFrame)), .ok (some ([h', _], .endOfFrame)), .ok (some (st, t)), .ok (some (st', t')) =>
      decide (st = Status.OK ∧ st' = Status.OK ∧ h.ref = maxName ∧ h'.ref = maxName) &&
      (match readOps 20 t, readOps 20 t' with
        | .ok (some (l, .endOfFrame)), .ok (some (l', .endOfFrame)) => decide (l ≠ l')
        | _, _ => false)
    | _, _, _, _ => false) = true := by decide +kernel
  split at k
  · rename_i h x h' y st t st' t' h1 h2 h3 h4
    rw [Bool.and_eq_true, decide_eq_true_eq] at k
    obtain ⟨⟨rfl, rfl, k1, k2⟩, k⟩ := k
    split at k
    · rename_i l l' h5 h6
      rw [decide_eq_true_eq] at k
      exact k (hc noFloat [(bad92d, [h, x]), (bad92e, [h', y])] [(bad92e, [h', y]), (bad92d, [h, x])] t t' l l' (by
        intro i hi
        simp only [List.mem_cons, List.not_mem_nil, or_false] at hi
        rcases hi with rfl | rfl
        · exact ⟨contents_of 20 h1, h, _, rfl, k1⟩
        · exact ⟨contents_of 20 h2, h', _, rfl, k2⟩) (.swap _ _ _) ⟨20, h3⟩ ⟨20, h4⟩ (contents_of 20 h5) (contents_of 20 h6))
    · cases k
  · cases k

/-! ### what is merged -/

theorem maxName_eq : maxName = Rdt.MAX_UUID := by decide +kernel

/-- The ops of the frames but the first one. -/
def others (xs : List (Nat × OpView)) (rest : List (List Byte × List (Nat × OpView))) : List OpView :=
  (xs ++ (rest.map Prod.snd).flatten).map Prod.snd

theorem maxMerges_ok {fl : List Byte → Word} {P : OpView → Prop} {key : OpView → Nat} (g : TextMerge.Scaled fl P key)
    {f0 : List Byte} {h : Nat × OpView} {xs : List (Nat × OpView)} {rest : List (List Byte × List (Nat × OpView))}
    (hi : ∀ i ∈ (f0, h :: xs) :: rest, Copyable i) (hh : h.2.ref = maxName)
    (hr : ∀ i ∈ rest, ∀ x, i.2.head? = some x → x.2.ref.version = Uuid.vNAME → x.2.ref = maxName)
    (hP : ∀ o ∈ others xs rest, P o) (hne : others xs rest ≠ [])
    (hc : ∀ m ∈ others xs rest, (∀ o ∈ others xs rest, key o ≤ key m) → CleanFrom copyHeadOk (mergedSteps [h.2, m])) :
    ∃ text m, MaxMerges fl (((f0, h :: xs) :: rest).map Prod.fst) (Status.OK, text) ∧ m ∈ others xs rest ∧
      (∀ o ∈ others xs rest, key o ≤ key m) ∧ FrameText Uuid.NIL text (saidBy (mergedSteps [h.2, m])) ∧
      (text.length < 2 ^ 30 → Contents text [h.2, m] .endOfFrame) := by
  obtain ⟨cs, e1, hcs⟩ := TextMerge.firsts_ok hi
  have hfl : ((((f0, h :: xs) :: rest).map Prod.snd).filter fun l => !l.isEmpty) =
      (h :: xs) :: ((rest.map Prod.snd).filter fun l => !l.isEmpty) := rfl
  have hmem : ∀ y, y ∈ (xs :: ((rest.map Prod.snd).filter fun l => !l.isEmpty)).flatten ↔
      y ∈ xs ++ (rest.map Prod.snd).flatten := by
    intro y
    simp only [List.flatten_cons, List.mem_append, List.mem_flatten, List.mem_filter]
    constructor
    · rintro (h | ⟨l, ⟨h1, -⟩, h2⟩)
      · exact .inl h
      · exact .inr ⟨l, h1, h2⟩
    · rintro (h | ⟨l, h1, h2⟩)
      · exact .inl h
      · exact .inr ⟨l, ⟨h1, by cases l with | nil => simp at h2 | cons => rfl⟩, h2⟩
  have hin : ∀ y, y ∈ (xs :: ((rest.map Prod.snd).filter fun l => !l.isEmpty)).flatten → y.2 ∈ others xs rest :=
    fun y hy => List.mem_map.2 ⟨y, (hmem y).1 hy, rfl⟩
  rw [hfl] at hcs
  obtain ⟨c, m, z, a1, a2, a3, a4⟩ := TextMerge.max_ok (h := h) g hcs (by rw [hh, maxName_eq]) (by
    intro l hl y hy
    exact hP _ (hin y (List.mem_flatten.2 ⟨l, hl, hy⟩))) (by
    rintro e rfl
    apply hne
    unfold others
    rw [List.map_eq_nil_iff, List.eq_nil_iff_forall_not_mem]
    intro y hy
    have := (hmem y).2 hy
    rw [e] at this
    simp at this)
  have hz := hin z a2
  have hgr : ∀ o ∈ others xs rest, key o ≤ key z.2 := by
    intro o ho
    obtain ⟨y, hy, rfl⟩ := List.mem_map.1 ho
    exact a3 y ((hmem y).2 hy)
  obtain ⟨b, text, b', w1, w2, w3⟩ := Builder.work_ok (TextMerge.merged_fits a1) (hc z.2 hz hgr) (by
    show 3 < 2 ^ 32
    decide)
  have hm : ∃ n, MergesAs (TextMerge.max fl n) Form.MAX (((f0, h :: xs) :: rest).map Prod.fst) (Status.OK, text) :=
    ⟨_, mergesAs_ok (n := 0) e1 (show TextMerge.max fl _ Builder.init cs = _ from a4 _ (Nat.lt_succ_self _) _ _ w1) w2⟩
  obtain ⟨n, hm⟩ := hm
  have hf : uuid2form maxName = Form.MAX := by decide +kernel
  rw [← hf] at hm
  obtain ⟨k, hk⟩ := (C84_form (TextMerge.max fl n) maxName (by decide +kernel) (by decide +kernel) _ hi (by
    intro i hi x hx hv
    rcases List.mem_cons.1 hi with rfl | hi
    · injection hx with hx
      subst hx
      exact hh
    · exact hr i hi x hx hv) ⟨_, List.mem_cons_self, h, rfl, hh⟩ _).2 hm
  refine ⟨text, z.2, ⟨n + k, ?_⟩, hz, hgr, w3, fun ht => ?_⟩
  · have := TextMerge.mergeFrames_mono (TextMerge.mergeFrames_mx (fun _ _ _ h => TextMerge.max_mono h k) hk) n
    rwa [Nat.add_comm k n] at this
  · have := (C20_frames_partial text ht _ w3).1
    rwa [TextMerge.saidBy_merged] at this

/-- C92: frames of the grammar, the first one with the header of a max object, of which all the other ops have no values
or an integer that is not negative, are merged with the status OK to a frame of the grammar that reads as that header and
one of the ops with the greatest integer. Missing from the claim: negative integers, a frame of the header alone
(`C92_violated`, `C92_invented_violated`), and what is missing from `C84_union_partial`. -/
theorem C92_greatest_partial (fl : List Byte → Word) (f0 : List Byte) (h : Nat × OpView) (xs : List (Nat × OpView))
    (rest : List (List Byte × List (Nat × OpView))) (hi : ∀ i ∈ (f0, h :: xs) :: rest, Copyable i)
    (hh : h.2.ref = maxName)
    (hr : ∀ i ∈ rest, ∀ x, i.2.head? = some x → x.2.ref.version = Uuid.vNAME → x.2.ref = maxName)
    (hP : ∀ o ∈ others xs rest, o.vals = [] ∨ ∃ n : Nat, intAt o = some (n : Int))
    (hne : ∃ o ∈ others xs rest, intAt o ≠ none)
    (hc : ∀ m ∈ others xs rest, intAt m ≠ none → CleanFrom copyHeadOk (mergedSteps [h.2, m])) :
    ∃ text m n, MaxMerges fl (((f0, h :: xs) :: rest).map Prod.fst) (Status.OK, text) ∧
      FrameText Uuid.NIL text (saidBy (mergedSteps [h.2, m])) ∧
      (text.length < 2 ^ 30 → Contents text [h.2, m] .endOfFrame) ∧
      m ∈ others xs rest ∧ intAt m = some n ∧ GreatestInt (others xs rest) n := by
  obtain ⟨o0, ho0, hv0⟩ := hne
  have val : ∀ o ∈ others xs rest, intAt o ≠ none → ∃ n : Nat, intAt o = some (n : Int) := by
    intro o ho hv
    rcases hP o ho with e | h
    · exact absurd (by unfold intAt; rw [e]) hv
    · exact h
  obtain ⟨n0, e0⟩ := val o0 ho0 hv0
  have some_of : ∀ m, (∀ o ∈ others xs rest,
      TextMerge.scale ((intAt o).bind fun i => if 0 ≤ i then some i.toNat else none) ≤
      TextMerge.scale ((intAt m).bind fun i => if 0 ≤ i then some i.toNat else none)) → intAt m ≠ none := by
    intro m hm e
    have := hm o0 ho0
    rw [e0, e] at this
    simp [TextMerge.scale] at this
  obtain ⟨text, m, a1, a2, a3, a4, a5⟩ := maxMerges_ok (fl := fl) TextMerge.scaled_int hi hh hr hP
    (fun e => by rw [e] at ho0; simp at ho0) (fun m hm hg => hc m hm (some_of m hg))
  obtain ⟨n, e⟩ := val m a2 (some_of m a3)
  refine ⟨text, m, n, a1, a4, a5, a2, e, ⟨m, a2, e⟩, ?_⟩
  intro o ho i hoi
  obtain ⟨j, ej⟩ := val o ho (by rw [hoi]; simp)
  have := a3 o ho
  rw [ej, e] at this
  simp [TextMerge.scale] at this
  rw [ej] at hoi
  injection hoi with hoi
  omega

/-- C92: the same for uuids. -/
theorem C92_uuid_partial (fl : List Byte → Word) (f0 : List Byte) (h : Nat × OpView) (xs : List (Nat × OpView))
    (rest : List (List Byte × List (Nat × OpView))) (hi : ∀ i ∈ (f0, h :: xs) :: rest, Copyable i)
    (hh : h.2.ref = maxName)
    (hr : ∀ i ∈ rest, ∀ x, i.2.head? = some x → x.2.ref.version = Uuid.vNAME → x.2.ref = maxName)
    (hP : ∀ o ∈ others xs rest, o.vals = [] ∨ ∃ u, uuidAt o = some u)
    (hne : ∃ o ∈ others xs rest, uuidAt o ≠ none)
    (hc : ∀ m ∈ others xs rest, uuidAt m ≠ none → CleanFrom copyHeadOk (mergedSteps [h.2, m])) :
    ∃ text m u, MaxMerges fl (((f0, h :: xs) :: rest).map Prod.fst) (Status.OK, text) ∧
      FrameText Uuid.NIL text (saidBy (mergedSteps [h.2, m])) ∧
      (text.length < 2 ^ 30 → Contents text [h.2, m] .endOfFrame) ∧
      m ∈ others xs rest ∧ uuidAt m = some u ∧ ∀ o ∈ others xs rest, ∀ v, uuidAt o = some v → Uuid.lt u v = false := by
  obtain ⟨o0, ho0, hv0⟩ := hne
  obtain ⟨u0, e0⟩ := Option.ne_none_iff_exists'.1 hv0
  have some_of : ∀ m, (∀ o ∈ others xs rest,
      TextMerge.scale ((uuidAt o).map fun u => u.value.toNat * 2 ^ 64 + u.origin.toNat) ≤
      TextMerge.scale ((uuidAt m).map fun u => u.value.toNat * 2 ^ 64 + u.origin.toNat)) → uuidAt m ≠ none := by
    intro m hm e
    have := hm o0 ho0
    rw [e0, e] at this
    simp [TextMerge.scale] at this
  obtain ⟨text, m, a1, a2, a3, a4, a5⟩ := maxMerges_ok (fl := fl) TextMerge.scaled_uuid hi hh hr (by
    intro o ho
    rcases hP o ho with h | ⟨u, h⟩
    · exact .inl h
    · exact .inr ⟨_, by rw [h]; rfl⟩)
    (fun e => by rw [e] at ho0; simp at ho0) (fun m hm hg => hc m hm (some_of m hg))
  obtain ⟨u, e⟩ := Option.ne_none_iff_exists'.1 (some_of m a3)
  refine ⟨text, m, u, a1, a4, a5, a2, e, ?_⟩
  intro o ho v hov
  have := a3 o ho
  rw [hov, e] at this
  simp only [TextMerge.scale, Option.map_some] at this
  have h1 := u.origin.isLt
  have h2 := v.origin.isLt
  unfold Uuid.lt
  simp only [Bool.or_eq_false_iff, decide_eq_false_iff_not, Bool.and_eq_false_iff]
  constructor
  · omega
  · by_cases h : u.value = v.value
    · rw [h] at this
      right; omega
    · exact .inl h

/-! ### concrete frames -/

def head92 : Call := .op (tid 5 1) maxName []
def a92 : List Call := [head92, .op (tid 7 1) (tid 5 1) [.int 40], .op (tid 11 1) (tid 5 1) [.int 12, .str (lit "x")], .endChunk 0]
def b92 : List Call := [.op (tid 9 1) (tid 5 1) [.int 41], .endChunk 0]
def c92 : List Call := [head92, .endChunk 0]
def d92 : List Call := [head92, .op (tid 7 1) (tid 5 1) [.uuid (denote 0 (lit "abc") 0 [])], .op (tid 9 1) (tid 5 1) [.uuid lwwName], .endChunk 0]
def others92 : List (List Byte × List (Nat × OpView)) := [frame84 b92, frame84 [], frame84 c92]

-- The hypotheses of `C92_greatest_partial` hold for a state of an object, a later op, an empty frame, and a state with
-- nothing but the header.
example : ∃ h xs, frame84 a92 = ((frame84 a92).1, h :: xs) ∧ (∀ i ∈ ((frame84 a92).1, h :: xs) :: others92, Copyable i) ∧
    h.2.ref = maxName ∧
    (∀ i ∈ others92, ∀ x, i.2.head? = some x → x.2.ref.version = Uuid.vNAME → x.2.ref = maxName) ∧
    (∀ o ∈ others xs others92, o.vals = [] ∨ ∃ n : Nat, intAt o = some (n : Int)) ∧
    (∃ o ∈ others xs others92, intAt o ≠ none) ∧
    (∀ m ∈ others xs others92, intAt m ≠ none → CleanFrom copyHeadOk (mergedSteps [h.2, m])) := by
  have e : frame84 a92 = ((frame84 a92).1, ((frame84 a92).2.head (by decide +kernel)) :: (frame84 a92).2.tail) := by
    rw [List.cons_head_tail]
  refine ⟨_, _, e, ?_, by decide +kernel, ?_, ?_, ?_, ?_⟩
  · intro i hi
    rw [← e] at hi
    simp only [others92, List.mem_cons, List.not_mem_nil, or_false] at hi
    rcases hi with rfl | rfl | rfl | rfl <;> exact copyable_lit (by decide +kernel)
  · have k : (others92.all fun i => match i.2.head? with
      | some x => decide (x.2.ref.version = Uuid.vNAME → x.2.ref = maxName) | none => true) = true := by decide +kernel
    intro i hi x hx
    have := List.all_eq_true.1 k i hi
    rw [hx] at this
    exact of_decide_eq_true this
  · have k : ((others (frame84 a92).2.tail others92).all fun o => o.vals.isEmpty || match intAt o with
      | some i => decide (0 ≤ i) | none => false) = true := by decide +kernel
    intro o ho
    have := List.all_eq_true.1 k o ho
    rw [Bool.or_eq_true] at this
    rcases this with h | h
    · exact .inl (List.isEmpty_iff.1 h)
    · split at h
      · rename_i i hi
        refine .inr ⟨i.toNat, ?_⟩
        rw [hi, Int.toNat_of_nonneg (of_decide_eq_true h)]
      · cases h
  · have k : ((others (frame84 a92).2.tail others92).any fun o => (intAt o).isSome) = true := by decide +kernel
    obtain ⟨o, ho, h⟩ := List.any_eq_true.1 k
    exact ⟨o, ho, fun e => by rw [e] at h; cases h⟩
  · intro m hm hv
    have k : ((others (frame84 a92).2.tail others92).all fun m => !(intAt m).isSome ||
      cleanLit copyHeadOk Uuid.NIL [.uuid Uuid.FATAL] true false (mergedSteps [((frame84 a92).2.head (by decide +kernel)).2, m])) = true := by decide +kernel
    have := List.all_eq_true.1 k m hm
    rw [Bool.or_eq_true] at this
    rcases this with h | h
    · exact absurd (by simpa using h) hv
    · exact clean_lit h

-- The merge of them.
example : TextMerge.mergeFrames (TextMerge.max noFloat 20) 20 ((frame84 a92 :: others92).map Prod.fst) = .ok (some (Status.OK,
    lit ("@0000000005+0000000001 :max,\n@0000000009+0000000001 41;\n"))) := by decide +kernel

-- The hypotheses of `C92_uuid_partial` on the values hold for a state with two uuids.
example : Copyable (frame84 d92) ∧ (∀ o ∈ others (frame84 d92).2.tail [frame84 c92], o.vals = [] ∨ ∃ u, uuidAt o = some u) ∧
    ∃ o ∈ others (frame84 d92).2.tail [frame84 c92], uuidAt o ≠ none := by
  refine ⟨copyable_lit (by decide +kernel), ?_, ?_⟩
  · have k : ((others (frame84 d92).2.tail [frame84 c92]).all fun o => o.vals.isEmpty || (uuidAt o).isSome) = true := by
      decide +kernel
    intro o ho
    have := List.all_eq_true.1 k o ho
    rw [Bool.or_eq_true] at this
    rcases this with h | h
    · exact .inl (List.isEmpty_iff.1 h)
    · exact .inr (Option.isSome_iff_exists.1 h)
  · have k : ((others (frame84 d92).2.tail [frame84 c92]).any fun o => (uuidAt o).isSome) = true := by decide +kernel
    obtain ⟨o, ho, h⟩ := List.any_eq_true.1 k
    exact ⟨o, ho, fun e => by rw [e] at h; cases h⟩

-- The merge of them.
example : TextMerge.mergeFrames (TextMerge.max noFloat 20) 20 ([frame84 d92, frame84 c92].map Prod.fst) = .ok (some (Status.OK,
    lit ("@0000000005+0000000001 :max,\n@0000000009+0000000001 lww;\n"))) := by decide +kernel

end Ron.Props
