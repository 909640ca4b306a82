import Verif.Lemmas.Reserialize
import Verif.Props.TextState
import Verif.Props.TextChain
/-!
C95: a log is written out chain by chain.
-/
namespace Ron.Props
open Ron Spec

/-! ## C95 — a log is written out as frames of a chain each -/

/-- The log is split into chains, and each of them is written out as a frame. -/
def SplitInto (log : List Byte) (cutoff : Uuid) (r : Status × List (List Byte)) : Prop :=
  ∃ n, Reserialize.splitFrames n cutoff log = .ok (some r)

/-- A frame per chain, in the order of the log; together they have the ops of the log up to the cutoff. -/
def C95_claim : Prop := ∀ (log : List Byte) (ops : List OpView) (cutoff : Uuid), Contents log ops .endOfFrame →
  cutoff ≠ Uuid.NIL → ∃ texts css, SplitInto log cutoff (Status.OK, texts) ∧
    Same2 (fun t cs => Contents t cs .endOfFrame) texts css ∧ css.flatten = upTo cutoff ops ∧
    (∀ cs ∈ css, cs ≠ [] ∧ Consecutive cs) ∧ Maximal css

/-- C95: the frames have the ops of the log up to the cutoff, each of them is a chain, and no two of them could be one.
They can be read and copied again: the texts are of the grammar. Missing from the claim: values that can not be copied,
runs that do not begin with a plain character, cutoffs inside of spans, logs with words of more than ten characters. -/
theorem C95_partial (i : List Byte × List (Nat × OpView)) (hi : Copyable i) (hsz : i.1.length < 10 ^ 9 - 1) (hl : ¬ LongWord i.1)
    (hn : i.2.length < 2 ^ 32)
    (hr : ∀ p ∈ i.2, ∀ o ∈ i.2, folds p.2.id p.2.vals o.2 = true → copyHeadOk p.2.vals = true)
    (hx : ∀ p ∈ i.2, p.2.id ≠ Uuid.NIL.inc) (cutoff : Uuid) (hc : cutoff ≠ Uuid.NIL)
    (hs : ∀ d, Cursor.Passed i.1 d → d.id = some cutoff → d.span = 0) :
    ∃ texts css, SplitInto i.1 cutoff (Status.OK, texts) ∧
      Same2 (fun t cs => FrameText Uuid.NIL t (saidBy (cs.map Step.op)) ∧ NoOverlong t ∧
        (t.length < 2 ^ 30 → Contents t cs .endOfFrame)) texts css ∧
      css.flatten = upTo cutoff (i.2.map Prod.snd) ∧ (∀ cs ∈ css, cs ≠ [] ∧ Consecutive cs) ∧ Maximal css := by
  obtain ⟨chains, xss, s1, s2, s3, s4, s5, s6⟩ := TextMerge.split_ok hi hsz hl hc hs (Nat.lt_succ_self _)
  obtain ⟨chains', css', k1, k2, -⟩ := C48_exact_partial i.1 hsz hl _ (C20_frames_partial i.1 hi.size _ hi.text).1 cutoff
    hc hs (i.2.length + 1) (by simp)
  rw [s1] at k1
  simp only [Out.ok.injEq, Option.some.injEq, Prod.mk.injEq, and_true] at k1
  subst k1
  have hw : Same2 Reserialize.WholeAt chains xss := by
    clear s1 s3 s4 s5 s6
    induction s2 generalizing css' with
    | nil => exact .nil
    | cons h _ ih =>
      cases k2 with
      | cons g1 g2 => exact .cons (Reserialize.whole_of h g1) (ih _ g2)
  have hin : ∀ l ∈ xss, ∀ x ∈ l, x ∈ i.2 := fun l hl x hx => s3.subset (List.mem_flatten.2 ⟨l, hl, hx⟩)
  have hlen : ∀ l ∈ xss, l.length ≤ i.2.length := fun l hl =>
    Nat.le_trans (List.sublist_flatten_of_mem hl).length_le s3.length_le
  obtain ⟨texts, t1, t2⟩ := Reserialize.frames_ok hw (by
    intro l hl
    refine ⟨Reserialize.chain_clean (s5 l hl).2 ?_ (TextChain.plainRuns_of ?_), Nat.lt_of_le_of_lt (hlen l hl) hn⟩
    · intro o ho
      obtain ⟨x, hx', rfl⟩ := List.mem_map.1 ho
      exact hx x (hin l hl x hx')
    · intro p hp o ho
      obtain ⟨p', hp', rfl⟩ := List.mem_map.1 hp
      obtain ⟨o', ho', rfl⟩ := List.mem_map.1 ho
      exact hr p' (hin l hl p' hp') o' (hin l hl o' ho'))
  refine ⟨texts, xss.map (List.map Prod.snd), ⟨i.2.length + 1, ?_⟩, ?_, ?_, ?_, s6⟩
  · unfold Reserialize.splitFrames
    rw [s1, Op.obind]
    simp only [if_true]
    exact t2 _ (fun l hl => by have := hlen l hl; omega) []
  · clear t2 hlen hin hw s6 s5 s4 s3 k2 s2 s1
    induction t1 with
    | nil => exact .nil
    | cons h _ ih =>
      refine .cons ⟨h.1, h.2, fun hd => ?_⟩ ih
      have := (C20_frames_partial _ hd _ h.1).1
      rwa [TextChain.saidBy_ops] at this
  · rw [← s4, List.map_flatten]
  · intro cs hcs
    obtain ⟨l, hl, rfl⟩ := List.mem_map.1 hcs
    exact ⟨fun e => (s5 l hl).1 (List.map_eq_nil_iff.1 e), (s5 l hl).2⟩

theorem split_mono {n : Nat} {cutoff : Uuid} {log : List Byte} {r : Status × List (List Byte)}
    (h : Reserialize.splitFrames n cutoff log = .ok (some r)) (j : Nat) :
    Reserialize.splitFrames (n + j) cutoff log = .ok (some r) := by
  unfold Reserialize.splitFrames at h ⊢
  obtain ⟨x, h1, h⟩ := Cursor.bind_ok h
  cases x with
  | none => simp at h
  | some x =>
    obtain ⟨chains, st⟩ := x
    rw [Chains.splitLog_mono h1 j, Op.obind]
    simp only at h ⊢
    split
    · rename_i e
      rw [if_pos e] at h
      exact Reserialize.frames_mono h j
    · rename_i e
      rw [if_neg e] at h
      exact h

/-- The frames do not depend on the number of turns given. -/
theorem split_unique {cutoff : Uuid} {log : List Byte} {r r' : Status × List (List Byte)} (h : SplitInto log cutoff r)
    (h' : SplitInto log cutoff r') : r = r' := by
  obtain ⟨n, h⟩ := h
  obtain ⟨n', h'⟩ := h'
  have a := split_mono h n'
  have b := split_mono h' n
  rw [Nat.add_comm n' n, a] at b
  injection b with b
  injection b

/-! ### violations -/

/-- The log is one chain, and the frame of it reads as something else. -/
def rewritten (log : List Byte) : Bool :=
  match readOps 20 log with
  | .ok (some (x :: l, .endOfFrame)) =>
    match Reserialize.splitFrames 20 noCutoff log with
    | .ok (some (_, [t])) =>
      match readOps 20 t with
      | .ok (some (l', st)) => decide ((l', st) ≠ (x :: l, .endOfFrame)) && decide (upTo noCutoff (x :: l) = x :: l)
      | _ => false
    | _ => false
  | _ => false

theorem rewrites {log : List Byte} (h : rewritten log = true) : ¬ C95_claim := by
  intro hc
  unfold rewritten at h
  split at h
  · rename_i x l h1
    split at h
    · rename_i st t h2
      split at h
      · rename_i l' st' h3
        simp only [Bool.and_eq_true, decide_eq_true_eq] at h
        obtain ⟨texts, css, k1, k2, k3, -⟩ := hc log _ noCutoff (contents_of 20 h1) (by decide +kernel)
        have e := split_unique ⟨20, h2⟩ k1
        injection e with _ e
        subst e
        cases k2 with
        | cons a b =>
          cases b
          rw [h.2] at k3
          simp only [List.flatten_cons, List.flatten_nil, List.append_nil] at k3
          subst k3
          obtain ⟨e1, e2⟩ := Chains.contents_unique (contents_of 20 h3) a
          exact h.1 (by rw [e1, e2])
      · cases h
    · cases h
  · cases h

/-- C95 is violated: a run of characters that begins with one that is written with a backslash: the frame has other
characters. -/
theorem C95_violated : ¬ C95_claim :=
  rewrites (log := lit "@1+A :rga, '\\n', 'b', 'c';\n") (by decide +kernel)

/-- C95 is violated: a float that is written as one. -/
theorem C95_float_violated : ¬ C95_claim :=
  rewrites (log := lit "@1+A :lww, 'x' ^1e5;\n") (by decide +kernel)

/-! ### concrete logs -/

-- The hypotheses of `C95_partial`, for a log of three chains.
example : Copyable i85 ∧ i85.1.length < 10 ^ 9 - 1 ∧ ¬ LongWord i85.1 ∧ i85.2.length = 4 ∧
    (∀ p ∈ i85.2, ∀ o ∈ i85.2, folds p.2.id p.2.vals o.2 = true → copyHeadOk p.2.vals = true) ∧
    (∀ p ∈ i85.2, p.2.id ≠ Uuid.NIL.inc) ∧
    (∀ d, Cursor.Passed i85.1 d → d.id = some Uuid.FATAL → d.span = 0) := by
  have h : TextLog lwwName i85 Uuid.FATAL := isTextLog_sound (by decide +kernel)
  exact ⟨h.copy, h.size, h.short, by decide +kernel, by decide +kernel, by decide +kernel, h.span⟩

-- The frames of it, without a cutoff and up to the second op.
example : Reserialize.splitFrames 20 Uuid.FATAL i85.1 = .ok (some (Status.OK, [
    lit "@0000000005+0000000001 :lww,\n@0000000007+0000000001 abc 1;\n",
    lit "@000000000B+0000000001 :0000000005+0000000001 abc 'it\\'s';\n",
    lit "@0000000009+0000000002 :0000000007+0000000001 x 1.5;\n"])) := by decide +kernel
example : Reserialize.splitFrames 20 (tid 7 1) i85.1 = .ok (some (Status.OK, [
    lit "@0000000005+0000000001 :lww,\n@0000000007+0000000001 abc 1;\n"])) := by decide +kernel

-- The log of `rdt/test/lww.cc:82`.
example : Reserialize.splitFrames 20 noCutoff
    (lit " @1lD5lN+A :lww, 'A' 'a', 'B' 'b', @1lD5z+B :1lD5lN0001+A 'C' 'c'; ") = .ok (some (Status.OK, [
      lit "@1lD5lN+A :lww,\n 'A' 'a',\n 'B' 'b';\n", lit "@1lD5z+B :1lD5lN0001+A 'C' 'c';\n"])) := by decide +kernel

-- A cursor that is before its first op has no id to be read. An error in an input: the frames before it are there.
example : Reserialize.reserialize 20 [Cursor.init (lit "@1+A :lww;")] = .ub := by decide +kernel
example : ((Cursor.init (lit "@1+A :lww;")).next.bind fun a => (Cursor.init (lit "@2+A :lww, 'x")).next.bind fun b =>
    Reserialize.reserialize 20 [a.1, b.1]) = .ok (some (Status.BAD_STATE, [lit "@1+A :lww;\n"])) := by decide +kernel

/-! ## C96 — the chains of a log are merged to its state -/

/-- The frames that a log of an LWW object is split into are merged to a frame that reads as the ops of the log, in the
order of ids. -/
def C96_claim : Prop := ∀ (mx : MaxReducer) (log : List Byte) (ops : List OpView), Contents log ops .endOfFrame →
  LogOf lwwName (ops.map shape) → ∃ texts text out, SplitInto log Uuid.FATAL (Status.OK, texts) ∧
    Merges mx texts (Status.OK, text) ∧ Contents text out .endOfFrame ∧
    (out.Pairwise fun a b => Uuid.lt a.id b.id = true) ∧ out.Perm ops

theorem same2_zip {R : List Byte → List OpView → Prop} {ts : List (List Byte)} {css : List (List OpView)}
    (h : Same2 R ts css) : ∃ ins : List (List Byte × List (Nat × OpView)), ins.map Prod.fst = ts ∧
      (ins.map fun i => i.2.map Prod.snd) = css ∧
      ∀ i ∈ ins, ∃ cs ∈ css, i.2 = saidBy (cs.map Step.op) ∧ R i.1 cs := by
  induction h with
  | nil => exact ⟨[], rfl, rfl, by simp⟩
  | @cons t cs _ _ h _ ih =>
    obtain ⟨ins, i1, i2, i3⟩ := ih
    refine ⟨(t, saidBy (cs.map Step.op)) :: ins, by simp [i1], by simp [i2, TextChain.saidBy_ops], ?_⟩
    intro i hi
    rcases List.mem_cons.1 hi with rfl | hi
    · exact ⟨cs, by simp, rfl, h⟩
    · obtain ⟨cs', a, b⟩ := i3 i hi
      exact ⟨cs', by simp [a], b⟩

/-- C96: merging the frames of the chains of a log is making its state (C85): both read as the ops up to the cutoff in
the order of ids. Missing from the claim: what is missing from C85 and C95. -/
theorem C96_partial (mx : MaxReducer) (type x : Uuid) (i : List Byte × List (Nat × OpView))
    (hf : uuid2form type = Form.LWW ∨ uuid2form type = Form.MX) (h : TextLog type i x) (hn : i.2.length < 2 ^ 31)
    (hr : ∀ p ∈ i.2, ∀ o ∈ i.2, folds p.2.id p.2.vals o.2 = true → copyHeadOk p.2.vals = true)
    (hx : ∀ p ∈ i.2, p.2.id ≠ Uuid.NIL.inc) (out : List OpView)
    (ho : out.Pairwise fun a b => Uuid.lt a.id b.id = true) (hp : out.Perm (past i x))
    (hc : CleanFrom copyHeadOk (mergedSteps out)) :
    ∃ texts state, SplitInto i.1 x (Status.OK, texts) ∧ StateOf mx i.1 x (Status.OK, state) ∧
      (state.length < 2 ^ 30 → Contents state out .endOfFrame) ∧
      ((∀ t ∈ texts, t.length < 2 ^ 30) → ∃ text, Merges mx texts (Status.OK, text) ∧
        (text.length < 2 ^ 30 → Contents text out .endOfFrame)) := by
  have hup : ∀ l : List OpView, ∀ o ∈ upTo x l, o ∈ l := by
    intro l
    induction l with
    | nil => intro o ho; cases ho
    | cons a l ih =>
      intro o ho
      rw [upTo] at ho
      split at ho
      · rw [List.mem_singleton.1 ho]; simp
      · rcases List.mem_cons.1 ho with rfl | ho
        · simp
        · exact List.mem_cons_of_mem _ (ih o ho)
  have hlen : out.length < 2 ^ 31 := by
    have := Chains.upTo_le x (i.2.map Prod.snd)
    rw [hp.length_eq]
    unfold past
    rw [List.length_map] at this
    omega
  obtain ⟨state, s1, -, -, s2⟩ := C85_by_id_partial mx type x i hf h out ho hp hc hlen
  obtain ⟨texts, css, t1, t2, t3, t4, t5⟩ := C95_partial i h.copy h.size h.short (by omega) hr hx x h.cutoff h.span
  refine ⟨texts, state, t1, s1, s2, fun hsz => ?_⟩
  obtain ⟨ins, rfl, rfl, i3⟩ := same2_zip t2
  have hl := h.log
  rw [shapes_eq] at hl
  have hf' : uuid2form type = Form.LWW ∨ uuid2form type = Form.MX ∨ uuid2form type = Form.RGA :=
    hf.elim .inl fun h => .inr (.inl h)
  obtain ⟨g1, g2, -⟩ := split_log hf' hl h.cutoff
  have hsh : (ins.map Prod.snd).map (List.map fun o => shape o.2) = Recall.split x ((i.2.map Prod.snd).map shape) := by
    unfold Recall.split
    rw [if_neg h.cutoff, ← chains_unique x _ _ t4 t5 t3, List.map_map, List.map_map]
    refine List.map_congr_left fun j _ => ?_
    show List.map (fun o => shape o.2) j.2 = List.map shape (List.map Prod.snd j.2)
    rw [List.map_map]; rfl
  have hmem : ∀ j ∈ ins, ∀ y ∈ j.2, y.2 ∈ past i x := by
    intro j hj y hy
    unfold past
    rw [← t3]
    exact List.mem_flatten.2 ⟨_, List.mem_map.2 ⟨j, hj, rfl⟩, List.mem_map.2 ⟨y, hy, rfl⟩⟩
  have hcopy : ∀ j ∈ ins, Copyable j := by
    intro j hj
    obtain ⟨cs, c1, c2, c3, c4, -⟩ := i3 j hj
    refine ⟨by rw [c2]; exact c3, hsz _ (List.mem_map.2 ⟨j, hj, rfl⟩), c4, fun y hy => ?_⟩
    obtain ⟨z, z1, z2⟩ := List.mem_map.1 (hup _ _ (hmem j hj y hy))
    rw [← z2]
    exact h.copy.vals z z1
  have hne : ((ins.map Prod.snd).filter fun l => !l.isEmpty) = ins.map Prod.snd := by
    refine List.filter_eq_self.2 fun l hl => ?_
    obtain ⟨j, hj, rfl⟩ := List.mem_map.1 hl
    have := (t4 _ (List.mem_map.2 ⟨j, hj, rfl⟩)).1
    cases e : j.2 with
    | nil => rw [e] at this; exact absurd rfl this
    | cons a l => rfl
  have hnd := (past_unique h).1
  obtain ⟨text, ⟨n, cs, e1, e2⟩, -, -, r3⟩ := C84_union_partial mx (uuid2form type) (hf.elim .inl fun h => .inr (.inl h)) ins
    hcopy (by
      intro j hj
      have := (g2 _ (by rw [← hsh]; exact List.mem_map.2 ⟨j.2, List.mem_map.2 ⟨j, hj, rfl⟩, rfl⟩)).sorted
      unfold IdSorted at this
      rw [List.pairwise_map] at this
      exact this) (by
      intro j hj y hy j' hj' y' hy' e
      exact TextMerge.nodup_inj hnd (hmem j hj y hy) (hmem j' hj' y' hy') e) out ⟨ho, by
      intro o
      rw [hp.mem_iff]
      unfold past
      rw [← t3]
      constructor
      · intro hm
        obtain ⟨l, hl, hm⟩ := List.mem_flatten.1 hm
        obtain ⟨j, hj, rfl⟩ := List.mem_map.1 hl
        obtain ⟨y, hy, e⟩ := List.mem_map.1 hm
        exact ⟨j, hj, y, hy, e⟩
      · rintro ⟨j, hj, y, hy, rfl⟩
        exact List.mem_flatten.2 ⟨_, List.mem_map.2 ⟨j, hj, rfl⟩, List.mem_map.2 ⟨y, hy, rfl⟩⟩⟩ hc hlen
  refine ⟨text, ⟨n, ?_⟩, r3⟩
  obtain ⟨cs', k1, k2⟩ := TextMerge.firsts_ok hcopy
  rw [e1] at k1
  injection k1 with k1
  subst k1
  unfold TextMerge.mergeFrames
  rw [e1, Op.obind, TextMerge.getForm_ok (fun _ => .uuid Uuid.NIL) k2, getForm_shape, hne, hsh, g1]
  exact e2

/-- C96 is violated, as C85 is: the log of `C85_violated`. -/
theorem C96_violated : ¬ C96_claim := by
  intro hc
  have k : (match readOps 20 bad85, Reserialize.splitFrames 20 Uuid.FATAL bad85 with
    | .ok (some (ops, .endOfFrame)), .ok (some (_, ts)) =>
      isLog lwwName (ops.map shape) && (match TextMerge.mergeFrames noMax 20 ts with
        | .ok (some (_, t)) =>
          (match readOps 20 t with
            | .ok (some (l, _)) => ops.any fun o => !l.contains o
            | _ => false)
        | _ => false)
    | _, _ => false) = true := by decide +kernel
  split at k
  · rename_i ops st ts h1 h2
    simp only [Bool.and_eq_true] at k
    obtain ⟨k1, k2⟩ := k
    split at k2
    · rename_i st' t h3
      split at k2
      · rename_i l st'' h4
        obtain ⟨texts, text, out, g0, g1, g2, -, g3⟩ := hc noMax bad85 ops (contents_of 20 h1) (isLog_sound k1)
        have e := split_unique g0 ⟨20, h2⟩
        injection e with _ e
        subst e
        have e := merges_unique g1 ⟨20, h3⟩
        injection e with _ e
        subst e
        obtain ⟨rfl, -⟩ := Chains.contents_unique g2 (contents_of 20 h4)
        obtain ⟨o, o1, o2⟩ := List.any_eq_true.1 k2
        simp only [Bool.not_eq_true', List.contains_eq_mem, decide_eq_false_iff_not] at o2
        exact o2 (g3.mem_iff.2 o1)
      · cases k2
    · cases k2
  · cases k

-- The hypotheses of `C96_partial`.
example : TextLog lwwName i85 Uuid.FATAL ∧ (out85.Pairwise fun a b => Uuid.lt a.id b.id = true) ∧
    out85.Perm (past i85 Uuid.FATAL) ∧ CleanFrom copyHeadOk (mergedSteps out85) ∧ i85.2.length = 4 ∧
    (∀ p ∈ i85.2, ∀ o ∈ i85.2, folds p.2.id p.2.vals o.2 = true → copyHeadOk p.2.vals = true) ∧
    (∀ p ∈ i85.2, p.2.id ≠ Uuid.NIL.inc) := by
  refine ⟨isTextLog_sound (by decide +kernel), by decide +kernel, ?_, clean_lit (by decide +kernel), by decide +kernel,
    by decide +kernel, by decide +kernel⟩
  have : out85.isPerm (past i85 Uuid.FATAL) = true := by decide +kernel
  exact List.isPerm_iff.1 this

-- The chains of it, merged.
example : ((Reserialize.splitFrames 20 Uuid.FATAL i85.1).bind fun r =>
    match r with
    | some (_, ts) => TextMerge.mergeFrames noMax 20 ts
    | none => .ok none) = TextMerge.logToState noMax 20 i85.1 Uuid.FATAL := by decide +kernel

end Ron.Props
