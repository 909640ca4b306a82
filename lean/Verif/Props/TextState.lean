import Verif.Lemmas.TextState
import Verif.Props.TextMerge
import Verif.Props.Recall
import Verif.Props.Chains
/-!
C85: the state of an object from its log, as text.
-/
namespace Ron.Props
open Ron.Spec

/-- Making a state of a log, up to the cutoff, ends with the status and the frame. -/
def StateOf (mx : MaxReducer) (log : List Byte) (cutoff : Uuid) (r : Status × List Byte) : Prop :=
  ∃ n, TextMerge.logToState mx n log cutoff = .ok (some r)

/-- The same for the state as of a version. -/
def VersionOf (mx : MaxReducer) (log : List Byte) (version : Uuid) (r : Status × List Byte) : Prop :=
  ∃ n, TextMerge.logVersion mx n log version = .ok (some r)

/-- C85: the state made of the log of an LWW object reads as the ops of the log, in the order of ids. -/
def C85_claim : Prop := ∀ (mx : MaxReducer) (log : List Byte) (ops : List OpView), Contents log ops .endOfFrame →
  LogOf lwwName (ops.map shape) →
  ∃ text out, StateOf mx log Uuid.FATAL (Status.OK, text) ∧ Contents text out .endOfFrame ∧
    (out.Pairwise fun a b => Uuid.lt a.id b.id = true) ∧ out.Perm ops

/-- C85: the state up to a cutoff has no ops after it. -/
def C85_cutoff_claim : Prop := ∀ (mx : MaxReducer) (log text : List Byte) (ops out : List OpView) (x : Uuid),
  x ≠ Uuid.NIL → Contents log ops .endOfFrame → StateOf mx log x (Status.OK, text) → Contents text out .endOfFrame →
  ∀ o ∈ out, o ∈ upTo x ops

/-- C85: there is no state of a log with an error. -/
def C85_error_claim : Prop := ∀ (mx : MaxReducer) (log text : List Byte),
  StateOf mx log Uuid.FATAL (Status.OK, text) → ∃ ops, Contents log ops .endOfFrame

/-- There is one result. -/
theorem state_unique {mx : MaxReducer} {log : List Byte} {x : Uuid} {r r' : Status × List Byte} (h : StateOf mx log x r)
    (h' : StateOf mx log x r') : r = r' := by
  obtain ⟨n, h⟩ := h
  obtain ⟨m, h'⟩ := h'
  have a := TextMerge.logToState_mono h m
  have b := TextMerge.logToState_mono h' n
  rw [Nat.add_comm, a] at b
  injection b with b
  injection b

theorem version_unique {mx : MaxReducer} {log : List Byte} {x : Uuid} {r r' : Status × List Byte}
    (h : VersionOf mx log x r) (h' : VersionOf mx log x r') : r = r' := by
  obtain ⟨n, h⟩ := h
  obtain ⟨m, h'⟩ := h'
  have a := TextMerge.logVersion_mono h m
  have b := TextMerge.logVersion_mono h' n
  rw [Nat.add_comm, a] at b
  injection b with b
  injection b

/-! ### C85 is violated -/

def bad85 : List Byte := lit "@1+A :lww;\n@1000000001+A :1+A 'x' 1;\n@1000000002+A :1+A 'y' 2;\n"

/-- C85 is violated: as in C84, an op of the next id after the one before it that refers to another op is written without
its id; the state has another op. -/
theorem C85_violated : ¬ C85_claim := by
  intro hc
  have k : (match readOps 20 bad85, TextMerge.logToState noMax 20 bad85 Uuid.FATAL with
    | .ok (some (ops, .endOfFrame)), .ok (some (_, t)) =>
      isLog lwwName (ops.map shape) && (match readOps 20 t with
        | .ok (some (l, _)) => ops.any fun o => !l.contains o
        | _ => false)
    | _, _ => false) = true := by decide +kernel
  split at k
  · rename_i ops st t h1 h2
    simp only [Bool.and_eq_true] at k
    obtain ⟨k1, k2⟩ := k
    obtain ⟨text, out, g1, g2, -, g3⟩ := hc noMax bad85 ops (contents_of 20 h1) (isLog_sound k1)
    have e := state_unique g1 ⟨20, h2⟩
    injection e with e1 e2
    subst e2
    split at k2
    · rename_i l' st' h4
      obtain ⟨rfl, -⟩ := Chains.contents_unique g2 (contents_of 20 h4)
      obtain ⟨o, ho, hn⟩ := List.any_eq_true.1 k2
      have := g3.mem_iff.2 ho
      simp [this] at hn
    · cases k2
  · cases k

/-- C85 is violated: the state up to a cutoff inside of a span has the rest of the span. -/
theorem C85_cutoff_violated : ¬ C85_cutoff_claim := by
  intro hc
  have k : (match readOps 20 span48, TextMerge.logToState noMax 20 span48 mid48 with
    | .ok (some (ops, .endOfFrame)), .ok (some (st, t)) =>
      decide (st = Status.OK) && (match readOps 20 t with
        | .ok (some (l, .endOfFrame)) => l.any fun o => !(upTo mid48 ops).contains o
        | _ => false)
    | _, _ => false) = true := by decide +kernel
  split at k
  · rename_i ops st t h1 h2
    simp only [Bool.and_eq_true, decide_eq_true_eq] at k
    obtain ⟨rfl, k2⟩ := k
    split at k2
    · rename_i l h4
      obtain ⟨o, ho, hn⟩ := List.any_eq_true.1 k2
      have := hc noMax span48 t ops l mid48 (by decide +kernel) (contents_of 20 h1) ⟨20, h2⟩ (contents_of 20 h4) o ho
      simp [this] at hn
    · cases k2
  · cases k

/-- C85 is violated: of a log with an error in its first op there is an empty state. -/
theorem C85_error_violated : ¬ C85_error_claim := by
  intro hc
  obtain ⟨ops, h⟩ := hc noMax (lit "@1+A #lww;") [] ⟨20, by decide +kernel⟩
  have : Contents (lit "@1+A #lww;") [] .badState := contents_of 20 (by decide +kernel)
  have := (Chains.contents_unique h this).2
  cases this

/-! ### the chains of a log -/

/-- There is one way to cut the ops up to the cutoff into the longest chains. -/
theorem chains_unique (x : Uuid) : ∀ (ops : List OpView) (css : List (List OpView)),
    (∀ cs ∈ css, cs ≠ [] ∧ Consecutive cs) → Maximal css → css.flatten = upTo x ops →
    css.map (List.map shape) = Recall.chainsFrom x (ops.map shape) := by
  have one : ∀ (v : OpView) (css : List (List OpView)), (∀ cs ∈ css, cs ≠ [] ∧ Consecutive cs) → css.flatten = [v] →
      css = [[v]] := by
    intro v css hc e
    match css, hc, e with
    | [], _, e => simp at e
    | [] :: _, hc, _ => exact absurd rfl (hc [] (by simp)).1
    | (a :: c) :: cs, hc, e =>
      simp only [List.flatten_cons, List.cons_append, List.cons.injEq, List.append_eq_nil_iff] at e
      obtain ⟨rfl, rfl, e⟩ := e
      match cs, hc, e with
      | [], _, _ => rfl
      | [] :: _, hc, _ => exact absurd rfl (hc [] (by simp)).1
      | (_ :: _) :: _, _, e => simp at e
  intro ops
  induction ops with
  | nil =>
    intro css hc _ e
    match css, hc, e with
    | [], _, _ => rfl
    | [] :: _, hc, _ => exact absurd rfl (hc [] (by simp)).1
    | (a :: c) :: cs, _, e => simp [upTo] at e
  | cons v vs ih =>
    intro css hc hm e
    rw [upTo] at e
    rw [List.map_cons, Recall.chainsFrom]
    by_cases hv : v.id = x
    · rw [if_pos hv] at e
      rw [if_pos (show (shape v).id = x from hv), one v css hc e]
      rfl
    · rw [if_neg hv] at e
      rw [if_neg (show ¬ (shape v).id = x from hv)]
      match css, hc, hm, e with
      | [], _, _, e => simp at e
      | [] :: _, hc, _, _ => exact absurd rfl (hc [] (by simp)).1
      | [a] :: cs, hc, hm, f =>
        simp only [List.flatten_cons, List.cons_append, List.nil_append, List.cons.injEq] at f
        obtain ⟨rfl, f⟩ := f
        have := ih cs (fun c h => hc c (by simp [h])) (by
          intro pre us u w ws post e'
          exact hm ([a] :: pre) us u w ws post (by rw [e']; rfl)) f
        rw [← this]
        match cs, hc, hm with
        | [], _, _ => rfl
        | [] :: _, hc, _ => exact absurd rfl (hc [] (by simp)).1
        | (w :: ws) :: post, _, hm =>
          have hne := hm [] [] a w ws post rfl
          simp only [List.map_cons, Recall.link]
          rw [if_neg (show ¬ (shape w).ref = (shape a).id from hne)]
          rfl
      | (a :: w :: c) :: cs, hc, hm, f =>
        simp only [List.flatten_cons, List.cons_append, List.cons.injEq] at f
        obtain ⟨rfl, f⟩ := f
        have h1 := (hc (a :: w :: c) (by simp)).2
        have := ih ((w :: c) :: cs) (by
          intro d hd
          rcases List.mem_cons.1 hd with rfl | hd
          · exact ⟨by simp, fun pre p q post e' => h1 (a :: pre) p q post (by rw [e']; rfl)⟩
          · exact hc d (by simp [hd])) (by
          intro pre us u y ws post e'
          match pre, e' with
          | [], e' =>
            simp only [List.nil_append, List.cons.injEq] at e'
            exact hm [] (a :: us) u y ws post (by rw [List.cons_append, ← e'.1, e'.2]; rfl)
          | p :: pre, e' =>
            simp only [List.cons_append, List.cons.injEq] at e'
            exact hm ((a :: w :: c) :: pre) us u y ws post (by rw [e'.2]; rfl)) (by simpa using f)
        rw [← this]
        simp only [List.map_cons, Recall.link]
        rw [if_pos (show (shape w).ref = (shape a).id from h1 [] a w c rfl)]

theorem getForm_shape (enc : View → AVal) : ∀ (xss : List (List (Nat × OpView))) (form : Uuid),
    Rdt.getForm form (xss.map (List.map (TextMerge.opOf enc))) =
      Rdt.getForm form (xss.map (List.map fun x => shape x.2)) := by
  intro xss
  induction xss with
  | nil => intro form; rfl
  | cons l xss ih =>
    intro form
    cases l with
    | nil => exact ih form
    | cons x l =>
      simp only [List.map_cons, Rdt.getForm]
      rw [ih, ih]
      rfl

/-- A log as text, of an object of the type, and a cutoff that is not inside of a span. -/
structure TextLog (type : Uuid) (i : List Byte × List (Nat × OpView)) (x : Uuid) : Prop where
  copy : Copyable i
  size : i.1.length < 10 ^ 9 - 1
  short : ¬ LongWord i.1
  log : LogOf type (i.2.map fun o => shape o.2)
  cutoff : x ≠ Uuid.NIL
  span : ∀ d, Cursor.Passed i.1 d → d.id = some x → d.span = 0

/-- The ops of the log up to the cutoff. -/
def past (i : List Byte × List (Nat × OpView)) (x : Uuid) : List OpView := upTo x (i.2.map Prod.snd)

theorem shapes_eq (i : List Byte × List (Nat × OpView)) :
    (i.2.map fun o => shape o.2) = (i.2.map Prod.snd).map shape := by rw [List.map_map]; rfl

theorem upTo_until {x : Uuid} : ∀ {ops : List OpView}, ops ≠ [] → ((ops.map shape).map AOp.id).Nodup →
    ∃ y, Until y (ops.map shape) ((upTo x ops).map shape) := by
  intro ops hne hn
  have key : ∀ (ops : List OpView), ops ≠ [] → ∃ pre o post, ops = pre ++ o :: post ∧ upTo x ops = pre ++ [o] := by
    intro ops
    induction ops with
    | nil => intro h; exact absurd rfl h
    | cons v vs ih =>
      intro _
      by_cases hv : v.id = x
      · exact ⟨[], v, vs, rfl, by rw [upTo, if_pos hv]; rfl⟩
      · by_cases hvs : vs = []
        · subst hvs
          exact ⟨[], v, [], rfl, by rw [upTo, if_neg hv]; rfl⟩
        · obtain ⟨pre, o, post, e1, e2⟩ := ih hvs
          exact ⟨v :: pre, o, post, by rw [e1]; rfl, by rw [upTo, if_neg hv, e2]; rfl⟩
  obtain ⟨pre, o, post, e1, e2⟩ := key ops hne
  refine ⟨o.id, pre.map shape, shape o, post.map shape, by rw [e1]; simp, by rw [e2]; simp, rfl, ?_⟩
  intro p hp e
  rw [e1, List.map_append, List.map_append, List.map_cons, List.map_cons] at hn
  have := (List.nodup_append.1 hn).2.2 p.id (List.mem_map.2 ⟨p, hp, rfl⟩) (shape o).id (by simp)
  exact this e

/-- The chains of a log, as cursors, are the chains of its ops. -/
theorem textLog_chains {type x : Uuid} {i : List Byte × List (Nat × OpView)} (h : TextLog type i x) :
    ∃ c cs xss, (∀ n, i.2.length < n → Chains.splitLog n x i.1 = .ok (some (c :: cs, .ok))) ∧ c.ref = some type ∧
      Same2 (TextMerge.Starts TextMerge.At) (c :: cs) xss ∧
      xss.map (List.map fun o => shape o.2) = Recall.split x ((i.2.map Prod.snd).map shape) ∧
      xss.flatten.map Prod.snd = past i x := by
  obtain ⟨o, os, e1, e2, -⟩ := h.log.first
  have hne : i.2 ≠ [] := by intro e; rw [e] at e1; simp at e1
  obtain ⟨chains, xss, s1, s2, s3, s4, s5, s6⟩ := TextMerge.split_ok h.copy h.size h.short h.cutoff h.span
    (fuel := i.2.length + 1) (Nat.lt_succ_self _)
  have hsh : xss.map (List.map fun o => shape o.2) = Recall.split x ((i.2.map Prod.snd).map shape) := by
    unfold Recall.split
    rw [if_neg h.cutoff, ← chains_unique x _ (xss.map (List.map Prod.snd)) (by
        intro cs hcs
        obtain ⟨l, hl, rfl⟩ := List.mem_map.1 hcs
        exact ⟨fun e => (s5 l hl).1 (List.map_eq_nil_iff.1 e), (s5 l hl).2⟩) s6 (by rw [← List.map_flatten, s4]),
      List.map_map]
    refine List.map_congr_left fun l _ => ?_
    show _ = List.map shape (List.map Prod.snd l)
    rw [List.map_map]; rfl
  have hfirst : ∃ y l yss, xss = (y :: l) :: yss ∧ shape y.2 = o := by
    match xss, s5, hsh with
    | [], _, hsh =>
      rw [← shapes_eq, e1] at hsh
      obtain ⟨c, cs, e⟩ := chainsFrom_cons x o os
      unfold Recall.split at hsh
      rw [if_neg h.cutoff, e] at hsh
      simp at hsh
    | [] :: _, s5, _ => exact absurd rfl (s5 [] (by simp)).1
    | (y :: l) :: yss, _, hsh =>
      rw [← shapes_eq, e1] at hsh
      obtain ⟨c, cs, e⟩ := chainsFrom_cons x o os
      unfold Recall.split at hsh
      rw [if_neg h.cutoff, e] at hsh
      simp only [List.map_cons, List.cons.injEq] at hsh
      exact ⟨y, l, yss, rfl, hsh.1.1⟩
  obtain ⟨y, l, yss, rfl, hy⟩ := hfirst
  cases s2 with
  | @cons c _ cs _ hc hcs =>
    refine ⟨c, cs, (y :: l) :: yss, ?_, ?_, .cons hc hcs, hsh, s4⟩
    · intro n hn
      obtain ⟨j, rfl⟩ := Nat.exists_eq_add_of_le hn
      exact Chains.splitLog_mono s1 j
    · obtain ⟨x', xs, e, m, st, -, hd, -⟩ := hc
      injection e with e
      subst e
      rw [hd.ref, ← e2, ← hy]
      rfl

/-- The form is found in the chains. -/
theorem textLog_form {type x : Uuid} {i : List Byte × List (Nat × OpView)} (h : TextLog type i x)
    (hf : uuid2form type = Form.LWW ∨ uuid2form type = Form.MX ∨ uuid2form type = Form.RGA) {cs : List Cursor}
    {xss : List (List (Nat × OpView))} (hcs : Same2 (TextMerge.Starts TextMerge.At) cs xss)
    (hx : xss.map (List.map fun o => shape o.2) = Recall.split x ((i.2.map Prod.snd).map shape)) :
    TextMerge.getForm Uuid.NIL cs = .ok (some (uuid2form type)) ∧
      ∀ l ∈ xss, Linked (l.map fun o => shape o.2) := by
  have hl := h.log
  rw [shapes_eq] at hl
  obtain ⟨g1, g2, -⟩ := split_log hf hl h.cutoff
  constructor
  · rw [TextMerge.getForm_ok (fun _ => .uuid Uuid.NIL) hcs, getForm_shape, hx, g1]
  · intro l hm
    exact g2 _ (by rw [← hx]; exact List.mem_map.2 ⟨l, hm, rfl⟩)

/-- A state of the chains is the state of the log, and the version. -/
theorem state_ok {mx : MaxReducer} {type x : Uuid} {log : List Byte} {L n : Nat} {c : Cursor} {cs : List Cursor}
    {b b' : Builder} {text : List Byte}
    (h1 : ∀ n, L < n → Chains.splitLog n x log = .ok (some (c :: cs, .ok))) (h2 : c.ref = some type)
    (h3 : TextMerge.getForm Uuid.NIL (c :: cs) = .ok (some (uuid2form type)))
    (h4 : TextMerge.master mx n (uuid2form type) Builder.init (c :: cs) = .ok (some (b, Status.OK)))
    (h5 : b.release = .ok (text, b')) :
    StateOf mx log x (Status.OK, text) ∧ VersionOf mx log x (Status.OK, text) := by
  have h4' := TextMerge.master_mono h4 (L + 1)
  have h1' := h1 (n + (L + 1)) (by omega)
  refine ⟨⟨n + (L + 1), ?_⟩, ⟨n + (L + 1), ?_⟩⟩
  · have : TextMerge.logIntoState mx (n + (L + 1)) Builder.init log x = .ok (some (b, Status.OK)) := by
      unfold TextMerge.logIntoState
      rw [h1', Op.obind]
      simp only [if_true, h2]
      exact h4'
    unfold TextMerge.logToState
    rw [this, Op.obind]
    simp only
    rw [if_pos (by decide), h5, Op.obind]
  · unfold TextMerge.logVersion
    rw [h1', Op.obind]
    simp only [if_true]
    rw [h3, Op.obind]
    simp only
    unfold TextMerge.mergeCursors
    rw [h4', Op.obind]
    simp only
    rw [if_pos (by decide), h5, Op.obind]

theorem past_unique {type x : Uuid} {i : List Byte × List (Nat × OpView)} (h : TextLog type i x) :
    ((past i x).map OpView.id).Nodup ∧ ∃ y, Until y (i.2.map fun o => shape o.2) ((past i x).map shape) := by
  obtain ⟨o, os, e1, -, -⟩ := h.log.first
  have hne : i.2.map Prod.snd ≠ [] := by
    intro e
    rw [shapes_eq, e] at e1
    simp at e1
  have hu := h.log.unique
  rw [shapes_eq] at hu ⊢
  obtain ⟨y, hy⟩ := upTo_until (x := x) hne hu
  refine ⟨?_, y, hy⟩
  obtain ⟨pre, o, post, e1, e2, -, -⟩ := hy
  rw [e1, List.map_append, List.map_cons] at hu
  have e3 : (past i x).map OpView.id = ((past i x).map shape).map AOp.id := by rw [List.map_map]; rfl
  rw [e3, show (past i x).map shape = pre ++ [o] from e2, List.map_append, List.map_cons, List.map_nil]
  refine hu.sublist ?_
  exact List.Sublist.append (List.Sublist.refl _) (List.Sublist.cons_cons _ (List.nil_sublist _))

/-- C85, for the types with states in the order of ids: the state that is made of a log, and the state as of a version,
is a frame of the grammar that reads as the ops of the log up to the cutoff, in the order of ids. If the cutoff is not
in the log, they are all the ops. Missing from the claim: cutoffs inside of spans, logs that can not be copied (see C59
and C84), with words of more than ten characters, of `10^9 - 1` bytes, and more. -/
theorem C85_by_id_partial (mx : MaxReducer) (type x : Uuid) (i : List Byte × List (Nat × OpView))
    (hf : uuid2form type = Form.LWW ∨ uuid2form type = Form.MX) (h : TextLog type i x) (out : List OpView)
    (ho : out.Pairwise fun a b => Uuid.lt a.id b.id = true) (hp : out.Perm (past i x))
    (hc : CleanFrom copyHeadOk (mergedSteps out)) (hl : out.length < 2 ^ 31) :
    ∃ text, StateOf mx i.1 x (Status.OK, text) ∧ VersionOf mx i.1 x (Status.OK, text) ∧
      FrameText Uuid.NIL text (saidBy (mergedSteps out)) ∧ (text.length < 2 ^ 30 → Contents text out .endOfFrame) := by
  obtain ⟨c, cs, xss, t1, t2, t3, t4, t5⟩ := textLog_chains h
  obtain ⟨f1, f2⟩ := textLog_form h (hf.elim .inl fun h => .inr (.inl h)) t3 t4
  obtain ⟨n, b, text, b', a1, a2, a3, -⟩ := TextMerge.union_lists TextMerge.at_sim TextMerge.idOrd_keyed (xss := xss) (by
      intro l hm
      have := (f2 l hm).sorted
      unfold IdSorted at this
      rw [List.pairwise_map] at this
      exact this) (by
      intro u hu v hv e
      have hn := (past_unique h).1
      rw [← t5] at hn
      exact TextMerge.nodup_inj hn (List.mem_map.2 ⟨u, hu, rfl⟩) (List.mem_map.2 ⟨v, hv, rfl⟩) e) ho (by
      intro o
      rw [hp.mem_iff, ← t5, List.mem_map]) t3 hc hl
  have hm : TextMerge.master mx n (uuid2form type) Builder.init (c :: cs) = .ok (some (b, Status.OK)) := by
    rcases hf with h | h <;> rw [h]
    · show TextMerge.okay _ = _
      rw [a1]; rfl
    · show TextMerge.okay _ = _
      rw [a1]; rfl
  obtain ⟨r1, r2⟩ := state_ok t1 t2 f1 hm a2
  refine ⟨text, r1, r2, a3, fun ht => ?_⟩
  have := (C20_frames_partial text ht _ a3).1
  rwa [TextMerge.saidBy_merged] at this

/-- C85, for causal trees of up to three chains: it reads as the weave of the ops up to the cutoff. -/
theorem C85_rga_partial (mx : MaxReducer) (type x : Uuid) (i : List Byte × List (Nat × OpView))
    (hf : uuid2form type = Form.RGA) (h : TextLog type i x)
    (h3 : (Recall.split x (i.2.map fun o => shape o.2)).length ≤ 3) (w : List OpView) (root : OpView)
    (hr : (i.2.map Prod.snd).head? = some root) (hp : w.Perm (past i x))
    (ho : InOrder ((past i x).map shape) root.id (w.map shape)) (hc : CleanFrom copyHeadOk (mergedSteps w))
    (hl : w.length < 2 ^ 31) :
    ∃ text, StateOf mx i.1 x (Status.OK, text) ∧ VersionOf mx i.1 x (Status.OK, text) ∧
      FrameText Uuid.NIL text (saidBy (mergedSteps w)) ∧ (text.length < 2 ^ 30 → Contents text w .endOfFrame) := by
  obtain ⟨c, cs, xss, t1, t2, t3, t4, t5⟩ := textLog_chains h
  obtain ⟨f1, f2⟩ := textLog_form h (.inr (.inr hf)) t3 t4
  obtain ⟨-, y, hy⟩ := past_unique h
  obtain ⟨o, o1, o2, o3⟩ := log_tree h.log hy
  have hps : (xss.flatten.map fun o => shape o.2) = (past i x).map shape := by
    rw [← t5, List.map_map]; rfl
  have hroot : o.id = root.id := by
    obtain ⟨q, qs, e1, e2, -⟩ := h.log.first
    have hq : q = shape root := by
      have : (i.2.map fun o => shape o.2).head? = some (shape root) := by
        rw [shapes_eq, List.head?_map, hr]; rfl
      rw [e1] at this
      exact Option.some.inj this
    by_cases hoq : o = q
    · rw [hoq, hq]; rfl
    · have hm : o ∈ (i.2.map fun o => shape o.2) := until_sub hy o o1
      rw [e1] at hm
      rcases List.mem_cons.1 hm with hm | hm
      · exact absurd hm hoq
      · obtain ⟨a, b, hs⟩ := List.append_of_mem hm
        have := (h.log.refs (q :: a) o b (by rw [e1, hs]; rfl) (by simp)).1
        rw [o2, type_name (.inr (.inr hf))] at this
        exact absurd rfl this
  have hlen : xss.length ≤ 3 := by
    rw [shapes_eq, ← t4, List.length_map] at h3
    exact h3
  rw [hroot] at o3
  obtain ⟨n, b, text, b', a1, a2, a3, -⟩ := TextMerge.weave_lists (root := root.id) (xss := xss) (by rw [hps]; exact o3) (by
      intro l hm
      have hlk := f2 l hm
      refine ⟨fun e => ?_, ?_⟩
      · rw [e] at hlk; cases hlk
      · rw [hps]
        refine hlk.piece o3 fun q hq => ?_
        rw [← hps]
        obtain ⟨z, hz, rfl⟩ := List.mem_map.1 hq
        exact List.mem_map.2 ⟨z, List.mem_flatten.2 ⟨l, hm, hz⟩, rfl⟩) hlen (by
      intro e
      rw [e] at t3
      cases t3) (by rw [t5]; exact hp) (by rw [hps]; exact ho) t3 hc hl
  have hm : TextMerge.master mx n (uuid2form type) Builder.init (c :: cs) = .ok (some (b, Status.OK)) := by
    rw [hf]; exact a1
  obtain ⟨r1, r2⟩ := state_ok t1 t2 f1 hm a2
  refine ⟨text, r1, r2, a3, fun ht => ?_⟩
  have := (C20_frames_partial text ht _ a3).1
  rwa [TextMerge.saidBy_merged] at this

/-- C85: with more chains there is no state. -/
theorem C85_rga_many (mx : MaxReducer) (type x : Uuid) (i : List Byte × List (Nat × OpView))
    (hf : uuid2form type = Form.RGA) (h : TextLog type i x)
    (h3 : 3 < (Recall.split x (i.2.map fun o => shape o.2)).length) :
    StateOf mx i.1 x (Status.NOT_IMPLEMENTED, []) ∧ VersionOf mx i.1 x (Status.NOT_IMPLEMENTED, []) := by
  obtain ⟨c, cs, xss, t1, t2, t3, t4, t5⟩ := textLog_chains h
  obtain ⟨f1, f2⟩ := textLog_form h (.inr (.inr hf)) t3 t4
  have hlen : (c :: cs).length > 3 := by
    rw [shapes_eq, ← t4, List.length_map] at h3
    rw [TextMerge.same2_length t3]
    exact h3
  have e2 : ∀ n, TextMerge.master mx n (uuid2form type) Builder.init (c :: cs) =
      .ok (some (Builder.init, Status.NOT_IMPLEMENTED)) := by
    intro n
    rw [hf]
    show TextMerge.rga n Builder.init (c :: cs) = _
    unfold TextMerge.rga
    rw [if_pos hlen]
  have h1' := t1 (i.2.length + 1) (by omega)
  refine ⟨⟨i.2.length + 1, ?_⟩, ⟨i.2.length + 1, ?_⟩⟩
  · have : TextMerge.logIntoState mx (i.2.length + 1) Builder.init i.1 x =
        .ok (some (Builder.init, Status.NOT_IMPLEMENTED)) := by
      unfold TextMerge.logIntoState
      rw [h1', Op.obind]
      simp only [if_true, t2]
      exact e2 _
    unfold TextMerge.logToState
    rw [this, Op.obind]
    simp only
    rw [if_neg (by decide)]
  · unfold TextMerge.logVersion
    rw [h1', Op.obind]
    simp only [if_true]
    rw [f1, Op.obind]
    simp only
    unfold TextMerge.mergeCursors
    rw [e2, Op.obind]
    simp only
    rw [if_neg (by decide)]

/-- C85: an error in a log, after its first op, is reported, if there is no cutoff before it. Missing from the claim: an
error in the first op (`C85_error_violated`), logs of words of more than ten characters or of `10^9 - 1` bytes. -/
theorem C85_error_partial (mx : MaxReducer) (log : List Byte) (hn : log.length < 10 ^ 9 - 1) (hl : ¬ LongWord log)
    (ops : List OpView) (st : Cursor.NextStatus) (h : Contents log ops st) (hne : ops ≠ []) (he : st ≠ .endOfFrame)
    (x : Uuid) (hx : x ≠ Uuid.NIL) (hu : ∀ o ∈ ops, o.id ≠ x) :
    StateOf mx log x (Status.BAD_STATE, []) ∧ VersionOf mx log x (Status.BAD_STATE, []) := by
  obtain ⟨chains, css, st', h1, -, -, -, -, -, h7⟩ := C48_split_partial log hn hl ops st h x hx (ops.length + 1)
    (Nat.lt_succ_self _)
  have hup : ∀ l : List OpView, (∀ o ∈ l, o.id ≠ x) → upTo x l = l := by
    intro l
    induction l with
    | nil => intro _; rfl
    | cons a l ih =>
      intro h
      rw [upTo, if_neg (h a (by simp)), ih fun o ho => h o (by simp [ho])]
  have hst : st = .badState := by
    obtain ⟨f, l, k1, -⟩ := h
    have := Chains.trail_ne (Chains.trail_of_iterate _ _ _ _ k1)
    cases st with
    | ok => exact absurd rfl this
    | endOfFrame => exact absurd rfl he
    | badState => rfl
  have h7' : st' = .badState := by
    rw [h7, hup ops hu, hst]
    simp [hne]
  rw [h7'] at h1
  refine ⟨⟨ops.length + 1, ?_⟩, ⟨ops.length + 1, ?_⟩⟩
  · have : TextMerge.logIntoState mx (ops.length + 1) Builder.init log x = .ok (some (Builder.init, Status.BAD_STATE)) := by
      unfold TextMerge.logIntoState
      rw [h1, Op.obind]
      rfl
    unfold TextMerge.logToState
    rw [this, Op.obind]
    simp only
    rw [if_neg (by decide)]
  · unfold TextMerge.logVersion
    rw [h1, Op.obind]
    rfl

/-! ### concrete logs -/

/-- A log of an object in two chains, as the builder makes it. -/
def log85 : List Call := [head84, .op (tid 7 1) (tid 5 1) [.uuid (denote 0 (lit "abc") 0 []), .int 1],
  .op (tid 11 1) (tid 5 1) [.uuid (denote 0 (lit "abc") 0 []), .str (lit "it's")],
  .op (tid 9 2) (tid 7 1) [.uuid (denote 0 (lit "x") 0 []), .float 7#64], .endChunk 0]
def i85 : List Byte × List (Nat × OpView) := frame84 log85
def out85 : List OpView := (steps fmt15 [log85[0], log85[1], log85[3], log85[2]]).filterMap fun s =>
  match s with | .op o => some o | _ => none

/-- A log as text, for concrete logs. -/
def isTextLog (type : Uuid) (calls : List Call) (x : Uuid) : Bool :=
  copyable84 calls && decide ((frame84 calls).1.length < 10 ^ 9 - 1) && decide (Cursor.longRun 0 (outside 0 (frame84 calls).1) = false) &&
  isLog type ((frame84 calls).2.map fun o => shape o.2) && decide (x ≠ Uuid.NIL) &&
  (match Cursor.iterate 100 (Cursor.init (frame84 calls).1) with
    | .ok (some (l, _)) => l.all fun d => decide (d.span = 0)
    | _ => false)

theorem isTextLog_sound {type x : Uuid} {calls : List Call} (h : isTextLog type calls x = true) :
    TextLog type (frame84 calls) x := by
  unfold isTextLog at h
  simp only [Bool.and_eq_true, decide_eq_true_eq] at h
  obtain ⟨⟨⟨⟨⟨h1, h2⟩, h3⟩, h4⟩, h5⟩, h6⟩ := h
  refine ⟨copyable_lit h1, h2, Cursor.notLong_of h3, isLog_sound h4, h5, ?_⟩
  split at h6
  · rename_i l st e
    intro d hd _
    obtain ⟨pre, post, e', -⟩ := passed_mem (Chains.trail_of_iterate _ _ _ _ e) hd
    exact of_decide_eq_true (List.all_eq_true.1 h6 d (by rw [e']; simp))
  · cases h6

-- The hypotheses of `C85_by_id_partial` hold for it, without a cutoff.
example : TextLog lwwName i85 Uuid.FATAL ∧ (out85.Pairwise fun a b => Uuid.lt a.id b.id = true) ∧
    out85.Perm (past i85 Uuid.FATAL) ∧ CleanFrom copyHeadOk (mergedSteps out85) ∧ out85.length = 4 ∧
    (Recall.split Uuid.FATAL (i85.2.map fun o => shape o.2)).length = 3 := by
  refine ⟨isTextLog_sound (by decide +kernel), by decide +kernel, ?_, clean_lit (by decide +kernel), by decide +kernel,
    by decide +kernel⟩
  have : out85.isPerm (past i85 Uuid.FATAL) = true := by decide +kernel
  exact List.isPerm_iff.1 this

-- With a cutoff.
example : TextLog lwwName i85 (tid 11 1) ∧ (past i85 (tid 11 1)).map OpView.id = [tid 5 1, tid 7 1, tid 11 1] ∧
    CleanFrom copyHeadOk (mergedSteps (past i85 (tid 11 1))) :=
  ⟨isTextLog_sound (by decide +kernel), by decide +kernel, clean_lit (by decide +kernel)⟩

-- The states of it.
example : TextMerge.logToState noMax 20 i85.1 Uuid.FATAL = .ok (some (Status.OK,
    lit ("@0000000005+0000000001 :lww,\n@0000000007+0000000001 abc 1,\n" ++
      "@0000000009+0000000002 x 1.5,\n" ++
      "@000000000B+0000000001 :0000000005+0000000001 abc 'it\\'s';\n"))) := by decide +kernel
example : TextMerge.logVersion noMax 20 i85.1 (tid 11 1) = .ok (some (Status.OK,
    lit ("@0000000005+0000000001 :lww,\n@0000000007+0000000001 abc 1,\n" ++
      "@000000000B+0000000001 :0000000005+0000000001 abc 'it\\'s';\n"))) := by decide +kernel

/-- A log of a causal tree: the root, and two children in two chains. -/
def rlog85 : List Call := [.op (tid 5 1) (denote 0 (lit "rga") 0 []) [], .op (tid 7 1) (tid 5 1) [.str (lit "b")],
  .op (tid 9 1) (tid 5 1) [.str (lit "a")], .endChunk 0]

-- The hypotheses of `C85_rga_partial` hold for it.
example : TextLog (denote 0 (lit "rga") 0 []) (frame84 rlog85) Uuid.FATAL ∧
    uuid2form (denote 0 (lit "rga") 0 []) = Form.RGA ∧
    (Recall.split Uuid.FATAL ((frame84 rlog85).2.map fun o => shape o.2)).length = 2 ∧
    ((frame84 rlog85).2.map Prod.snd).head? = weave84.head? ∧ weave84.Perm (past (frame84 rlog85) Uuid.FATAL) ∧
    InOrder ((past (frame84 rlog85) Uuid.FATAL).map shape) (tid 5 1) (weave84.map shape) ∧
    CleanFrom copyHeadOk (mergedSteps weave84) := by
  have e : (past (frame84 rlog85) Uuid.FATAL).map shape = [x5, x7, x9] := by decide +kernel
  have e' : weave84.map shape = [x5, x9, x7] := by decide +kernel
  have h5 : Path [x5, x7, x9] (tid 5 1) x5 [tid 5 1] := .root _ (by simp) rfl
  have h7 : Path [x5, x7, x9] (tid 5 1) x7 [tid 5 1, tid 7 1] := .child x5 _ _ h5 (by simp) rfl (by decide)
  have h9 : Path [x5, x7, x9] (tid 5 1) x9 [tid 5 1, tid 9 1] := .child x5 _ _ h5 (by simp) rfl (by decide)
  have hu := ids_inj (ops := [x5, x7, x9]) (by decide)
  refine ⟨isTextLog_sound (by decide +kernel), by decide +kernel, by decide +kernel, by decide +kernel, ?_, ?_,
    clean_lit (by decide +kernel)⟩
  · have : weave84.isPerm (past (frame84 rlog85) Uuid.FATAL) = true := by decide +kernel
    exact List.isPerm_iff.1 this
  · rw [e, e']
    unfold InOrder
    have o57 : ∀ p q, Path [x5, x7, x9] (tid 5 1) x5 p → Path [x5, x7, x9] (tid 5 1) x7 q → before p q = true := by
      intro p q hp hq
      rw [hp.fun hu h5, hq.fun hu h7]; decide
    have o59 : ∀ p q, Path [x5, x7, x9] (tid 5 1) x5 p → Path [x5, x7, x9] (tid 5 1) x9 q → before p q = true := by
      intro p q hp hq
      rw [hp.fun hu h5, hq.fun hu h9]; decide
    have o97 : ∀ p q, Path [x5, x7, x9] (tid 5 1) x9 p → Path [x5, x7, x9] (tid 5 1) x7 q → before p q = true := by
      intro p q hp hq
      rw [hp.fun hu h9, hq.fun hu h7]; decide
    simpa using ⟨⟨o59, o57⟩, o97⟩

example : TextMerge.logToState noMax 20 (frame84 rlog85).1 Uuid.FATAL = .ok (some (Status.OK,
    lit ("@0000000005+0000000001 :rga,\n@0000000009+0000000001 'a',\n" ++
      "@0000000007+0000000001 :0000000005+0000000001 'b';\n"))) := by decide +kernel

/-- A tree of four chains. -/
def wide85 : List Call := [.op (tid 5 1) (denote 0 (lit "rga") 0 []) [], .op (tid 7 1) (tid 5 1) [.str (lit "b")],
  .op (tid 9 1) (tid 5 1) [.str (lit "a")], .op (tid 11 1) (tid 5 1) [.str (lit "c")],
  .op (tid 13 1) (tid 5 1) [.str (lit "d")], .endChunk 0]

-- Those of `C85_rga_many`.
example : TextLog (denote 0 (lit "rga") 0 []) (frame84 wide85) Uuid.FATAL ∧
    3 < (Recall.split Uuid.FATAL ((frame84 wide85).2.map fun o => shape o.2)).length :=
  ⟨isTextLog_sound (by decide +kernel), by decide +kernel⟩

-- Those of `C85_error_partial`.
example : ¬ LongWord bad84c ∧ Contents bad84c (opsOf bad84c) .badState ∧ (opsOf bad84c).length = 2 ∧
    ∀ o ∈ opsOf bad84c, o.id ≠ Uuid.FATAL :=
  ⟨Cursor.notLong_of (by decide +kernel), contents_of 20 (by decide +kernel), by decide +kernel, by decide +kernel⟩

end Ron.Props
