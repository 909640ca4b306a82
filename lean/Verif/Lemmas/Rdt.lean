import Verif.Model.Rdt
import Verif.Lemmas.Merge
import Verif.Props.Uuid
import Verif.Spec.Merge
/-!
The reducers built on `MergeCursor`.
-/
namespace Ron
namespace Rdt
open Spec Heap

theorem uuid_lin : Lin Uuid.lt := by
  refine ⟨fun a => (Props.C04_uuid_order a a a).1, fun a b c => (Props.C04_uuid_order a b c).2.1,
    fun a b => ?_⟩
  rcases (Props.C04_uuid_order a b a).2.2 with h | h | h
  · exact .inl h.1
  · exact .inr (.inl h.2.1)
  · exact .inr (.inr h.2.2)

theorem Lin.order {α K : Type} {klt : K → K → Bool} (l : Lin klt) (key : α → K) :
    Order fun a b => klt (key a) (key b) := by
  refine ⟨fun a b h => l.asymm h, fun a b c h1 h2 => ?_⟩
  cases e : klt (key c) (key a) with
  | false => rfl
  | true =>
    rcases l.tri (key a) (key b) with h | h | h
    · rw [l.trans _ _ _ e h] at h2; cases h2
    · rw [h] at e; rw [e] at h2; cases h2
    · rw [h] at h1; cases h1

theorem same_iff (a b : AOp) : sameId a b = true ↔ a.id = b.id := by simp [sameId]

theorem idKeyed : Keyed idLess sameId AOp.id Uuid.lt :=
  ⟨Lin.order uuid_lin AOp.id, uuid_lin, fun _ _ h => h, same_iff⟩

theorem metaOrder : Order metaLess := by
  have l := uuid_lin
  refine ⟨fun a b h => ?_, fun a b c h1 h2 => ?_⟩
  · unfold metaLess at *
    by_cases e : a.id = b.id
    · rw [if_pos e] at h; rw [if_pos e.symm]; exact l.asymm h
    · rw [if_neg e] at h; rw [if_neg (Ne.symm e)]; exact l.asymm h
  · unfold metaLess Uuid.gt at *
    by_cases e1 : b.id = a.id
    · rw [if_pos e1] at h1
      by_cases e2 : c.id = b.id
      · rw [if_pos e2] at h2
        rw [if_pos (e2.trans e1)]
        cases e : Uuid.lt a.ref c.ref with
        | false => rfl
        | true =>
          rcases l.tri c.ref b.ref with h | h | h
          · rw [l.trans _ _ _ e h] at h1; cases h1
          · rw [h] at e; rw [e] at h1; cases h1
          · rw [h] at h2; cases h2
      · rw [if_neg e2] at h2
        rw [if_neg (by rw [← e1]; exact e2), ← e1]; exact h2
    · rw [if_neg e1] at h1
      by_cases e2 : c.id = b.id
      · rw [if_neg (by rw [e2]; exact e1), e2]; exact h1
      · rw [if_neg e2] at h2
        have hab := l.of_not h1 e1
        have hbc := l.of_not h2 e2
        have hac := l.trans _ _ _ hab hbc
        have hne : c.id ≠ a.id := fun h => by rw [h, l.irrefl] at hac; cases hac
        rw [if_neg hne]; exact l.asymm hac

theorem metaKeyed : Keyed metaLess sameId AOp.id Uuid.lt := by
  refine ⟨metaOrder, uuid_lin, fun a b h => ?_, same_iff⟩
  unfold metaLess
  rw [if_neg (fun e => by rw [e, uuid_lin.irrefl] at h; cases h)]; exact h

/-! ### The builder -/

theorem feed_done : ∀ (ops : List AOp) (o : AOp) (b : ABuilder),
    (feed (b.append o) ops).endChunk = ⟨b.writeTerm.done ++ punctuate (o :: ops), none⟩ := by
  intro ops
  induction ops with
  | nil => intro o b; rfl
  | cons x xs ih =>
    intro o b
    show (feed ((b.append o).append x) xs).endChunk = _
    rw [ih]
    have : (b.append o).writeTerm.done = b.writeTerm.done ++ [{ o with term := .reduced }] := rfl
    rw [this]
    simp [punctuate]

theorem feed_release (ops : List AOp) : (feed ABuilder.empty ops).endChunk.release = punctuate ops := by
  cases ops with
  | nil => rfl
  | cons o os =>
    show ((feed (ABuilder.empty.append o) os).endChunk).release = _
    rw [feed_done]; rfl

theorem punctuate_map {β : Type} (f : AOp → β) (hf : ∀ o t, f { o with term := t } = f o) :
    ∀ ops, (punctuate ops).map f = ops.map f
  | [] => rfl
  | [o] => by simp [punctuate, hf]
  | o :: p :: os => by
    have := punctuate_map f hf (p :: os)
    simp only [punctuate, List.map_cons] at *
    rw [this, hf]

theorem punctuate_body (ops : List AOp) : (punctuate ops).map AOp.body = ops.map AOp.body :=
  punctuate_map _ (fun _ _ => rfl) ops

theorem punctuate_id (ops : List AOp) : (punctuate ops).map AOp.id = ops.map AOp.id :=
  punctuate_map _ (fun _ _ => rfl) ops

theorem punctuate_congr : ∀ a b : List AOp, a.map AOp.body = b.map AOp.body →
    punctuate a = punctuate b
  | [], [], _ => rfl
  | [], _ :: _, h => by cases h
  | _ :: _, [], h => by cases h
  | [x], [y], h => by
    obtain ⟨xi, xr, xv, xt⟩ := x; obtain ⟨yi, yr, yv, yt⟩ := y
    simp [AOp.body, punctuate] at *; exact h
  | [x], y :: z :: l, h => by simp at h
  | x :: z :: l, [y], h => by simp at h
  | x :: x' :: xs, y :: y' :: ys, h => by
    have h := List.cons.inj (show x.body :: (x' :: xs).map AOp.body = y.body :: (y' :: ys).map AOp.body from h)
    have := punctuate_congr (x' :: xs) (y' :: ys) h.2
    simp only [punctuate]
    rw [this]
    obtain ⟨xi, xr, xv, xt⟩ := x; obtain ⟨yi, yr, yv, yt⟩ := y
    simp [AOp.body] at *; exact h.1

theorem sorted_ids (ops : List AOp) : IdSorted ops ↔
    (ops.map AOp.id).Pairwise fun a b => Uuid.lt a b = true := by
  unfold IdSorted; rw [List.pairwise_map]

theorem punctuate_sorted (ops : List AOp) : IdSorted (punctuate ops) ↔ IdSorted ops := by
  rw [sorted_ids, sorted_ids, punctuate_id]

theorem mem_body {a b : List AOp} (h : a.map AOp.body = b.map AOp.body) {o : AOp} (ho : o ∈ a) :
    ∃ o' ∈ b, o'.body = o.body := by
  have : o.body ∈ b.map AOp.body := by rw [← h]; exact List.mem_map.2 ⟨o, ho, rfl⟩
  obtain ⟨o', h1, h2⟩ := List.mem_map.1 this
  exact ⟨o', h1, h2⟩

theorem body_id {a b : AOp} (h : a.body = b.body) : a.id = b.id := congrArg (·.1) h

theorem mergeInto_release (less : AOp → AOp → Bool) (inputs : List (List AOp)) :
    (mergeInto less ABuilder.empty inputs).map ABuilder.release =
      (Heap.merge less sameId inputs).map punctuate := by
  unfold mergeInto
  rw [Option.map_map]
  congr 1
  funext ops
  cases ops with
  | nil => rfl
  | cons o os => exact feed_release (o :: os)

/-- Two strictly sorted lists with the same bodies are the same by body. -/
theorem sorted_unique : ∀ a b : List AOp, IdSorted a → IdSorted b → SameEvents a b →
    a.map AOp.body = b.map AOp.body := by
  intro a
  induction a with
  | nil =>
    intro b _ _ h
    cases b with
    | nil => rfl
    | cons o os => obtain ⟨_, h1, _⟩ := (h o.body).2 ⟨o, by simp, rfl⟩; simp at h1
  | cons x xs ih =>
    intro b ha hb h
    cases b with
    | nil => obtain ⟨_, h1, _⟩ := (h x.body).1 ⟨x, by simp, rfl⟩; simp at h1
    | cons y ys =>
      have hax := List.pairwise_cons.1 ha
      have hby := List.pairwise_cons.1 hb
      have l := uuid_lin
      -- the heads agree
      have hxy : x.body = y.body := by
        obtain ⟨o, ho, e⟩ := (h x.body).1 ⟨x, by simp, rfl⟩
        simp only [List.mem_cons] at ho
        rcases ho with rfl | ho
        · exact e.symm
        · obtain ⟨p, hp, e2⟩ := (h y.body).2 ⟨y, by simp, rfl⟩
          simp only [List.mem_cons] at hp
          rcases hp with rfl | hp
          · exact e2
          · have h1 := hby.1 o ho
            have h2 := hax.1 p hp
            rw [body_id e] at h1
            rw [body_id e2] at h2
            have := l.trans _ _ _ h1 h2
            rw [l.irrefl] at this; cases this
      rw [List.map_cons, List.map_cons, hxy]
      congr 1
      apply ih ys hax.2 hby.2
      intro z
      constructor
      · rintro ⟨o, ho, rfl⟩
        obtain ⟨p, hp, e⟩ := (h o.body).1 ⟨o, by simp [ho], rfl⟩
        simp only [List.mem_cons] at hp
        rcases hp with rfl | hp
        · have h1 := hax.1 o ho
          rw [body_id (hxy.trans e), l.irrefl] at h1; cases h1
        · exact ⟨p, hp, e⟩
      · rintro ⟨o, ho, rfl⟩
        obtain ⟨p, hp, e⟩ := (h o.body).2 ⟨o, by simp [ho], rfl⟩
        simp only [List.mem_cons] at hp
        rcases hp with rfl | hp
        · have h1 := hby.1 o ho
          rw [body_id (hxy.symm.trans e), l.irrefl] at h1; cases h1
        · exact ⟨p, hp, e⟩

end Rdt
end Ron

namespace Ron
namespace Rdt
open Spec Heap

/-- The forms merged by id. -/
def ById (f : Form) : Prop := f = Form.LWW ∨ f = Form.MX ∨ f = Form.YARN

theorem mergeCursors_id (v : View) {f : Form} (hf : ById f) (inputs : List (List AOp)) :
    mergeCursors v f inputs =
      (Heap.merge idLess sameId inputs).map fun ops => (Status.OK, punctuate ops) := by
  have : master v f ABuilder.empty inputs =
      (mergeInto idLess ABuilder.empty inputs).map fun b => (b, Status.OK) := by
    rcases hf with rfl | rfl | rfl <;> rfl
  unfold mergeCursors
  rw [this, Option.map_map]
  have h := mergeInto_release idLess inputs
  cases e : mergeInto idLess ABuilder.empty inputs with
  | none =>
    rw [e] at h
    cases e2 : Heap.merge idLess sameId inputs with
    | none => rfl
    | some x => rw [e2] at h; cases h
  | some b =>
    rw [e] at h
    cases e2 : Heap.merge idLess sameId inputs with
    | none => rw [e2] at h; cases h
    | some x =>
      rw [e2] at h
      have h := Option.some.inj h
      show some (Status.OK, if Status.OK.ok then b.release else []) = some (Status.OK, punctuate x)
      rw [show Status.OK.ok = true by decide, if_pos rfl, h]

theorem mergeCursors_meta (v : View) (inputs : List (List AOp)) :
    mergeCursors v Form.META inputs =
      (Heap.merge metaLess sameId inputs).map fun ops => (Status.OK, punctuate ops) := by
  have : master v Form.META ABuilder.empty inputs =
      (mergeInto metaLess ABuilder.empty inputs).map fun b => (b, Status.OK) := rfl
  unfold mergeCursors
  rw [this, Option.map_map]
  have h := mergeInto_release metaLess inputs
  cases e : mergeInto metaLess ABuilder.empty inputs with
  | none =>
    rw [e] at h
    cases e2 : Heap.merge metaLess sameId inputs with
    | none => rfl
    | some x => rw [e2] at h; cases h
  | some b =>
    rw [e] at h
    cases e2 : Heap.merge metaLess sameId inputs with
    | none => rw [e2] at h; cases h
    | some x =>
      rw [e2] at h
      have h := Option.some.inj h
      show some (Status.OK, if Status.OK.ok then b.release else []) = some (Status.OK, punctuate x)
      rw [show Status.OK.ok = true by decide, if_pos rfl, h]

/-- A merged frame: sorted, and the same ids and only ops of the inputs. -/
theorem merged_punctuate {less : AOp → AOp → Bool} {inp out : List AOp}
    (m : Merged less AOp.id Uuid.lt inp out) : IdSorted (punctuate out) ∧
      (∀ u, (∃ o ∈ punctuate out, o.id = u) ↔ ∃ o ∈ inp, o.id = u) ∧
      ∀ o ∈ punctuate out, ∃ x ∈ inp, x.body = o.body ∧
        ∀ y ∈ inp, y.id = x.id → less y x = false := by
  refine ⟨(punctuate_sorted out).2 m.sorted, fun u => ⟨?_, ?_⟩, ?_⟩
  · rintro ⟨o, ho, rfl⟩
    obtain ⟨x, hx, e⟩ := mem_body (punctuate_body out) ho
    exact ⟨x, (m.sound x hx).1, body_id e⟩
  · rintro ⟨o, ho, rfl⟩
    obtain ⟨x, hx, e⟩ := m.full o ho
    obtain ⟨x', hx', e'⟩ := mem_body (punctuate_body out).symm hx
    exact ⟨x', hx', (body_id e').trans e⟩
  · intro o ho
    obtain ⟨x, hx, e⟩ := mem_body (punctuate_body out) ho
    exact ⟨x, (m.sound x hx).1, e, fun y hy h => (m.sound x hx).2 y hy h⟩

/-- Merging by id, as a function of the inputs' ops. -/
theorem merge_id (v : View) {f : Form} (hf : ById f) (inputs : List (List AOp))
    (hs : ∀ i ∈ inputs, IdSorted i) : ∃ out, mergeCursors v f inputs = some (Status.OK, out) ∧
      IdSorted out ∧ (∀ u, (∃ o ∈ out, o.id = u) ↔ ∃ o ∈ inputs.flatten, o.id = u) ∧
      (∀ o ∈ out, ∃ x ∈ inputs.flatten, x.body = o.body) ∧ punctuate out = out := by
  obtain ⟨out, e, m⟩ := merge_spec idKeyed inputs hs
  obtain ⟨a, b, c⟩ := merged_punctuate m
  refine ⟨punctuate out, by rw [mergeCursors_id v hf, e]; rfl, a, b, fun o ho => ?_, ?_⟩
  · obtain ⟨x, h1, h2, _⟩ := c o ho; exact ⟨x, h1, h2⟩
  · exact punctuate_congr _ _ (punctuate_body out)

theorem SameEvents.symm {a b : List AOp} (h : SameEvents a b) : SameEvents b a :=
  fun x => (h x).symm

theorem SameEvents.trans {a b c : List AOp} (h : SameEvents a b) (h' : SameEvents b c) :
    SameEvents a c := fun x => (h x).trans (h' x)

theorem SameEvents.append {a b c d : List AOp} (h : SameEvents a b) (h' : SameEvents c d) :
    SameEvents (a ++ c) (b ++ d) := by
  intro x
  simp only [List.mem_append, or_and_right, exists_or, h x, h' x]

theorem Consistent.of_same {a b : List AOp} (h : SameEvents a b) (hc : Consistent b) :
    Consistent a := by
  intro x hx y hy e
  obtain ⟨x', hx', ex⟩ := (h x.body).1 ⟨x, hx, rfl⟩
  obtain ⟨y', hy', ey⟩ := (h y.body).1 ⟨y, hy, rfl⟩
  rw [← ex, ← ey]
  exact hc x' hx' y' hy' (by rw [body_id ex, body_id ey, e])

/-- With consistent inputs a merge keeps exactly the events. -/
theorem merge_id_same (v : View) {f : Form} (hf : ById f) (inputs : List (List AOp))
    (hs : ∀ i ∈ inputs, IdSorted i) (hc : Consistent inputs.flatten) :
    ∃ out, mergeCursors v f inputs = some (Status.OK, out) ∧
      IdSorted out ∧ SameEvents out inputs.flatten ∧ punctuate out = out := by
  obtain ⟨out, e, h1, h2, h3, h4⟩ := merge_id v hf inputs hs
  refine ⟨out, e, h1, fun x => ⟨?_, ?_⟩, h4⟩
  · rintro ⟨o, ho, rfl⟩; exact h3 o ho
  · rintro ⟨o, ho, rfl⟩
    obtain ⟨p, hp, ep⟩ := (h2 o.id).2 ⟨o, ho, rfl⟩
    obtain ⟨q, hq, eq⟩ := h3 p hp
    refine ⟨p, hp, ?_⟩
    rw [← eq]
    exact hc q hq o ho ((body_id eq).trans ep)

/-- The merge of frames by id as a partial function: the frame, if the status is OK. -/
def mergeFn (v : View) (f : Form) (inputs : List (List AOp)) : Option (List AOp) :=
  match mergeCursors v f inputs with
  | some (s, out) => if s.ok then some out else none
  | none => none

mutual
theorem tree_eval (v : View) {f : Form} (hf : ById f) : ∀ t : MergeTree, t.Sorted →
    Consistent t.ops → ∃ out, t.eval (mergeFn v f) = some out ∧ IdSorted out ∧
      SameEvents out t.ops
  | .frame ops, hs, _ => ⟨ops, by simp only [MergeTree.eval], by simpa only [MergeTree.Sorted] using hs,
      by simp only [MergeTree.ops]; exact fun _ => .rfl⟩
  | .merge ts, hs, hc => by
    simp only [MergeTree.Sorted] at hs
    simp only [MergeTree.ops] at hc ⊢
    obtain ⟨outs, e, h1, h2⟩ := tree_evalAll v hf ts hs hc
    obtain ⟨out, e', g1, g2, _⟩ := merge_id_same v hf outs h1 (Consistent.of_same h2 hc)
    refine ⟨out, ?_, g1, SameEvents.trans g2 h2⟩
    simp only [MergeTree.eval, e, Option.bind_some, mergeFn, e']
    rfl
theorem tree_evalAll (v : View) {f : Form} (hf : ById f) : ∀ ts : List MergeTree,
    MergeTree.SortedAll ts → Consistent (MergeTree.opsAll ts) →
    ∃ outs, MergeTree.evalAll (mergeFn v f) ts = some outs ∧ (∀ i ∈ outs, IdSorted i) ∧
      SameEvents outs.flatten (MergeTree.opsAll ts)
  | [], _, _ => ⟨[], by simp only [MergeTree.evalAll], by simp, by
      simp only [MergeTree.opsAll, List.flatten_nil]; exact fun _ => .rfl⟩
  | t :: ts, hs, hc => by
    simp only [MergeTree.SortedAll] at hs
    simp only [MergeTree.opsAll] at hc ⊢
    obtain ⟨o, e1, a1, a2⟩ := tree_eval v hf t hs.1 (fun x hx y hy => hc x (by simp [hx]) y (by simp [hy]))
    obtain ⟨os, e2, b1, b2⟩ := tree_evalAll v hf ts hs.2
      (fun x hx y hy => hc x (by simp [hx]) y (by simp [hy]))
    refine ⟨o :: os, ?_, ?_, ?_⟩
    · simp only [MergeTree.evalAll, e1, e2, Option.bind_some, Option.map_some]
    · intro i hi
      simp only [List.mem_cons] at hi
      rcases hi with rfl | hi
      · exact a1
      · exact b1 i hi
    · rw [List.flatten_cons]; exact SameEvents.append a2 b2
end

/-! ### Logs -/

theorem appendAll_append (a b : List AOp) (x : ABuilder) :
    x.appendAll (a ++ b) = (x.appendAll a).appendAll b := by
  induction a generalizing x with
  | nil => rfl
  | cons o os ih => simp only [List.cons_append, ABuilder.appendAll]; exact ih _

theorem log_flatten (inputs : List (List AOp)) (b : ABuilder) :
    log b inputs = b.appendAll inputs.flatten := by
  induction inputs generalizing b with
  | nil => rfl
  | cons i is ih =>
    show log (b.appendAll i) is = _
    rw [ih, List.flatten_cons, appendAll_append]

/-- The last op ends the frame: `,` becomes `;`. -/
def closeLast : List AOp → List AOp
  | [] => []
  | [o] => [if o.term = .reduced then { o with term := .raw } else o]
  | o :: os => o :: closeLast os

theorem closeLast_body : ∀ l, (closeLast l).map AOp.body = l.map AOp.body
  | [] => rfl
  | [o] => by unfold closeLast; by_cases h : o.term = .reduced <;> simp [h, AOp.body]
  | o :: p :: os => by
    have := closeLast_body (p :: os)
    simp only [closeLast, List.map_cons] at *
    rw [this]

theorem appendAll_release : ∀ (ops : List AOp) (b : ABuilder), ops ≠ [] →
    (b.appendAll ops).release = b.writeTerm.done ++ closeLast ops
  | [], _, h => absurd rfl h
  | [o], b, _ => by
    show ((if o.term ≠ .reduced then (b.append o).endChunk o.term else b.append o)).release = _
    by_cases h : o.term = .reduced
    · rw [if_neg (by simp [h])]; simp [closeLast, h]; rfl
    · rw [if_pos h]; simp [closeLast, h]; rfl
  | o :: p :: os, b, _ => by
    show ((if o.term ≠ .reduced then (b.append o).endChunk o.term else b.append o).appendAll
      (p :: os)).release = _
    rw [appendAll_release (p :: os) _ (by simp)]
    by_cases h : o.term = .reduced
    · rw [if_neg (by simp [h])]
      have : (b.append o).writeTerm.done = b.writeTerm.done ++ [o] := by
        obtain ⟨i, r, vs, t⟩ := o
        simp only at h
        subst h; rfl
      rw [this]; simp [closeLast]
    · rw [if_pos h]
      have : ((b.append o).endChunk o.term).writeTerm.done = b.writeTerm.done ++ [o] := rfl
      rw [this]; simp [closeLast]

theorem appendAll_empty (ops : List AOp) : (ABuilder.empty.appendAll ops).release = closeLast ops := by
  cases ops with
  | nil => rfl
  | cons o os => rw [appendAll_release _ _ (by simp)]; rfl

end Rdt
end Ron
