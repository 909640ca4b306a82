import Verif.Lemmas.LineageSame
import Verif.Props.Lineage
import Verif.Props.Converge
/-!
C102: replicas with the same events do the same.

Chains may be cut differently and come in another order: the events count.
-/
namespace Ron.Props
open Ron Ron.Spec Ron.Commit

variable {H G : List Chain} {note : Uuid → List Nat} {s : MemStore}

/-- What the records of the state of an object are. -/
theorem state_bodies (L : Lineage H) (K : Holds H note s) {c : Chain} (hc : c ∈ H) :
    (Engine.operands s (Key.ofUuids c.object c.rdt)).flatten.map AOp.body = (eventsIn H c.object).map AOp.body := by
  rw [show Engine.operands s (Key.ofUuids c.object c.rdt) = _ from C101_state H note s L K c hc]
  unfold eventsIn eventsOf
  induction H.filter fun d => decide (d.object = c.object) with
  | nil => rfl
  | cons d ds ih => simp only [List.map_cons, List.flatten_cons, List.flatMap_cons, List.map_append, ih, Rdt.punctuate_body]

theorem state_record (L : Lineage H) (K : Holds H note s) {c : Chain} (hc : c ∈ H) {f : Frame}
    (hf : f ∈ Engine.operands s (Key.ofUuids c.object c.rdt)) : ∃ d ∈ H, f = punctuate d.ops ∧ f.map AOp.body = d.ops.map AOp.body := by
  rw [show Engine.operands s (Key.ofUuids c.object c.rdt) = _ from C101_state H note s L K c hc] at hf
  obtain ⟨d, hd, rfl⟩ := List.mem_map.1 hf
  exact ⟨d, (List.mem_filter.1 hd).1, rfl, Rdt.punctuate_body _⟩

theorem state_some (L : Lineage H) (K : Holds H note s) {c : Chain} (hc : c ∈ H) :
    punctuate c.ops ∈ Engine.operands s (Key.ofUuids c.object c.rdt) := by
  rw [show Engine.operands s (Key.ofUuids c.object c.rdt) = _ from C101_state H note s L K c hc]
  exact List.mem_map.2 ⟨c, List.mem_filter.2 ⟨hc, by simp⟩, rfl⟩

theorem sorted_of_bodies {a b : List AOp} (h : a.map AOp.body = b.map AOp.body) (hb : IdSorted b) : IdSorted a := by
  have e : a.map AOp.id = b.map AOp.id := by
    have := congrArg (List.map fun x : Body => x.1) h
    rwa [List.map_map, List.map_map] at this
  have : (b.map AOp.id).Pairwise fun x y => Uuid.lt x y = true := List.pairwise_map.2 hb
  rw [← e] at this
  exact List.pairwise_map.1 this

theorem chain_links {c : Chain} (h : ChainedTo c.head.id c.rest) {f : Frame} (e : f.map AOp.body = c.ops.map AOp.body) :
    ChainFrame f := by
  have key : ∀ (os : List AOp) (o : AOp), ChainedTo o.id os → ∀ pre (a b : Body) post,
      (o :: os).map AOp.body = pre ++ a :: b :: post → b.2.1 = a.1 := by
    intro os
    induction os with
    | nil =>
      intro o _ pre a b post e
      have := congrArg List.length e
      simp at this
      omega
    | cons q os ih =>
      intro o h pre a b post e
      cases pre with
      | nil =>
        simp only [List.map_cons, List.nil_append, List.cons.injEq] at e
        rw [← e.1, ← e.2.1]
        exact h.2.2.2.1
      | cons p pre =>
        rw [List.map_cons, List.cons_append, List.cons.injEq] at e
        exact ih q h.2.2.2.2 pre a b post e.2
  intro pre a b post hf
  refine key c.rest c.head h (pre.map AOp.body) a.body b.body (post.map AOp.body) ?_
  show c.ops.map AOp.body = _
  rw [← e, hf, List.map_append, List.map_cons, List.map_cons]

theorem same_of_bodies {a b : List AOp} (h : a.map AOp.body = b.map AOp.body) : SameEvents a b := by
  intro x
  have : x ∈ a.map AOp.body ↔ x ∈ b.map AOp.body := by rw [h]
  rw [List.mem_map, List.mem_map] at this
  exact this

/-! ## C102 — replicas with the same events do the same -/

/-- The state of a register, a set or a yarn reads as the events of the object, all of them, in the order of ids. -/
theorem C102_object {wh : Bool} (v : Rdt.View) (H : List Chain) (note : Uuid → List Nat) (s : MemStore) (L : Lineage H)
    (K : Carries wh H note s) (c : Chain) (hc : c ∈ H) (hf : IdForm (uuid2form c.rdt)) :
    ∃ out, Engine.read (Rdt.mergeCursors v) s (Key.ofUuids c.object c.rdt) = some (Status.OK, out) ∧ IdSorted out ∧
      SameEvents out (eventsIn H c.object) := by
  have hform : (Key.ofUuids c.object c.rdt).form = uuid2form c.rdt := form_mk _ _
  have hne : Key.ofUuids c.object c.rdt ≠ Key.END := key_ne_end (stateForm_ne (Or.inl hf)).2.2.2
  have hst := state_stands L K hc
  have hid : uuid2form c.rdt ∈ [Form.YARN, Form.LWW, Form.MX] := by
    rcases hf with h | h | h <;> rw [h] <;> decide
  have hse : SameEvents (stored (Key.ofUuids c.object c.rdt) s).flatten (eventsIn H c.object) := by
    intro b
    constructor
    · rintro ⟨o, ho, rfl⟩
      obtain ⟨f, hf, ho⟩ := List.mem_flatten.1 ho
      obtain ⟨d, hd, x, hx, e⟩ := (hst.part f hf).2 o ho
      exact ⟨x, List.mem_flatMap.2 ⟨d, hd, hx⟩, e⟩
    · rintro ⟨x, hx, rfl⟩
      obtain ⟨d, hd, hx⟩ := List.mem_flatMap.1 hx
      obtain ⟨f, hf, o, ho, e⟩ := hst.all hid d hd x hx
      exact ⟨o, List.mem_flatten.2 ⟨f, hf, ho⟩, e⟩
  have hsome : ∃ f, f ∈ Engine.operands s (Key.ofUuids c.object c.rdt) := by
    obtain ⟨f, hf, -⟩ := hst.all hid c (List.mem_filter.2 ⟨hc, by simp⟩) c.head List.mem_cons_self
    exact ⟨f, hf⟩
  replace hse : SameEvents (Engine.operands s (Key.ofUuids c.object c.rdt)).flatten (eventsIn H c.object) := hse
  rw [← Rdt.withOps_flatten] at hse
  have hcons : Consistent (withOps (Engine.operands s (Key.ofUuids c.object c.rdt))).flatten := by
    have key : Consistent (eventsIn H c.object) := fun a ha b hb e => by rw [ids_inj (L.in_nodup _) a ha b hb e]
    intro a ha b hb e
    obtain ⟨a', ha', ea⟩ := (hse a.body).1 ⟨a, ha, rfl⟩
    obtain ⟨b', hb', eb⟩ := (hse b.body).1 ⟨b, hb, rfl⟩
    rw [← ea, ← eb]
    refine key a' ha' b' hb' ?_
    rw [Rdt.body_id ea, Rdt.body_id eb, e]
  obtain ⟨out, e, h1, h2, -⟩ := Rdt.merge_id_same v hf (withOps (Engine.operands s (Key.ofUuids c.object c.rdt))) 
    (fun i hi => hst.order hid i (mem_withOps.1 hi).1) hcons
  refine ⟨out, ?_, h1, fun b => (h2 b).trans (hse b)⟩
  unfold Engine.read
  rw [if_neg hne]
  split
  · rename_i h0
    obtain ⟨f, hf⟩ := hsome
    rw [h0] at hf; cases hf
  · rw [hform, e]; rfl

/-- The events of an object are a tree: all descend from its first event. -/
theorem C102_tree (H : List Chain) (L : Lineage H) (obj : Uuid) : Tree (eventsIn H obj) obj := by
  refine ⟨L.in_nodup obj, ?_⟩
  have : ∀ (n : Nat) (o : AOp), o ∈ eventsIn H obj → o.id.rank < n → ∃ l, Spec.Path (eventsIn H obj) obj o l := by
    intro n
    induction n with
    | zero => intro o _ hn; exact absurd hn (Nat.not_lt_zero _)
    | succ n ih =>
      intro o ho hn
      obtain ⟨c, hc, e, hx⟩ := Lineage.mem_in.1 ho
      rcases L.cause c hc o hx with ⟨-, h2, -⟩ | ⟨-, h2, d, hd, ⟨p, hp, hpe⟩, h4, -⟩
      · exact ⟨_, .root o ho (h2.symm.trans e)⟩
      · have hpm : p ∈ eventsIn H obj := Lineage.mem_in.2 ⟨d, hd, h4.symm.trans e, hp⟩
        have hlt : Uuid.lt p.id o.id = true := by rw [hpe]; exact h2
        obtain ⟨l, hl⟩ := ih p hpm (Nat.lt_of_lt_of_le (Uuid.rank_lt hlt) (Nat.le_of_lt_succ hn))
        exact ⟨_, .child p o l hl ho hpe.symm hlt⟩
  exact fun o ho => this _ o ho (Nat.lt_succ_self _)

theorem tree_of_bodies {a b : List AOp} {root : Uuid} (h : a.map AOp.body = b.map AOp.body) (hb : Tree b root) : Tree a root := by
  have e : a.map AOp.id = b.map AOp.id := by
    have := congrArg (List.map fun x : Body => x.1) h
    rwa [List.map_map, List.map_map] at this
  refine ⟨by rw [e]; exact hb.unique, ?_⟩
  have key : ∀ o l, Spec.Path b root o l → ∀ x ∈ a, x.body = o.body → Spec.Path a root x l := by
    intro o l hp
    induction hp with
    | root o _ e =>
      intro x hx ex
      have := Rdt.body_id ex
      rw [← this]
      exact .root x hx (this.trans e)
    | child p o l hp _ href hlt ih =>
      intro x hx ex
      have hid := Rdt.body_id ex
      have hr : x.ref = o.ref := congrArg (fun b : Body => b.2.1) ex
      have hpb : p ∈ b := by cases hp <;> assumption
      obtain ⟨q, hq, eq⟩ := (same_of_bodies h p.body).2 ⟨p, hpb, rfl⟩
      have hqi := Rdt.body_id eq
      rw [← hid]
      exact .child q x l (ih q hq eq) hx (by rw [hr, href, hqi]) (by rw [hqi, hid]; exact hlt)
  intro o ho
  obtain ⟨o', ho', e'⟩ := (same_of_bodies h o.body).1 ⟨o, ho, rfl⟩
  obtain ⟨l, hl⟩ := hb.reached o' ho'
  exact ⟨l, key o' l hl o ho e'.symm⟩

/-- The state of an array that came in no more than three chains reads as the weave of its events. -/
theorem C102_weave_partial (v : Rdt.View) (H : List Chain) (note : Uuid → List Nat) (s : MemStore) (L : Lineage H)
    (K : Holds H note s) (c : Chain) (hc : c ∈ H) (hf : uuid2form c.rdt = Form.RGA)
    (hlen : (H.filter fun d => decide (d.object = c.object)).length ≤ 3) :
    ∃ out, Engine.read (Rdt.mergeCursors v) s (Key.ofUuids c.object c.rdt) = some (Status.OK, out) ∧
      ∀ ops, (ops.map AOp.id).Nodup → (∀ o, o ∈ ops ↔ ∃ a ∈ eventsIn H c.object, bare a = o) →
        Tree ops c.object ∧ IsWeave ops c.object (out.map bare) := by
  have hform : (Key.ofUuids c.object c.rdt).form = Form.RGA := by rw [← hf]; exact form_mk _ _
  have hne : Key.ofUuids c.object c.rdt ≠ Key.END := key_ne_end (stateForm_ne (Or.inr hf)).2.2.2
  have hb := state_bodies L K hc
  have hsome := state_some L K hc
  have hrec := fun f => state_record (f := f) L K hc
  rw [← Rdt.withOps_flatten] at hb
  have htree := tree_of_bodies hb (C102_tree H L c.object)
  have hse := same_of_bodies hb
  have hl : (withOps (Engine.operands s (Key.ofUuids c.object c.rdt))).length ≤ 3 := by
    refine Nat.le_trans (List.length_filter_le _ _) ?_
    rw [show Engine.operands s (Key.ofUuids c.object c.rdt) = _ from C101_state H note s L K c hc, List.length_map]
    exact hlen
  have hin : punctuate c.ops ∈ withOps (Engine.operands s (Key.ofUuids c.object c.rdt)) := by
    refine mem_withOps.2 ⟨hsome, fun e => ?_⟩
    have := Rdt.punctuate_body c.ops
    rw [e] at this
    cases this
  obtain ⟨out, w, e, hout, hw⟩ := C30_weave_partial v c.object _ htree (by
    intro i hi
    have hi' := mem_withOps.1 hi
    obtain ⟨d, hd, -, e⟩ := hrec i hi'.1
    exact ⟨hi'.2, chain_piece htree (fun o ho => List.mem_flatten.2 ⟨i, hi, ho⟩)
      (chain_links (L.proper d hd).chained e) (sorted_of_bodies e (chain_sorted (L.proper d hd).chained))⟩) hl
    (by intro e; rw [e] at hin; cases hin)
  refine ⟨out, ?_, ?_⟩
  · unfold Engine.read
    rw [if_neg hne]
    split
    · rename_i h0
      rw [h0] at hsome; cases hsome
    · rw [hform, e]; rfl
  · intro ops hn hops
    have hB : ∀ o, o ∈ ops ↔ ∃ a ∈ (withOps (Engine.operands s (Key.ofUuids c.object c.rdt))).flatten, bare a = o := by
      intro o
      rw [hops o]
      constructor
      · rintro ⟨a, ha, rfl⟩
        obtain ⟨a', ha', ea⟩ := (hse a.body).2 ⟨a, ha, rfl⟩
        exact ⟨a', ha', bare_eq ea⟩
      · rintro ⟨a, ha, rfl⟩
        obtain ⟨a', ha', ea⟩ := (hse a.body).1 ⟨a, ha, rfl⟩
        exact ⟨a', ha', bare_eq ea⟩
    obtain ⟨t1, t2⟩ := weave_bare htree hn hB hw
    refine ⟨t1, ?_⟩
    rw [hout, bares_eq (Rdt.punctuate_body w)]
    exact t2

/-- They accept the same chains. -/
theorem C102_accepts {wh wh' : Bool} (v v' : Rdt.View) (H G : List Chain) (note note' : Uuid → List Nat) (s t : MemStore) (L : Lineage H)
    (K : Carries wh H note s) (L' : Lineage G) (K' : Carries wh' G note' t) (h : SameEvents (eventsOf H) (eventsOf G)) (env env' : Env)
    (hv : env.mg = Rdt.mergeCursors v) (hv' : env'.mg = Rdt.mergeCursors v') (tip : Uuid) (now now' : Word) (o : AOp)
    (os : List AOp) (P : Proper o os) (ht : tip = Uuid.NIL ∨ Known H tip) :
    ∃ st st' s' t' n n', receive env s tip now ⟨o :: os, Status.ENDOFFRAME, true⟩ = some (st, s', n) ∧
      receive env' t tip now' ⟨o :: os, Status.ENDOFFRAME, true⟩ = some (st', t', n') ∧ (st.ok = true ↔ st'.ok = true) ∧
      ∃ H' G' k k', Lineage H' ∧ Carries wh H' k s' ∧ Lineage G' ∧ Carries wh' G' k' t' ∧ SameEvents (eventsOf H') (eventsOf G') ∧
        eventsOf H' = if st.ok then eventsOf H ++ o :: os else eventsOf H := by
  obtain ⟨st, s', n, e, h1, h2, h3⟩ := C101_accepts v H note s L K env hv tip now o os P ht
  obtain ⟨st', t', n', e', g1, g2, g3⟩ := C101_accepts v' G note' t L' K' env' hv' tip now' o os P
    (ht.imp_right (Lineage.known_same h).1)
  have hb : ∀ b, (∃ o ∈ eventsOf G, o.body = b) ↔ ∃ o ∈ eventsOf H, o.body = b := fun b => (h b).symm
  have hiff : st.ok = true ↔ st'.ok = true := by
    rw [h1, g1]
    constructor
    · rintro ⟨c, e1, e2, f, r⟩
      exact ⟨c, e1, e2, L.follows_same L' h f, r⟩
    · rintro ⟨c, e1, e2, f, r⟩
      exact ⟨c, e1, e2, L'.follows_same L hb f, r⟩
  refine ⟨st, st', s', t', n, n', e, e', hiff, ?_⟩
  cases hok : st.ok with
  | false =>
    have hok' : st'.ok = false := by
      cases h : st'.ok with
      | false => rfl
      | true => rw [hiff.2 h] at hok; cases hok
    rw [h2 hok, g2 hok']
    exact ⟨H, G, note, note', L, K, L', K', h, by simp⟩
  | true =>
    obtain ⟨c, rfl, rfl, f, -⟩ := h1.1 hok
    have f' := L.follows_same L' h f
    obtain ⟨⟨k, hk⟩, l, -⟩ := h3 c rfl rfl f hok
    obtain ⟨⟨k', hk'⟩, l', -⟩ := g3 c rfl rfl f' (hiff.1 hok)
    have ev : ∀ J : List Chain, eventsOf (J ++ [c]) = eventsOf J ++ c.ops := fun J => by simp [eventsOf]
    refine ⟨_, _, k, k', l, hk, l', hk', ?_, by rw [ev]; rfl⟩
    rw [ev, ev]
    intro b
    constructor
    · rintro ⟨x, hx, rfl⟩
      rcases List.mem_append.1 hx with hx | hx
      · obtain ⟨y, hy, ey⟩ := (h x.body).1 ⟨x, hx, rfl⟩
        exact ⟨y, List.mem_append_left _ hy, ey⟩
      · exact ⟨x, List.mem_append_right _ hx, rfl⟩
    · rintro ⟨x, hx, rfl⟩
      rcases List.mem_append.1 hx with hx | hx
      · obtain ⟨y, hy, ey⟩ := (h x.body).2 ⟨x, hx, rfl⟩
        exact ⟨y, List.mem_append_left _ hy, ey⟩
      · exact ⟨x, List.mem_append_right _ hx, rfl⟩

/-- An event has the same object and type, and every object has the same log but for the order. -/
theorem C102_objects (H G : List Chain) (L : Lineage H) (L' : Lineage G) (h : SameEvents (eventsOf H) (eventsOf G)) :
    (∀ i, Known H i ↔ Known G i) ∧
    (∀ i, ∀ c ∈ H, ∀ d ∈ G, c.Has i → d.Has i → c.object = d.object ∧ c.rdt = d.rdt) ∧
    ∀ obj, SameEvents (eventsIn H obj) (eventsIn G obj) :=
  ⟨fun _ => Lineage.known_same h, fun i => L.agree L' h _ i (Nat.lt_succ_self _), L.objects_same L' h⟩

/-- They read the same registers, sets and yarns. -/
theorem C102_read {wh wh' : Bool} (v v' : Rdt.View) (H G : List Chain) (note note' : Uuid → List Nat) (s t : MemStore) (L : Lineage H)
    (K : Carries wh H note s) (L' : Lineage G) (K' : Carries wh' G note' t) (h : SameEvents (eventsOf H) (eventsOf G))
    (c : Chain) (hc : c ∈ H) (hf : IdForm (uuid2form c.rdt)) :
    ∃ out out', Engine.read (Rdt.mergeCursors v) s (Key.ofUuids c.object c.rdt) = some (Status.OK, out) ∧
      Engine.read (Rdt.mergeCursors v') t (Key.ofUuids c.object c.rdt) = some (Status.OK, out') ∧
      out.map AOp.body = out'.map AOp.body := by
  obtain ⟨d, hd, hdh⟩ := (Lineage.known_same h).1 ⟨c, hc, c.head, List.mem_cons_self, rfl⟩
  obtain ⟨e1, e2⟩ := L.agree L' h _ _ (Nat.lt_succ_self _) c hc d hd ⟨c.head, List.mem_cons_self, rfl⟩ hdh
  obtain ⟨out, h1, h2, h3⟩ := C102_object v H note s L K c hc hf
  obtain ⟨out', g1, g2, g3⟩ := C102_object v' G note' t L' K' d hd (by rw [← e2]; exact hf)
  rw [← e1, ← e2] at g1
  rw [← e1] at g3
  exact ⟨out, out', h1, g1, Rdt.sorted_unique _ _ h2 g2 fun b =>
    (h3 b).trans ((L.objects_same L' h c.object b).trans (g3 b).symm)⟩

/-- They read the same arrays, if both have them in no more than three chains. -/
theorem C102_arrays_partial (v v' : Rdt.View) (H G : List Chain) (note note' : Uuid → List Nat) (s t : MemStore)
    (L : Lineage H) (K : Holds H note s) (L' : Lineage G) (K' : Holds G note' t)
    (h : SameEvents (eventsOf H) (eventsOf G)) (c : Chain) (hc : c ∈ H) (hf : uuid2form c.rdt = Form.RGA)
    (hl : (H.filter fun d => decide (d.object = c.object)).length ≤ 3)
    (hl' : (G.filter fun d => decide (d.object = c.object)).length ≤ 3) :
    ∃ out out', Engine.read (Rdt.mergeCursors v) s (Key.ofUuids c.object c.rdt) = some (Status.OK, out) ∧
      Engine.read (Rdt.mergeCursors v') t (Key.ofUuids c.object c.rdt) = some (Status.OK, out') ∧
      out.map AOp.body = out'.map AOp.body := by
  obtain ⟨d, hd, hdh⟩ := (Lineage.known_same h).1 ⟨c, hc, c.head, List.mem_cons_self, rfl⟩
  obtain ⟨e1, e2⟩ := L.agree L' h _ _ (Nat.lt_succ_self _) c hc d hd ⟨c.head, List.mem_cons_self, rfl⟩ hdh
  obtain ⟨out, h1, h2⟩ := C102_weave_partial v H note s L K c hc hf hl
  obtain ⟨out', g1, g2⟩ := C102_weave_partial v' G note' t L' K' d hd (by rw [← e2]; exact hf) (by rw [← e1]; exact hl')
  rw [← e1, ← e2] at g1
  rw [← e1] at g2
  refine ⟨out, out', h1, g1, ?_⟩
  have hn : (((eventsIn H c.object).map bare).map AOp.id).Nodup := by
    rw [List.map_map]; exact L.in_nodup c.object
  have hs := L.objects_same L' h c.object
  obtain ⟨t1, w1⟩ := h2 _ hn fun o => List.mem_map
  obtain ⟨-, w2⟩ := g2 _ hn fun o => by
    rw [List.mem_map]
    constructor
    · rintro ⟨a, ha, rfl⟩
      obtain ⟨a', ha', ea⟩ := (hs a.body).1 ⟨a, ha, rfl⟩
      exact ⟨a', ha', bare_eq ea⟩
    · rintro ⟨a, ha, rfl⟩
      obtain ⟨a', ha', ea⟩ := (hs a.body).2 ⟨a, ha, rfl⟩
      exact ⟨a', ha', bare_eq ea⟩
  have := congrArg (List.map AOp.body) (Rdt.weave_unique t1 w1 w2)
  rw [List.map_map, List.map_map] at this
  exact this

/-- Two new stores have accepted the same events, whatever the frames: then they read the same objects. -/
def C102_claim : Prop := ∀ (v v' : Rdt.View) (s t : MemStore) (acc acc' : List (List AOp)), Fed v s acc → Fed v' t acc' →
  SameEvents acc.flatten acc'.flatten → ∀ o ∈ acc.flatten, StateForm (uuid2form o.ref) →
    ∃ st out out', Engine.read (Rdt.mergeCursors v) s (Key.ofUuids o.id o.ref) = some (st, out) ∧
      Engine.read (Rdt.mergeCursors v') t (Key.ofUuids o.id o.ref) = some (st, out') ∧
      out.map AOp.body = out'.map AOp.body

theorem proper98 : Proper (op2 (evA 11) (formUuid Form.RGA)) (frame98.drop 1) ∧
    Proper (op2 (evA 11) (formUuid Form.RGA)) [] ∧ Proper (op2 (evA 12) (evA 11) [.int 1]) [] ∧
    Proper (op2 (evA 13) (evA 12) [.int 2]) [] ∧ Proper (op2 (evA 14) (evA 13) [.int 3]) [] := by
  have hc : ChainedTo (evA 11) (frame98.drop 1) := by
    show (_ ∧ _ ∧ _ ∧ _ ∧ _ ∧ _ ∧ _ ∧ _ ∧ _ ∧ _ ∧ _ ∧ _ ∧ True)
    decide +kernel
  refine ⟨⟨?_, ?_, ?_, hc, ?_, ?_, ?_⟩, ⟨?_, ?_, ?_, ?_, ?_, ?_, ?_⟩, ⟨?_, ?_, ?_, ?_, ?_, ?_, ?_⟩,
    ⟨?_, ?_, ?_, ?_, ?_, ?_, ?_⟩, ⟨?_, ?_, ?_, ?_, ?_, ?_, ?_⟩⟩ <;>
    (try unfold Stamp) <;> (try unfold ChainedTo) <;> (try unfold ChainedTo) <;> decide +kernel

theorem fed_st1 : Fed tView st1 [fed1] := by
  have f1 := fed_run Fed.new fed_proper.1 (Or.inl rfl) (by decide +kernel)
  rw [if_pos (by decide +kernel)] at f1
  exact f1

theorem fed_st98 : Fed tView st98 [fed1, frame98] := by
  have f := fed_run fed_st1 (tip := Uuid.NIL) proper98.1 (Or.inl rfl) (by decide +kernel)
  rw [if_pos (by decide +kernel)] at f
  exact f

theorem fed_st984 : Fed tView st984 [fed1, [op2 (evA 11) (formUuid Form.RGA)], [op2 (evA 12) (evA 11) [.int 1]],
    [op2 (evA 13) (evA 12) [.int 2]], [op2 (evA 14) (evA 13) [.int 3]]] := by
  have f1 := fed_run fed_st1 (tip := Uuid.NIL) proper98.2.1 (Or.inl rfl) (by decide +kernel)
  rw [if_pos (by decide +kernel)] at f1
  have f2 := fed_run f1 (tip := Uuid.NIL) proper98.2.2.1 (Or.inl rfl) (by decide +kernel)
  rw [if_pos (by decide +kernel)] at f2
  have f3 := fed_run f2 (tip := Uuid.NIL) proper98.2.2.2.1 (Or.inl rfl) (by decide +kernel)
  rw [if_pos (by decide +kernel)] at f3
  have f4 := fed_run f3 (tip := Uuid.NIL) proper98.2.2.2.2 (Or.inl rfl) (by decide +kernel)
  rw [if_pos (by decide +kernel)] at f4
  exact f4

/-- It fails: an array that came in more than three chains can not be read. -/
theorem C102_violated : ¬ C102_claim := by
  intro h
  obtain ⟨st, out, out', e, e', -⟩ := h tView tView st98 st984 _ _ fed_st98 fed_st984 (fun _ => Iff.rfl)
    (op2 (evA 11) (formUuid Form.RGA)) (by simp [frame98]) (Or.inr (by decide))
  have k : (Engine.read (Rdt.mergeCursors tView) st98 (Key.ofUuids (evA 11) (formUuid Form.RGA))).map
      (fun r => r.1.ok) = some true := by decide +kernel
  have k' : (Engine.read (Rdt.mergeCursors tView) st984 (Key.ofUuids (evA 11) (formUuid Form.RGA))).map
      (fun r => r.1.ok) = some false := by decide +kernel
  have e : Engine.read (Rdt.mergeCursors tView) st98 (Key.ofUuids (evA 11) (formUuid Form.RGA)) = _ := e
  have e' : Engine.read (Rdt.mergeCursors tView) st984 (Key.ofUuids (evA 11) (formUuid Form.RGA)) = _ := e'
  rw [e] at k
  rw [e'] at k'
  simp only [Option.map_some, Option.some.injEq] at k k'
  rw [k] at k'
  cases k'

/-- Frames come to two new stores, in whatever order and however cut; when both have accepted the same events, they read
the same registers, sets and yarns. Missing for the full claim: arrays of more than three chains, which can not be read
(`C102_violated`); those of three at most are in `C102_arrays_partial`. -/
theorem C102_fed_partial (v v' : Rdt.View) (s t : MemStore) (acc acc' : List (List AOp)) (hs : Fed v s acc)
    (ht : Fed v' t acc') (h : SameEvents acc.flatten acc'.flatten) (o : AOp) (ho : o ∈ acc.flatten)
    (hf : IdForm (uuid2form o.ref)) (hn : o.ref.version = Uuid.vNAME) :
    ∃ out out', Engine.read (Rdt.mergeCursors v) s (Key.ofUuids o.id o.ref) = some (Status.OK, out) ∧
      Engine.read (Rdt.mergeCursors v') t (Key.ofUuids o.id o.ref) = some (Status.OK, out') ∧
      out.map AOp.body = out'.map AOp.body ∧ ∃ x ∈ out, x.body = o.body := by
  obtain ⟨H, note, rfl, L, K⟩ := C101_history v s acc hs
  obtain ⟨G, note', rfl, L', K'⟩ := C101_history v' t acc' ht
  have ev : ∀ J : List Chain, (J.map Chain.ops).flatten = eventsOf J := fun J => by
    unfold eventsOf; rw [List.flatMap]
  rw [ev] at ho h
  rw [ev] at h
  obtain ⟨c, hc, hx⟩ := Lineage.mem_events.1 ho
  rcases L.cause c hc o hx with ⟨-, h1, h2⟩ | ⟨h1, -⟩
  · rw [← h1, ← h2]
    rw [← h2] at hf
    obtain ⟨out, out', e, e', hb⟩ := C102_read v v' H G note note' s t L K L' K' h c hc hf
    obtain ⟨out'', e'', -, hse⟩ := C102_object v H note s L K c hc hf
    rw [e] at e''
    cases e''
    exact ⟨out, out', e, e', hb, (hse o.body).2 ⟨o, Lineage.mem_in.2 ⟨c, hc, rfl, hx⟩, rfl⟩⟩
  · rw [hn] at h1; exact absurd h1 (by decide)

/-! The same events, cut differently and in another order: two yarns and a register with two events. -/

theorem proper_cut : Proper (op2 (evA 11) (formUuid Form.LWW)) [] ∧ Proper (op2 (evA 12) (evA 11) [.int 1]) [] ∧
    Proper (op2 (evB 10) (formUuid Form.YARN)) [] := by
  refine ⟨⟨?_, ?_, ?_, ?_, ?_, ?_, ?_⟩, ⟨?_, ?_, ?_, ?_, ?_, ?_, ?_⟩, ⟨?_, ?_, ?_, ?_, ?_, ?_, ?_⟩⟩ <;>
    (try unfold Stamp) <;> (try unfold ChainedTo) <;> (try unfold ChainedTo) <;> decide +kernel

example : ∃ s t acc acc', Fed tView s acc ∧ Fed tView t acc' ∧ SameEvents acc.flatten acc'.flatten ∧
    acc.flatten ≠ acc'.flatten ∧ op2 (evA 11) (formUuid Form.LWW) ∈ acc.flatten := by
  have f2 := fed_run fed_st1 (tip := Uuid.NIL) fed_proper.2.1 (Or.inl rfl) (by decide +kernel)
  rw [if_pos (by decide +kernel)] at f2
  have f3 := fed_run f2 (tip := Uuid.NIL) proper_cut.2.2 (Or.inl rfl) (by decide +kernel)
  rw [if_pos (by decide +kernel)] at f3
  have g1 := fed_run fed_st1 (tip := Uuid.NIL) proper_cut.2.2 (Or.inl rfl) (by decide +kernel)
  rw [if_pos (by decide +kernel)] at g1
  have g2 := fed_run g1 (tip := Uuid.NIL) proper_cut.1 (Or.inl rfl) (by decide +kernel)
  rw [if_pos (by decide +kernel)] at g2
  have g3 := fed_run g2 (tip := Uuid.NIL) proper_cut.2.1 (Or.inl rfl) (by decide +kernel)
  rw [if_pos (by decide +kernel)] at g3
  refine ⟨_, _, _, _, f3, g3, ?_, by decide +kernel, by decide +kernel⟩
  intro b
  simp only [fed1, List.cons_append, List.nil_append, List.flatten_cons, List.flatten_nil, List.append_nil, List.mem_cons,
    List.not_mem_nil, or_false, exists_eq_or_imp, exists_eq_left]
  grind

end Ron.Props
