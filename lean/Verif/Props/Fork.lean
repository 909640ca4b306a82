import Verif.Lemmas.Fork
/-!
Property C106: the branches of a replica and their histories.
-/
namespace Ron.Props
open Ron Spec Host Commit

/-! ## C106 — every branch of a replica is the history of what it has accepted -/

/-- Whatever is done, chain by chain: the store of every branch holds a history of chains. -/
def C106_claim : Prop := ∀ (v : Rdt.View) (hs : Hashing) (h : Host), Lived (Rdt.mergeCursors v) hs Chainwise h →
  ∀ s ∈ h.stores, s.id ≠ Uuid.NIL → ∃ H, Kept s H

/-- A yarn begins once. -/
theorem roots_unique {H : List Chain} (L : Lineage H) {c d : Chain} (hc : c ∈ H) (hd : d ∈ H)
    (h1 : c.head.ref = formUuid Form.YARN) (h2 : d.head.ref = formUuid Form.YARN)
    (h : c.head.id.origin = d.head.id.origin) : c = d := by
  induction L with
  | nil => cases hc
  | @add H e L P F ih =>
    have key : ∀ x ∈ H, e.head.ref = formUuid Form.YARN → x.head.id.origin ≠ e.head.id.origin := by
      intro x hx he
      rcases F.yarn with ⟨-, g⟩ | ⟨g, -⟩
      · exact g _ ⟨x, hx, x.head, List.mem_cons_self, rfl⟩
      · exact absurd he g
    rcases List.mem_append.1 hc with hc | hc <;> rcases List.mem_append.1 hd with hd | hd
    · exact ih hc hd
    · rw [List.mem_singleton.1 hd] at h h2
      exact absurd h (key c hc h2)
    · rw [List.mem_singleton.1 hc] at h h1
      exact absurd h.symm (key d hd h1)
    · rw [List.mem_singleton.1 hc, List.mem_singleton.1 hd]

theorem entry_root {s : OpenStore} {H : List Chain} (k : Kept s H) {i r : Uuid}
    (h : ∃ f ∈ stored (Key.mk' i Form.META) s.data, f.head?.map (fun o => o.vals.take 2) = some [AVal.uuid i, AVal.uuid r]) :
    ∃ c ∈ H, c.head.id = i ∧ c.head.ref = r := by
  obtain ⟨note, K⟩ := k.holds
  obtain ⟨f, hf, h⟩ := h
  rw [K.index _ (form_mk _ _)] at hf
  obtain ⟨c, hc, rfl⟩ := List.mem_map.1 hf
  have h : [AVal.uuid c.object, AVal.uuid c.rdt] = [.uuid i, .uuid r] := Option.some.inj h
  simp only [List.cons.injEq, AVal.uuid.injEq, and_true] at h
  obtain ⟨h, h'⟩ := h
  obtain ⟨q, hq, g1, g2, -⟩ := object_root k.lineage c (List.mem_filter.1 hc).1
  exact ⟨q, hq, g1.trans h, g2.trans h'⟩

/-- A branch accepts the beginning of another yarn, and is forked: the fork is to begin that yarn. -/
def hostTwice : Host := act host3 (.fork 1010#64 yB yA)

theorem proper_b : Proper (op2 (evB 3) (formUuid Form.YARN)) [] := by
  refine ⟨by decide, by unfold Stamp; decide, by decide, trivial, by unfold Stamp; decide, fun h => absurd h (by decide),
    fun _ => Or.inr (by decide)⟩

theorem lived3_chains : Lived mg6 tHash Chainwise host3 := by
  have l1 : Lived mg6 tHash Chainwise host1 := lived_act (lived0 _) ⟨by decide, Or.inr ⟨by decide, by decide +kernel⟩⟩
    (by decide +kernel)
  exact lived_act l1 ⟨_, _, rfl, proper_b⟩ (by decide +kernel)

/-- The fork has the yarn begun twice. -/
theorem C106_violated : ¬ C106_claim := by
  intro h
  have l : Lived mg6 tHash Chainwise hostTwice := lived_act lived3_chains (c := .fork 1010#64 yB yA)
    ⟨by decide, by decide +kernel⟩ (by decide +kernel)
  have hd : ∃ s ∈ hostTwice.stores, s.id = branchId yB ∧
      (∃ f ∈ stored (Key.mk' (evB 3) Form.META) s.data,
        f.head?.map (fun o => o.vals.take 2) = some [AVal.uuid (evB 3), AVal.uuid (formUuid Form.YARN)]) ∧
      (∃ f ∈ stored (Key.mk' (evB 1010) Form.META) s.data,
        f.head?.map (fun o => o.vals.take 2) = some [AVal.uuid (evB 1010), AVal.uuid (formUuid Form.YARN)]) := by
    decide +kernel
  obtain ⟨s, hs, hid, h1, h2⟩ := hd
  obtain ⟨H, k⟩ := h tView tHash hostTwice l s hs (by rw [hid]; exact branch_ne _)
  obtain ⟨c, hc, c1, c2⟩ := entry_root k h1
  obtain ⟨d, hd, d1, d2⟩ := entry_root k h2
  have := roots_unique k.lineage hc hd c2 d2 (by rw [c1, d1]; rfl)
  rw [this, d1] at c1
  exact absurd c1 (by decide)

/-- Whatever is done, chain by chain or by frames of new objects, the store of every branch holds a history of chains; but branches are forked
only if their arrays and maxima can be read and they have not heard of the yarn of the fork. -/
theorem C106_history_partial (v : Rdt.View) (hs : Hashing) (h : Host) (l : Lived (Rdt.mergeCursors v) hs (Sparing v) h) :
    ∀ s ∈ h.stores, s.id ≠ Uuid.NIL → ∃ H, Kept s H := by
  suffices AllKept h from this.2
  induction l with
  | created e eo => exact created_kept e eo
  | used _ hc e ih => exact call_kept ih hc e

theorem find_last {h h' : Host} {x : OpenStore} (hh : h.has x.id = false) (e : h'.stores = h.stores ++ [x]) :
    h'.find x.id = some x := by
  have := find_none hh
  unfold find at this ⊢
  rw [e, List.find?_append, this]
  simp

/-- The history of a fork is the beginning of its own yarn, then the history of what was forked. Its tip is not cached. -/
theorem C106_fork_partial (v : Rdt.View) (hs : Hashing) (h h' : Host) (wall new orig : Word) (st : Status)
    (l : Lived (Rdt.mergeCursors v) hs (Sparing v) h) (hc : Sparing v h (.fork wall new orig))
    (e : h.forkBranch (Rdt.mergeCursors v) hs wall new orig = some (st, h')) (hok : st.ok = true) :
    ∃ o n id, h.find (branchId orig) = some o ∧ h'.find (branchId orig) = some o ∧ h'.find (branchId new) = some n ∧
      id.origin = (branchId new).origin ∧ n.tip = Uuid.NIL ∧ (∃ H, Kept o H) ∧
      ∀ H, Kept o H → Kept n ([Chain.yarn id] ++ H) := by
  have hk : ∀ s, h.find (branchId orig) = some s → ∃ H, Kept s H := fun s hs' =>
    C106_history_partial v hs h l s (find_some hs').1 (by rw [(find_some hs').2]; exact branch_ne orig)
  rcases fork_kept (hc.1.elim id fun h => h.elim) hk (hc.2 wall new orig rfl) e with ⟨h1, -⟩ | ⟨-, hh, o, id, d, h1, h2, h3, h4⟩
  · rw [h1] at hok; cases hok
  · refine ⟨o, _, id, h1, ?_, find_last (x := ⟨branchId new, Uuid.NIL, d⟩) hh h2, h3, rfl, hk o h1, h4⟩
    unfold find at h1 ⊢
    rw [h2, List.find?_append, h1]
    rfl

/-- A store and a fork of it read the same: every log, and every register, set and yarn. -/
theorem C106_reads (v : Rdt.View) (o n : OpenStore) (id : Uuid) (H : List Chain) (ko : Kept o H)
    (kn : Kept n ([Chain.yarn id] ++ H)) (c : Chain) (hc : c ∈ H) :
    (∃ a b, Engine.read (Rdt.mergeCursors v) o.data (Key.mk' c.object Form.LOG) = some (Status.OK, a) ∧
      Engine.read (Rdt.mergeCursors v) n.data (Key.mk' c.object Form.LOG) = some (Status.OK, b) ∧
      a.map AOp.body = b.map AOp.body) ∧
    (uuid2form c.rdt ∈ [Form.YARN, Form.LWW, Form.MX] →
      ∃ a b, Engine.read (Rdt.mergeCursors v) o.data (Key.ofUuids c.object c.rdt) = some (Status.OK, a) ∧
        Engine.read (Rdt.mergeCursors v) n.data (Key.ofUuids c.object c.rdt) = some (Status.OK, b) ∧
        a.map AOp.body = b.map AOp.body) := by
  obtain ⟨note, K⟩ := ko.holds
  obtain ⟨note', K'⟩ := kn.holds
  have hc' : c ∈ [Chain.yarn id] ++ H := List.mem_append_right _ hc
  have hne : (Chain.yarn id).object ≠ c.object := by
    intro he
    obtain ⟨r, hr, h1, -⟩ := object_root ko.lineage c hc
    have hr' : r ∈ [Chain.yarn id] ++ H := List.mem_append_right _ hr
    have := kn.lineage.order
    rw [List.singleton_append, List.pairwise_cons] at this
    have hid : r.head.id = id := h1.trans he.symm
    have := this.1 r hr (by rw [hid]; rfl) _ List.mem_cons_self
    rw [hid] at this
    exact absurd this (by show ¬ id.value.toNat < id.value.toNat; omega)
  have hf : (([Chain.yarn id] ++ H).filter fun d => decide (d.object = c.object)) =
      H.filter fun d => decide (d.object = c.object) := by
    rw [List.singleton_append, List.filter_cons, if_neg (by simpa using hne)]
  constructor
  · obtain ⟨a, h1, h2⟩ := C101_log v H note o.data ko.lineage K c.object (ko.lineage.object c hc).1
    obtain ⟨b, g1, g2⟩ := C101_log v _ note' n.data kn.lineage K' c.object (ko.lineage.object c hc).1
    rw [hf] at g2
    exact ⟨a, b, h1, g1, h2.trans g2.symm⟩
  · intro ht
    have hid : IdForm (uuid2form c.rdt) := by
      simp only [List.mem_cons, List.not_mem_nil, or_false] at ht
      unfold IdForm
      rcases ht with h | h | h
      · exact Or.inr (Or.inr h)
      · exact Or.inl h
      · exact Or.inr (Or.inl h)
    obtain ⟨a, h1, h2, h3⟩ := C102_object v H note o.data ko.lineage K c hc hid
    obtain ⟨b, g1, g2, g3⟩ := C102_object v _ note' n.data kn.lineage K' c hc' hid
    refine ⟨a, b, h1, g1, Rdt.sorted_unique _ _ h2 g2 fun x => (h3 x).trans ?_⟩
    have : eventsIn ([Chain.yarn id] ++ H) c.object = eventsIn H c.object := by
      unfold eventsIn
      rw [hf]
    rw [← this]
    exact (g3 x).symm

/-- What a branch accepts: the chains that follow its history and, once its tip is cached, are of the yarn of the tip; it
has the chain in its history then. What is not accepted changes nothing in it. -/
theorem C106_accepts (v : Rdt.View) (hs : Hashing) (h : Host) (wall yarn : Word) (s : OpenStore) (H : List Chain)
    (hf : h.find (branchId yarn) = some s) (k : Kept s H) (o : AOp) (os : List AOp) (P : Proper o os) :
    ∃ st h' s', h.receive (Rdt.mergeCursors v) hs wall yarn ⟨o :: os, Status.ENDOFFRAME, true⟩ = some (st, h') ∧
      h'.find (branchId yarn) = some s' ∧ s'.tip = s.tip ∧
      (st.ok = true ↔ ∃ c : Chain, c.head = o ∧ c.rest = os ∧ Spec.Follows H c ∧
        (s.tip = Uuid.NIL ∨ s.tip.origin = o.id.origin)) ∧
      (st.ok = false → s' = s) ∧
      ∀ c : Chain, c.head = o → c.rest = os → Spec.Follows H c → st.ok = true → Kept s' (H ++ [c]) := by
  obtain ⟨note, K⟩ := k.holds
  obtain ⟨st, d, n, e, -⟩ := C101_accepts v H note s.data k.lineage K (h.env (Rdt.mergeCursors v) hs wall) rfl s.tip h.now
    o os P k.cached
  obtain ⟨h1, h2, h3⟩ := receive_kept (v := v) rfl k P e
  refine ⟨st, { h.setData s.id d with now := n }, { s with data := d }, ?_, ?_, rfl, h1, fun hk => by rw [h2 hk], h3⟩
  · unfold Host.receive
    rw [if_neg (by
      intro he
      have := (find_some hf).1
      rw [List.isEmpty_iff.1 he] at this
      cases this), hf]
    simp only [e, Option.map_some]
  · have := find_setData_same (d := d) hf
    rw [← (find_some hf).2] at this ⊢
    exact this

/-! A branch with a register and an array, and a fork of it. -/

def obj106 : List AOp := [op2 (evA 2000) (formUuid Form.LWW), op2 (evA 2001) (evA 2000) [.int 5]]
def arr106 : List AOp := [op2 (evA 2002) (formUuid Form.RGA), op2 (evA 2003) (evA 2002) [.int 5]]
def host105 : Host := act host2 (frameA obj106)
def host106 : Host := act host105 (frameA arr106)
def fork106 : HostCall := .fork 2010#64 yB yA

theorem lived106 : Lived mg6 tHash (Sparing tView) host106 := by
  have l1 : Lived mg6 tHash (Sparing tView) host1 := lived_act (lived0 _)
    ⟨.inl ⟨by decide, Or.inr ⟨by decide, by decide +kernel⟩⟩, fun _ _ _ h => by cases h⟩ (by decide +kernel)
  have l2 : Lived mg6 tHash (Sparing tView) host2 := lived_act l1 ⟨.inl trivial, fun _ _ _ h => by cases h⟩ (by decide +kernel)
  have p1 : Proper (op2 (evA 2000) (formUuid Form.LWW)) [op2 (evA 2001) (evA 2000) [.int 5]] ∧
      Proper (op2 (evA 2002) (formUuid Form.RGA)) [op2 (evA 2003) (evA 2002) [.int 5]] := by
    refine ⟨⟨?_, ?_, ?_, ?_, ?_, ?_, ?_⟩, ⟨?_, ?_, ?_, ?_, ?_, ?_, ?_⟩⟩ <;> (try unfold Stamp) <;> (try unfold ChainedTo) <;>
      (try unfold ChainedTo) <;> decide +kernel
  have l3 : Lived mg6 tHash (Sparing tView) host105 := lived_act l2
    ⟨.inl ⟨_, _, rfl, p1.1⟩, fun _ _ _ h => by cases h⟩ (by decide +kernel)
  exact lived_act l3 ⟨.inl ⟨_, _, rfl, p1.2⟩, fun _ _ _ h => by cases h⟩ (by decide +kernel)

/-- The two objects in one frame. -/
example : Lived mg6 tHash (Sparing tView) (act host2 (frameA (obj106 ++ arr106))) ∧
    actSt host2 (frameA (obj106 ++ arr106)) = Status.OK := by
  have l1 : Lived mg6 tHash (Sparing tView) host1 := lived_act (lived0 _)
    ⟨.inl ⟨by decide, Or.inr ⟨by decide, by decide +kernel⟩⟩, fun _ _ _ h => by cases h⟩ (by decide +kernel)
  have l2 : Lived mg6 tHash (Sparing tView) host2 := lived_act l1 ⟨.inl trivial, fun _ _ _ h => by cases h⟩ (by decide +kernel)
  refine ⟨lived_act l2 ⟨.inr ⟨[(op2 (evA 2000) (formUuid Form.LWW), [op2 (evA 2001) (evA 2000) [.int 5]]),
    (op2 (evA 2002) (formUuid Form.RGA), [op2 (evA 2003) (evA 2002) [.int 5]])], by simp, rfl, ?_, ?_, ?_, ?_⟩,
    fun _ _ _ h => by cases h⟩ (by decide +kernel), by decide +kernel⟩
  · intro p hp
    simp only [List.mem_cons, List.not_mem_nil, or_false] at hp
    rcases hp with rfl | rfl <;> refine ⟨?_, ?_, ?_, ?_, ?_, ?_, ?_⟩ <;> (try unfold Stamp) <;> (try unfold ChainedTo) <;>
      (try unfold ChainedTo) <;> decide +kernel
  · exact ⟨Or.inr (by decide +kernel), trivial⟩
  · decide +kernel
  · intro s hs
    have h : (host2.find (branchId yA)).all (fun s => decide (s.tip.origin = (evA 2000).origin)) = true := by decide +kernel
    have hs : host2.find (branchId yA) = some s := hs
    rw [hs] at h
    have h := of_decide_eq_true h
    refine Or.inr fun p hp => ?_
    simp only [List.mem_cons, List.not_mem_nil, or_false] at hp
    rcases hp with rfl | rfl <;> exact h.symm

theorem sparing106 : Sparing tView host106 fork106 := by
  refine ⟨.inl ⟨by decide, by decide +kernel⟩, fun w n o e s hs r hr => ?_⟩
  cases e
  have h : (host106.find (branchId yA)).all (fun s => s.data.all fun r => decide ((r.1.form = Form.RGA ∨
      r.1.form = Form.MAX → r.1.form = Form.RGA ∧ ((Engine.read mg6 s.data r.1).map fun q => (q.1, q.2.isEmpty)) =
        some (Status.OK, false)) ∧ ∀ x ∈ r.2, x.id.origin ≠ (branchId yB).origin)) = true := by decide +kernel
  rw [hs] at h
  obtain ⟨h1, h2⟩ := of_decide_eq_true (List.all_eq_true.1 h r hr)
  refine ⟨fun h => ?_, h2⟩
  obtain ⟨g1, g2⟩ := h1 h
  obtain ⟨q, hq, g2⟩ := Commit.map_some g2
  obtain ⟨q1, q2⟩ := q
  simp only [Prod.mk.injEq] at g2
  rw [g2.1] at hq
  refine ⟨q2, hq, ?_, fun hm => ?_⟩
  · intro e
    rw [e] at g2
    exact absurd g2.2 (by decide)
  · rw [g1] at hm
    exact absurd hm (by decide)

/-- The fork succeeds; the objects are read from it. -/
example : (actSt host106 fork106).ok = true ∧
    ∃ n ∈ (act host106 fork106).stores, n.id = branchId yB ∧
      (Engine.read mg6 n.data (Key.mk' (evA 2000) Form.LWW)).map (fun r => r.2.map AOp.body) =
        some (obj106.map AOp.body) ∧
      (Engine.read mg6 n.data (Key.mk' (evA 2002) Form.RGA)).map (fun r => r.2.map AOp.body) =
        some (arr106.map AOp.body) := by decide +kernel

/-- So the hypotheses are met, and the replica that has forked is one of those again. -/
example : ∃ H o, host106.find (branchId yA) = some o ∧ Kept o H := by
  have h : (host106.find (branchId yA)).isSome = true := by decide +kernel
  match hf : host106.find (branchId yA), h with
  | some o, _ =>
    obtain ⟨H, k⟩ := C106_history_partial _ _ _ lived106 o (find_some hf).1 (by rw [(find_some hf).2]; exact branch_ne _)
    exact ⟨H, o, rfl, k⟩
example : Lived mg6 tHash (Sparing tView) (act host106 fork106) := lived_act lived106 sparing106 (by decide +kernel)

end Ron.Props
