import Verif.Props.TextReceive
import Verif.Props.LineageSame
/-!
C113: the state of an object in a store of texts is what the history says.
-/
namespace Ron.Props
open Ron Spec Commit TextReplica

/-- What is read of a key when the loops may run long enough. -/
def ReadsText (mx : MaxReducer) (A : List Entry) (k : Key) (text : List Byte) : Prop :=
  ∃ N, ∀ n, N ≤ n → TextReplica.read mx n (A.map Entry.bytes) k = .ok (some (Status.OK, text))

/-- C113: the records are texts that say what a store of the history holds. The state of a register, a set or a yarn is
read as a text that has the events of the object, all of them, in the order of ids. -/
def C113_claim : Prop := ∀ (R : Reading) (mx : MaxReducer) (H : List Chain) (note : Uuid → List Nat) (A : List Entry)
  (c : Chain), Lineage H → Tells R H note A → Short mx (A.map Entry.bytes) → c ∈ H → IdForm (uuid2form c.rdt) →
  ∃ text ops, ReadsText mx A (Key.ofUuids c.object c.rdt) text ∧ Contents text ops .endOfFrame ∧ IdSorted (ops.map R.op) ∧
    SameEvents (ops.map R.op) (eventsIn H c.object)

/-- The ops of the key can be merged and read back (`C84`): they can stand next to each other, there is one of an id, and
there are less than 2^31. -/
structure Mixes (A : List Entry) (k : Key) : Prop where
  mix : Mixable (opsAt A k)
  one : OneOpPerId (entriesAt A k)
  few : (opsAt A k).length < 2 ^ 31

theorem opsAt_mem {A : List Entry} {k : Key} {i : List Byte × List (Nat × OpView)} {x : Nat × OpView} (hi : i ∈ entriesAt A k)
    (hx : x ∈ i.2) : x.2 ∈ opsAt A k := List.mem_flatten.2 ⟨_, List.mem_map_of_mem hi, List.mem_map_of_mem hx⟩

theorem opsAt_body {R : Reading} {A : List Entry} {s : MemStore} (hS : Says R A s) (k : Key) :
    ((opsAt A k).map R.op).map AOp.body = (stored k s).flatten.map AOp.body := by
  rw [← says_ops (says_at hS k), List.map_map]
  rfl

/-- The frames of a state that is merged by ids are ordered, as texts. -/
theorem entries_ordered {R : Reading} {A : List Entry} {s : MemStore} {k : Key} (hS : Says R A s)
    (ho : ∀ f ∈ stored k s, IdSorted f) : OrderedFrames (entriesAt A k) := by
  intro i hi
  obtain ⟨f, hf, -, hb⟩ := same2_mem (says_at hS k) i hi
  have hid : f.map AOp.id = i.2.map fun x => x.2.id := by
    have := congrArg (List.map fun b : Uuid × Uuid × List AVal => b.1) hb
    rw [List.map_map, List.map_map] at this
    exact this
  have h1 : (f.map AOp.id).Pairwise fun a b => Uuid.lt a b = true := List.pairwise_map.2 (ho f hf)
  rw [hid] at h1
  exact List.pairwise_map.1 h1

theorem copyOk_out {ins : List (List Byte × List (Nat × OpView))} (hi : ∀ i ∈ ins, Copyable i) {out : List OpView}
    (hsub : ∀ o ∈ out, o ∈ allOps ins) : ∀ x ∈ saidBy (mergedSteps out), ∀ v ∈ x.2.vals, CopyOk v := by
  intro x hx v hv
  have : x.2 ∈ (saidBy (mergedSteps out)).map Prod.snd := List.mem_map_of_mem hx
  rw [TextMerge.saidBy_merged] at this
  obtain ⟨l, hl, hp⟩ := List.mem_flatten.1 (hsub _ this)
  obtain ⟨i, h, rfl⟩ := List.mem_map.1 hl
  obtain ⟨y, hy, e⟩ := List.mem_map.1 hp
  rw [← e] at hv
  exact (hi i h).vals y hy v hv

theorem contents_merged {text : List Byte} {out : List OpView} (h : Copyable (text, saidBy (mergedSteps out))) :
    Contents text out .endOfFrame := by
  have := (C20_frames_partial text h.size _ h.text).1
  rwa [TextMerge.saidBy_merged] at this

/-- The text of the state of a register, a set or a yarn: it can be read and copied. -/
theorem state_text (R : Reading) (mx : MaxReducer) (H : List Chain) (note : Uuid → List Nat) (A : List Entry)
    (c : Chain) (L : Lineage H) (hT : Tells R H note A) (hs : Short mx (A.map Entry.bytes)) (hc : c ∈ H)
    (hf : IdForm (uuid2form c.rdt)) (hm : Mixes A (Key.ofUuids c.object c.rdt)) :
    ∃ text out, ReadsText mx A (Key.ofUuids c.object c.rdt) text ∧ Copyable (text, saidBy (mergedSteps out)) ∧
      (∀ o ∈ out, o ∈ opsAt A (Key.ofUuids c.object c.rdt)) ∧
      out.length ≤ (opsAt A (Key.ofUuids c.object c.rdt)).length ∧ IdSorted (out.map R.op) ∧
      SameEvents (out.map R.op) (eventsIn H c.object) := by
  obtain ⟨wh, s, hS, K⟩ := hT
  have hform : (Key.ofUuids c.object c.rdt).form = uuid2form c.rdt := form_mk _ _
  have hne : Key.ofUuids c.object c.rdt ≠ Key.END := key_ne_end (stateForm_ne (Or.inl hf)).2.2.2
  have hst := state_stands L K hc
  have hid : uuid2form c.rdt ∈ [Form.YARN, Form.LWW, Form.MX] := by
    rcases hf with h | h | h <;> rw [h] <;> decide
  have hord := entries_ordered hS (k := Key.ofUuids c.object c.rdt) (hst.order hid)
  have hsome : entriesAt A (Key.ofUuids c.object c.rdt) ≠ [] := by
    intro h0
    obtain ⟨f, hf, -⟩ := hst.all hid c (List.mem_filter.2 ⟨hc, by simp⟩) c.head List.mem_cons_self
    have := says_at hS (Key.ofUuids c.object c.rdt)
    rw [h0] at this
    generalize stored (Key.ofUuids c.object c.rdt) s = fs at this hf
    cases this
    cases hf
  obtain ⟨out, hu⟩ := TextMerge.union_exists hord hm.one
  have hsub : ∀ o ∈ out, o ∈ opsAt A (Key.ofUuids c.object c.rdt) := by
    intro o h
    obtain ⟨i, hi, x, hx, rfl⟩ := (hu.same o).1 h
    exact opsAt_mem hi hx
  have hlen : out.length ≤ (opsAt A (Key.ofUuids c.object c.rdt)).length := by
    have hnd : out.Nodup := List.Pairwise.imp (fun h e => by
      rw [e] at h; rw [Rdt.uuid_lin.irrefl] at h; cases h) hu.sorted
    exact nodup_length hnd hsub
  obtain ⟨text, g1, g2, g3, -⟩ := C84_union_partial mx (uuid2form c.rdt) (by
      rcases hf with h | h | h <;> rw [h] <;> decide) (entriesAt A (Key.ofUuids c.object c.rdt))
    (says_copyable hS _) hord hm.one out hu (TextMerge.mixable_clean hm.mix hsub) (by have := hm.few; omega)
  have hr := read_ok (A := A) (k := Key.ofUuids c.object c.rdt) (text := text) hne hsome (by rw [hform]; exact g1)
  have hsize : text.length < 2 ^ 30 := by
    obtain ⟨N, hr⟩ := hr
    exact hs N _ text (hr N (Nat.le_refl _))
  refine ⟨text, out, hr, ⟨g2, hsize, g3, copyOk_out (says_copyable hS _) hsub⟩, hsub, hlen,
    List.pairwise_map.2 hu.sorted, fun b => ?_⟩
  · have hbody := same_of_bodies (opsAt_body hS (Key.ofUuids c.object c.rdt)) b
    have h1 : (∃ o ∈ out.map R.op, o.body = b) ↔ ∃ o ∈ (opsAt A (Key.ofUuids c.object c.rdt)).map R.op, o.body = b := by
      constructor
      · rintro ⟨o, ho, rfl⟩
        obtain ⟨p, hp, rfl⟩ := List.mem_map.1 ho
        exact ⟨_, List.mem_map_of_mem (hsub p hp), rfl⟩
      · rintro ⟨o, ho, rfl⟩
        obtain ⟨p, hp, rfl⟩ := List.mem_map.1 ho
        obtain ⟨l, hl, hp⟩ := List.mem_flatten.1 hp
        obtain ⟨i, hi, rfl⟩ := List.mem_map.1 hl
        obtain ⟨x, hx, rfl⟩ := List.mem_map.1 hp
        exact ⟨_, List.mem_map_of_mem ((hu.same _).2 ⟨i, hi, x, hx, rfl⟩), rfl⟩
    rw [h1, hbody]
    constructor
    · rintro ⟨o, ho, rfl⟩
      obtain ⟨f, hf, ho⟩ := List.mem_flatten.1 ho
      obtain ⟨d, hd, x, hx, e⟩ := (hst.part f hf).2 o ho
      exact ⟨x, List.mem_flatMap.2 ⟨d, hd, hx⟩, e⟩
    · rintro ⟨x, hx, rfl⟩
      obtain ⟨d, hd, hx⟩ := List.mem_flatMap.1 hx
      obtain ⟨f, hf, o, ho, e⟩ := hst.all hid d hd x hx
      exact ⟨o, List.mem_flatten.2 ⟨f, hf, ho⟩, e⟩

/-- C113: it is so if the ops can stand next to each other (`Mixes`). -/
theorem C113_state_partial (R : Reading) (mx : MaxReducer) (H : List Chain) (note : Uuid → List Nat) (A : List Entry)
    (c : Chain) (L : Lineage H) (hT : Tells R H note A) (hs : Short mx (A.map Entry.bytes)) (hc : c ∈ H)
    (hf : IdForm (uuid2form c.rdt)) (hm : Mixes A (Key.ofUuids c.object c.rdt)) :
    ∃ text ops, ReadsText mx A (Key.ofUuids c.object c.rdt) text ∧ Contents text ops .endOfFrame ∧ IdSorted (ops.map R.op) ∧
      SameEvents (ops.map R.op) (eventsIn H c.object) := by
  obtain ⟨text, out, h1, h2, -, -, h3, h4⟩ := state_text R mx H note A c L hT hs hc hf hm
  exact ⟨text, out, h1, contents_merged h2, h3, h4⟩

/-- C113: two stores of texts that have the same events read the same registers, sets and yarns, whatever the frames were
and the order they came in. -/
theorem C113_converge_partial (R R' : Reading) (mx mx' : MaxReducer) (H G : List Chain) (note note' : Uuid → List Nat)
    (A B : List Entry) (L : Lineage H) (hT : Tells R H note A) (L' : Lineage G) (hT' : Tells R' G note' B)
    (h : SameEvents (eventsOf H) (eventsOf G)) (hs : Short mx (A.map Entry.bytes)) (hs' : Short mx' (B.map Entry.bytes))
    (c : Chain) (hc : c ∈ H) (hf : IdForm (uuid2form c.rdt)) (hm : Mixes A (Key.ofUuids c.object c.rdt))
    (hm' : Mixes B (Key.ofUuids c.object c.rdt)) :
    ∃ text text' ops ops', ReadsText mx A (Key.ofUuids c.object c.rdt) text ∧
      ReadsText mx' B (Key.ofUuids c.object c.rdt) text' ∧ Contents text ops .endOfFrame ∧ Contents text' ops' .endOfFrame ∧
      ops.map R.op = ops'.map R'.op := by
  obtain ⟨d, hd, hdh⟩ := (Lineage.known_same h).1 ⟨c, hc, c.head, List.mem_cons_self, rfl⟩
  obtain ⟨e1, e2⟩ := L.agree L' h _ _ (Nat.lt_succ_self _) c hc d hd ⟨c.head, List.mem_cons_self, rfl⟩ hdh
  obtain ⟨text, ops, h1, h2, h3, h4⟩ := C113_state_partial R mx H note A c L hT hs hc hf hm
  rw [e1, e2] at hm'
  obtain ⟨text', ops', g1, g2, g3, g4⟩ := C113_state_partial R' mx' G note' B d L' hT' hs' hd (by rw [← e2]; exact hf) hm'
  rw [← e1, ← e2] at g1
  rw [← e1] at g4
  refine ⟨text, text', ops, ops', h1, g1, h2, g2, ?_⟩
  have hs := L.objects_same L' h c.object
  have := bares_eq (Rdt.sorted_unique _ _ h3 g3 fun b => (h4 b).trans ((hs b).trans (g4 b).symm))
  rw [List.map_map, List.map_map] at this
  exact this

/-- C113: two stores that were fed with texts, whatever the frames and their order. -/
theorem C113_fed_partial (R R' : Reading) (w w' : World) (A B : List Entry) (acc acc' : List (List AOp))
    (hA : FedText R w (A.map Entry.bytes) acc) (hB : FedText R' w' (B.map Entry.bytes) acc') (cA : ∀ a ∈ A, Copyable a.2)
    (cB : ∀ b ∈ B, Copyable b.2) (h : SameEvents acc.flatten acc'.flatten) (hs : Short w.mx (A.map Entry.bytes))
    (hs' : Short w'.mx (B.map Entry.bytes)) (o : AOp) (ho : o ∈ acc.flatten) (hf : IdForm (uuid2form o.ref))
    (hn : o.ref.version = Uuid.vNAME) (hm : Mixes A (Key.ofUuids o.id o.ref)) (hm' : Mixes B (Key.ofUuids o.id o.ref)) :
    ∃ text text' ops ops', ReadsText w.mx A (Key.ofUuids o.id o.ref) text ∧
      ReadsText w'.mx B (Key.ofUuids o.id o.ref) text' ∧ Contents text ops .endOfFrame ∧ Contents text' ops' .endOfFrame ∧
      ops.map R.op = ops'.map R'.op ∧ ∃ x ∈ ops, (R.op x).body = o.body := by
  obtain ⟨H, note, A0, e, rfl, L, s, hS, K⟩ := fedText_tells R w _ acc hA
  obtain ⟨G, note', B0, e', rfl, L', t, hS', K'⟩ := fedText_tells R' w' _ acc' hB
  have hS := says_same hS e cA
  have hS' := says_same hS' e' cB
  have ev : ∀ J : List Chain, (J.map Chain.ops).flatten = eventsOf J := fun J => by
    unfold eventsOf; rw [List.flatMap]
  rw [ev] at ho h
  rw [ev] at h
  obtain ⟨c, hc, hx⟩ := Lineage.mem_events.1 ho
  rcases L.cause c hc o hx with ⟨-, h1, h2⟩ | ⟨h1, -⟩
  · rw [← h1, ← h2] at hm hm' ⊢
    rw [← h2] at hf
    obtain ⟨text, text', ops, ops', g1, g2, g3, g4, g5⟩ := C113_converge_partial R R' w.mx w'.mx H G note note' A B L
      ⟨true, s, hS, K⟩ L' ⟨true, t, hS', K'⟩ h hs hs' c hc hf hm hm'
    refine ⟨text, text', ops, ops', g1, g2, g3, g4, g5, ?_⟩
    obtain ⟨text2, ops2, k1, k2, -, k4⟩ := C113_state_partial R w.mx H note A c L ⟨true, s, hS, K⟩ hs hc hf hm
    have ht : text2 = text := by
      obtain ⟨N, g1⟩ := g1
      obtain ⟨N', k1⟩ := k1
      have e1 := g1 (max N N') (by omega)
      rw [k1 (max N N') (by omega)] at e1
      cases e1
      rfl
    rw [ht] at k2
    rw [(Chains.contents_unique g3 k2).1]
    obtain ⟨y, hy, e⟩ := (k4 o.body).2 ⟨o, Lineage.mem_in.2 ⟨c, hc, rfl, hx⟩, rfl⟩
    obtain ⟨x, hx, rfl⟩ := List.mem_map.1 hy
    exact ⟨x, hx, e⟩
  · rw [hn] at h1; exact absurd h1 (by decide)

/-! ### Arrays -/

theorem path_shape {R : Reading} {l : List OpView} {root : Uuid} {x : AOp} {p : List Uuid} (h : Path (l.map R.op) root x p) :
    ∀ o ∈ l, R.op o = x → Path (l.map shape) root (shape o) p := by
  induction h with
  | root x _ e =>
    rintro o ho rfl
    exact .root (shape o) (List.mem_map_of_mem ho) e
  | child q x p hq hx hr hlt ih =>
    rintro o ho rfl
    have hq' : q ∈ l.map R.op := by cases hq <;> assumption
    obtain ⟨o', ho', rfl⟩ := List.mem_map.1 hq'
    exact .child (shape o') (shape o) p (ih o' ho' rfl) (List.mem_map_of_mem ho) hr hlt

theorem shape_path {R : Reading} {l : List OpView} {root : Uuid} {x : AOp} {p : List Uuid} (h : Path (l.map shape) root x p) :
    ∀ o ∈ l, o.id = x.id → o.ref = x.ref → Path (l.map R.op) root (R.op o) p := by
  induction h with
  | root x _ e =>
    intro o ho h1 _
    rw [← h1]
    exact .root (R.op o) (List.mem_map_of_mem ho) (h1.trans e)
  | child q x p hq hx hr hlt ih =>
    intro o ho h1 h2
    have hq' : q ∈ l.map shape := by cases hq <;> assumption
    obtain ⟨o', ho', rfl⟩ := List.mem_map.1 hq'
    rw [← h1]
    exact .child (R.op o') (R.op o) p (ih o' ho' rfl rfl) (List.mem_map_of_mem ho) (h2.trans hr) (by
      show Uuid.lt o'.id o.id = true
      rw [h1]
      exact hlt)

theorem tree_shape {R : Reading} {l : List OpView} {root : Uuid} (h : Tree (l.map R.op) root) : Tree (l.map shape) root := by
  refine ⟨?_, fun x hx => ?_⟩
  · have := h.unique
    rw [List.map_map] at this ⊢
    exact this
  · obtain ⟨o, ho, rfl⟩ := List.mem_map.1 hx
    obtain ⟨p, hp⟩ := h.reached _ (List.mem_map_of_mem ho)
    exact ⟨p, path_shape hp o ho rfl⟩

theorem order_shape {R : Reading} {l w : List OpView} {root : Uuid} (hw : ∀ o ∈ w, o ∈ l)
    (h : InOrder (l.map R.op) root (w.map R.op)) : InOrder (l.map shape) root (w.map shape) := by
  unfold InOrder at h ⊢
  rw [List.pairwise_map] at h ⊢
  refine List.Pairwise.imp_of_mem (fun {a b} ha hb hab p q hp hq => ?_) h
  exact hab p q (shape_path hp a (hw a ha) rfl rfl) (shape_path hq b (hw b hb) rfl rfl)

theorem piece_shape {R : Reading} {l w : List OpView} {root : Uuid} (hw : ∀ o ∈ w, o ∈ l)
    (h : Piece (l.map R.op) root (w.map R.op)) : Piece (l.map shape) root (w.map shape) := by
  refine ⟨order_shape hw h.1, fun pre o post e hne => ?_⟩
  obtain ⟨pre', t, rfl, rfl, e2⟩ := List.map_eq_append_iff.1 e
  obtain ⟨o', post', rfl, rfl, rfl⟩ := List.map_eq_cons_iff.1 e2
  obtain ⟨p, hp, hpe⟩ := h.2 (pre'.map R.op) (R.op o') (post'.map R.op) (by
    rw [List.map_append, List.map_cons]) (by
      intro e
      rw [List.map_eq_nil_iff] at e
      rw [e] at hne
      exact hne rfl)
  obtain ⟨p', hp', rfl⟩ := List.mem_map.1 hp
  exact ⟨shape p', List.mem_map_of_mem hp', hpe⟩

/-- An order of what is read is an order of what is there. -/
theorem perm_lift {R : Reading} : ∀ {w : List AOp} {l : List OpView}, w.Perm (l.map R.op) → ∃ v : List OpView, v.Perm l ∧ v.map R.op = w
  | [], l, h => by
    have := h.symm.eq_nil
    rw [List.map_eq_nil_iff] at this
    exact ⟨[], by rw [this], rfl⟩
  | x :: w, l, h => by
    obtain ⟨o, ho, rfl⟩ := List.mem_map.1 (h.subset List.mem_cons_self)
    obtain ⟨p, q, rfl⟩ := List.append_of_mem ho
    have h2 : (R.op o :: w).Perm (R.op o :: (p ++ q).map R.op) := by
      refine h.trans ?_
      rw [← List.map_cons (f := R.op)]
      exact List.perm_middle.map R.op
    obtain ⟨v, hv, e⟩ := perm_lift (List.Perm.cons_inv h2)
    exact ⟨o :: v, (List.Perm.cons o hv).trans List.perm_middle.symm, by rw [List.map_cons, e]⟩

/-- The text of the state of an array. -/
theorem array_text (R : Reading) (mx : MaxReducer) (H : List Chain) (note : Uuid → List Nat) (A : List Entry)
    (c : Chain) (L : Lineage H) (hT : TellsAs true R H note A) (hs : Short mx (A.map Entry.bytes)) (hc : c ∈ H)
    (hf : uuid2form c.rdt = Form.RGA) (hlen : (H.filter fun d => decide (d.object = c.object)).length ≤ 3)
    (hm : Mixable (opsAt A (Key.ofUuids c.object c.rdt))) (hl : (opsAt A (Key.ofUuids c.object c.rdt)).length < 2 ^ 31) :
    ∃ text ops, ReadsText mx A (Key.ofUuids c.object c.rdt) text ∧ Copyable (text, saidBy (mergedSteps ops)) ∧
      (∀ o ∈ ops, o ∈ opsAt A (Key.ofUuids c.object c.rdt)) ∧ ops.length = (opsAt A (Key.ofUuids c.object c.rdt)).length ∧
      Tree ((eventsIn H c.object).map bare) c.object ∧ IsWeave ((eventsIn H c.object).map bare) c.object (ops.map R.op) := by
  obtain ⟨s, hS, K⟩ := hT
  have hform : (Key.ofUuids c.object c.rdt).form = Form.RGA := by rw [← hf]; exact form_mk _ _
  have hne : Key.ofUuids c.object c.rdt ≠ Key.END := key_ne_end (stateForm_ne (Or.inr hf)).2.2.2
  generalize hk : Key.ofUuids c.object c.rdt = k at *
  have hb : ((opsAt A k).map R.op).map AOp.body = (eventsIn H c.object).map AOp.body := by
    rw [opsAt_body hS, ← hk]
    exact state_bodies L K hc
  have htree := tree_of_bodies hb (C102_tree H L c.object)
  have hat := says_at hS k
  have hrec : ∀ i ∈ entriesAt A k, ∃ d ∈ H, (i.2.map fun x => R.op x.2).map AOp.body = d.ops.map AOp.body := by
    intro i hi
    obtain ⟨f, hf, -, e⟩ := same2_mem hat i hi
    rw [← hk] at hf
    obtain ⟨d, hd, -, e2⟩ := state_record L K hc hf
    refine ⟨d, hd, ?_⟩
    rw [← e2, e, List.map_map]
    rfl
  have hfl : ((entriesAt A k).map fun i => i.2.map fun x => R.op x.2).flatten = (opsAt A k).map R.op := by
    unfold opsAt allOps
    rw [List.map_flatten, List.map_map]
    congr 1
    apply List.map_congr_left
    intro i _
    show _ = (i.2.map Prod.snd).map R.op
    rw [List.map_map]
    rfl
  have hlen' : (entriesAt A k).length ≤ 3 := by
    rw [TextMerge.same2_length hat, ← hk, show stored (Key.ofUuids c.object c.rdt) s = _ from C101_state H note s L K c hc,
      List.length_map]
    exact hlen
  have hsome : entriesAt A k ≠ [] := by
    intro h0
    have h1 : punctuate c.ops ∈ stored k s := by rw [← hk]; exact state_some L K hc
    rw [h0] at hat
    generalize stored k s = fs at hat h1
    cases hat
    cases h1
  have hpc : ∀ i ∈ entriesAt A k, i.2 ≠ [] ∧ Piece ((opsAt A k).map R.op) c.object (i.2.map fun x => R.op x.2) := by
    intro i hi
    obtain ⟨d, hd, e⟩ := hrec i hi
    refine ⟨fun h0 => ?_, chain_piece htree (fun o ho => ?_) (chain_links (L.proper d hd).chained e)
      (sorted_of_bodies e (chain_sorted (L.proper d hd).chained))⟩
    · rw [h0] at e
      cases e
    · rw [← hfl]
      exact List.mem_flatten.2 ⟨_, List.mem_map_of_mem hi, ho⟩
  obtain ⟨-, w, -, -, hw⟩ := C30_weave_partial tView c.object ((entriesAt A k).map fun i => i.2.map fun x => R.op x.2)
    (by rw [hfl]; exact htree) (by
      intro f hf
      obtain ⟨i, hi, rfl⟩ := List.mem_map.1 hf
      rw [hfl]
      refine ⟨fun h0 => (hpc i hi).1 (List.map_eq_nil_iff.1 h0), (hpc i hi).2⟩)
    (by rw [List.length_map]; exact hlen') (fun h0 => hsome (List.map_eq_nil_iff.1 h0))
  rw [hfl] at hw
  obtain ⟨v, hv, rfl⟩ := perm_lift hw.1
  have hsub : ∀ o ∈ v, o ∈ opsAt A k := fun o ho => hv.subset ho
  obtain ⟨cs, e1, hcs⟩ := TextMerge.firsts_ok (says_copyable hS k)
  obtain ⟨n, b, text, b', a1, a2, a3, a4⟩ := TextMerge.weave_ok (tree_shape htree)
    (by
      intro i hi
      refine ⟨(hpc i hi).1, ?_⟩
      have := piece_shape (R := R) (l := opsAt A k) (w := i.2.map Prod.snd) (root := c.object) (fun o ho => by
        obtain ⟨x, hx, rfl⟩ := List.mem_map.1 ho
        exact opsAt_mem hi hx) (by
          rw [List.map_map]
          exact (hpc i hi).2)
      rw [List.map_map] at this
      exact this) hlen' hsome hv (order_shape hsub hw.2) hcs (TextMerge.mixable_clean hm hsub) (by
        rw [hv.length_eq]; exact hl)
  have g1 : MergesAs mx Form.RGA ((entriesAt A k).map Prod.fst) (Status.OK, text) := mergesAs_ok (n := n) e1 a1 a2
  have hr := read_ok (A := A) (k := k) (text := text) hne hsome (by rw [hform]; exact g1)
  obtain ⟨t1, t2⟩ := weave_bare htree (B := (eventsIn H c.object).map bare) (by
    rw [List.map_map]; exact L.in_nodup c.object) (by
      intro o
      have hse := same_of_bodies hb
      rw [List.mem_map]
      constructor
      · rintro ⟨a, ha, rfl⟩
        obtain ⟨a', ha', ea⟩ := (hse a.body).2 ⟨a, ha, rfl⟩
        exact ⟨a', ha', bare_eq ea⟩
      · rintro ⟨a, ha, rfl⟩
        obtain ⟨a', ha', ea⟩ := (hse a.body).1 ⟨a, ha, rfl⟩
        exact ⟨a', ha', bare_eq ea⟩) hw
  have hsize : text.length < 2 ^ 30 := by
    obtain ⟨N, hr⟩ := hr
    exact hs N _ text (hr N (Nat.le_refl _))
  refine ⟨text, v, hr, ⟨a3, hsize, a4, copyOk_out (says_copyable hS _) hsub⟩, hsub, hv.length_eq, t1, ?_⟩
  rw [List.map_map] at t2
  exact t2

/-- C113: the state of an array that came in no more than three chains reads as the weave of its events. -/
theorem C113_array_partial (R : Reading) (mx : MaxReducer) (H : List Chain) (note : Uuid → List Nat) (A : List Entry)
    (c : Chain) (L : Lineage H) (hT : TellsAs true R H note A) (hs : Short mx (A.map Entry.bytes)) (hc : c ∈ H)
    (hf : uuid2form c.rdt = Form.RGA) (hlen : (H.filter fun d => decide (d.object = c.object)).length ≤ 3)
    (hm : Mixable (opsAt A (Key.ofUuids c.object c.rdt))) (hl : (opsAt A (Key.ofUuids c.object c.rdt)).length < 2 ^ 31) :
    ∃ text ops, ReadsText mx A (Key.ofUuids c.object c.rdt) text ∧ Contents text ops .endOfFrame ∧
      Tree ((eventsIn H c.object).map bare) c.object ∧ IsWeave ((eventsIn H c.object).map bare) c.object (ops.map R.op) := by
  obtain ⟨text, ops, h1, h2, -, -, h3, h4⟩ := array_text R mx H note A c L hT hs hc hf hlen hm hl
  exact ⟨text, ops, h1, contents_merged h2, h3, h4⟩

/-- C113: two stores of texts that have the same events read the same arrays, each of no more than three chains. -/
theorem C113_arrays_partial (R R' : Reading) (mx mx' : MaxReducer) (H G : List Chain) (note note' : Uuid → List Nat)
    (A B : List Entry) (L : Lineage H) (hT : TellsAs true R H note A) (L' : Lineage G) (hT' : TellsAs true R' G note' B)
    (h : SameEvents (eventsOf H) (eventsOf G)) (hs : Short mx (A.map Entry.bytes)) (hs' : Short mx' (B.map Entry.bytes))
    (c : Chain) (hc : c ∈ H) (hf : uuid2form c.rdt = Form.RGA)
    (hlen : (H.filter fun d => decide (d.object = c.object)).length ≤ 3)
    (hlen' : (G.filter fun d => decide (d.object = c.object)).length ≤ 3)
    (hm : Mixable (opsAt A (Key.ofUuids c.object c.rdt))) (hm' : Mixable (opsAt B (Key.ofUuids c.object c.rdt)))
    (hl : (opsAt A (Key.ofUuids c.object c.rdt)).length < 2 ^ 31)
    (hl' : (opsAt B (Key.ofUuids c.object c.rdt)).length < 2 ^ 31) :
    ∃ text text' ops ops', ReadsText mx A (Key.ofUuids c.object c.rdt) text ∧
      ReadsText mx' B (Key.ofUuids c.object c.rdt) text' ∧ Contents text ops .endOfFrame ∧ Contents text' ops' .endOfFrame ∧
      ops.map R.op = ops'.map R'.op := by
  obtain ⟨d, hd, hdh⟩ := (Lineage.known_same h).1 ⟨c, hc, c.head, List.mem_cons_self, rfl⟩
  obtain ⟨e1, e2⟩ := L.agree L' h _ _ (Nat.lt_succ_self _) c hc d hd ⟨c.head, List.mem_cons_self, rfl⟩ hdh
  obtain ⟨text, ops, h1, h2, h3, h4⟩ := C113_array_partial R mx H note A c L hT hs hc hf hlen hm hl
  rw [e1, e2] at hm' hl'
  rw [e1] at hlen'
  obtain ⟨text', ops', g1, g2, g3, g4⟩ := C113_array_partial R' mx' G note' B d L' hT' hs' hd (by rw [← e2]; exact hf) hlen' hm' hl'
  rw [← e1, ← e2] at g1
  rw [← e1] at g3 g4
  refine ⟨text, text', ops, ops', h1, g1, h2, g2, ?_⟩
  have hse := L.objects_same L' h c.object
  have same : ∀ o, o ∈ (eventsIn H c.object).map bare ↔ ∃ a ∈ (eventsIn G c.object).map bare, bare a = o := by
    intro o
    constructor
    · intro ho
      obtain ⟨a, ha, rfl⟩ := List.mem_map.1 ho
      obtain ⟨b, hb, e⟩ := (hse a.body).1 ⟨a, ha, rfl⟩
      exact ⟨bare b, List.mem_map_of_mem hb, bare_eq e⟩
    · rintro ⟨a, ha, rfl⟩
      obtain ⟨b, hb, rfl⟩ := List.mem_map.1 ha
      obtain ⟨a, ha, e⟩ := (hse b.body).2 ⟨b, hb, rfl⟩
      exact List.mem_map.2 ⟨a, ha, bare_eq e⟩
  obtain ⟨-, k⟩ := weave_bare g3 h3.unique same g4
  have := Rdt.weave_unique h3 h4 k
  rw [this, List.map_map]
  rfl

/-! ### C113 is violated -/

theorem readsText_of {mx : MaxReducer} {A : List Entry} {k : Key} {text : List Byte} (n : Nat)
    (h : TextReplica.read mx n (A.map Entry.bytes) k = .ok (some (Status.OK, text))) : ReadsText mx A k text := by
  refine ⟨n, fun m hm => ?_⟩
  obtain ⟨j, rfl⟩ : ∃ j, m = n + j := ⟨m - n, by omega⟩
  exact read_mono h j

theorem readsText_unique {mx : MaxReducer} {A : List Entry} {k : Key} {t t' : List Byte} (h : ReadsText mx A k t)
    (h' : ReadsText mx A k t') : t = t' := by
  obtain ⟨N, h⟩ := h
  obtain ⟨N', h'⟩ := h'
  have := h (max N N') (by omega)
  rw [h' _ (by omega)] at this
  cases this
  rfl

/-- The history that a store of concrete chains holds, chain by chain. -/
theorem tellsAs_lit (l : List (AOp × List AOp)) (hp : ∀ c ∈ l, Spec.Proper c.1 c.2) (hg : good111 newStore Uuid.NIL l = true)
    (hs : ((fold111 newStore Uuid.NIL l).all fun r => copyable84 (callsOf r.2) &&
      decide (r.2.map AOp.body = (frame84 (callsOf r.2)).2.map fun x => (ascii.op x.2).body)) = true) :
    ∃ H note, Lineage H ∧ TellsAs true ascii H note (texts (fold111 newStore Uuid.NIL l)) ∧
      H.map Chain.ops = l.map fun c => c.1 :: c.2 := by
  obtain ⟨H, note, e, L, K⟩ := C101_history _ _ _ (fed111_run l Fed.new (.inl rfl) hp hg)
  exact ⟨H, note, L, ⟨_, says_lit hs, K⟩, e⟩

/-- The chain that made an object. -/
theorem made_lit {l : List (AOp × List AOp)} {H : List Chain} (L : Lineage H)
    (e : H.map Chain.ops = l.map fun c => c.1 :: c.2) {x : AOp × List AOp} (hx : x ∈ l)
    (hn : x.1.ref.version = Uuid.vNAME) : ∃ c ∈ H, c.object = x.1.id ∧ c.rdt = x.1.ref := by
  have : x.1 :: x.2 ∈ H.map Chain.ops := by rw [e]; exact List.mem_map_of_mem hx
  obtain ⟨c, hc, hce⟩ := List.mem_map.1 this
  rcases L.cause c hc x.1 (by rw [hce]; exact List.mem_cons_self) with ⟨-, h1, h2⟩ | ⟨h1, -⟩
  · exact ⟨c, hc, h1, h2⟩
  · rw [hn] at h1; exact absurd h1 (by decide)

/-- A yarn, a register and two chains of it that both refer to the first op. -/
def bad113 : List (AOp × List AOp) :=
  [(op2 (tA 1) (formUuid Form.YARN), []), (op2 (tA 2) (formUuid Form.LWW), []),
   (op2 (tA 3) (tA 2) [.uuid (formUuid Form.RGA), .int 1], []), (op2 (tA 4) (tA 2) [.uuid (formUuid Form.RGA), .int 2], [])]

def key113 : Key := Key.ofUuids (tA 2) (formUuid Form.LWW)

/-- The state is read, and it is not a text that can be read to its end. -/
def wrong113 (l : List (AOp × List AOp)) : Bool :=
  match TextReplica.read noMax 20 ((texts (fold111 newStore Uuid.NIL l)).map Entry.bytes) key113 with
  | .ok (some (st, t)) => decide (st = Status.OK) &&
    match readOps 20 t with
    | .ok (some (_, e)) => decide (e ≠ .endOfFrame)
    | _ => false
  | _ => false

/-- C113 is violated: the third op of the register has the next id after the second one and refers to the first; only
the reference is written, and the state is not read to its end (`C84_violated`). -/
theorem C113_violated : ¬ C113_claim := by
  intro hc
  obtain ⟨H, note, L, ⟨s, hS, K⟩, e⟩ := tellsAs_lit bad113 (by
    refine fed111_proper fun x hx => ?_
    simp only [bad113, List.mem_cons, List.not_mem_nil, or_false] at hx
    unfold Stamp
    rcases hx with rfl | rfl | rfl | rfl <;> unfold ChainedTo <;> unfold op2 <;> decide +kernel)
    (by decide +kernel) (by decide +kernel)
  obtain ⟨c, h1, h2, h3⟩ := made_lit L e (x := (op2 (tA 2) (formUuid Form.LWW), [])) (by simp [bad113]) (by decide +kernel)
  obtain ⟨text, ops, g1, g2, -⟩ := hc ascii noMax H note _ c L ⟨true, s, hS, K⟩ (short_lit 20 (by decide +kernel)) h1
    (by rw [h3]; unfold IdForm; decide +kernel)
  rw [h2, h3] at g1
  have k : wrong113 bad113 = true := by decide +kernel
  unfold wrong113 at k
  split at k
  · rename_i st t ht
    rw [Bool.and_eq_true] at k
    obtain ⟨k0, k⟩ := k
    rw [of_decide_eq_true k0] at ht
    split at k
    · rename_i ops' en ho
      have ht := readsText_unique g1 (readsText_of 20 ht)
      subst ht
      exact of_decide_eq_true k (Chains.contents_unique g2 (contents_of 20 ho)).2.symm
    · cases k
  · cases k

/-! ### The hypotheses hold -/

/-- The register of `C111`, and the same events in other chains. -/
def lww113 : List (AOp × List AOp) :=
  [(op2 (tA 1) (formUuid Form.YARN), []), (op2 (tA 2) (formUuid Form.LWW), []),
   (op2 (tA 3) (tA 2) [.uuid (formUuid Form.RGA), .int 7], [op2 (tA 5) (tA 3) [.uuid (formUuid Form.LWW), .str [97, 98]]]),
   (op2 (tA 8) (tA 5) [.uuid (formUuid Form.LWW), .int 5], [])]

theorem lww111_proper : ∀ c ∈ lww111, Spec.Proper c.1 c.2 := by
  refine fed111_proper fun x hx => ?_
  simp only [lww111, List.mem_cons, List.not_mem_nil, or_false] at hx
  unfold Stamp
  rcases hx with rfl | rfl | rfl <;> (try unfold ChainedTo) <;> (try unfold ChainedTo) <;> unfold op2 <;> decide +kernel

theorem lww113_proper : ∀ c ∈ lww113, Spec.Proper c.1 c.2 := by
  refine fed111_proper fun x hx => ?_
  simp only [lww113, List.mem_cons, List.not_mem_nil, or_false] at hx
  unfold Stamp
  rcases hx with rfl | rfl | rfl | rfl <;> (try unfold ChainedTo) <;> (try unfold ChainedTo) <;> unfold op2 <;> decide +kernel

theorem events_lit {l : List (AOp × List AOp)} {H : List Chain} (e : H.map Chain.ops = l.map fun c => c.1 :: c.2) :
    eventsOf H = (l.map fun c => c.1 :: c.2).flatten := by
  rw [← e]
  unfold eventsOf
  rw [List.flatMap]

/-- Two stores that got the events of a register in different chains: the state is there, it has four ops, and it is the
same. -/
example : ∃ H G note note' c, Lineage H ∧ TellsAs true ascii H note (texts (fold111 newStore Uuid.NIL lww111)) ∧ Lineage G ∧
    TellsAs true ascii G note' (texts (fold111 newStore Uuid.NIL lww113)) ∧ SameEvents (eventsOf H) (eventsOf G) ∧
    TextReplica.Short noMax ((texts (fold111 newStore Uuid.NIL lww111)).map Entry.bytes) ∧
    TextReplica.Short noMax ((texts (fold111 newStore Uuid.NIL lww113)).map Entry.bytes) ∧ c ∈ H ∧ IdForm (uuid2form c.rdt) ∧
    Key.ofUuids c.object c.rdt = key113 ∧ Mixes (texts (fold111 newStore Uuid.NIL lww111)) key113 ∧
    Mixes (texts (fold111 newStore Uuid.NIL lww113)) key113 ∧
    (opsAt (texts (fold111 newStore Uuid.NIL lww111)) key113).length = 4 := by
  obtain ⟨H, note, L, hT, e⟩ := tellsAs_lit lww111 lww111_proper (by decide +kernel) (by decide +kernel)
  obtain ⟨G, note', L', hT', e'⟩ := tellsAs_lit lww113 lww113_proper (by decide +kernel) (by decide +kernel)
  obtain ⟨c, h1, h2, h3⟩ := made_lit L e
    (x := (op2 (tA 2) (formUuid Form.LWW), [op2 (tA 3) (tA 2) [.uuid (formUuid Form.RGA), .int 7]])) (by simp [lww111])
    (by decide +kernel)
  refine ⟨H, G, note, note', c, L, hT, L', hT', same_of_bodies ?_, short_lit 20 (by decide +kernel),
    short_lit 20 (by decide +kernel), h1, by rw [h3]; unfold IdForm; decide +kernel, by rw [h2, h3]; rfl,
    ⟨by decide +kernel, by decide +kernel, by decide +kernel⟩, ⟨by decide +kernel, by decide +kernel, by decide +kernel⟩,
    by decide +kernel⟩
  rw [events_lit e, events_lit e']
  decide +kernel

/-- An array that came in three chains, or in two. -/
def rga113 : List (AOp × List AOp) :=
  [(op2 (tA 1) (formUuid Form.YARN), []), (op2 (tA 2) (formUuid Form.RGA), []),
   (op2 (tA 4) (tA 2) [.str [97, 98]], [op2 (tA 6) (tA 4) [.str [99, 100]]]), (op2 (tA 8) (tA 4) [.str [101, 102]], [])]

def rga113' : List (AOp × List AOp) :=
  [(op2 (tA 1) (formUuid Form.YARN), []),
   (op2 (tA 2) (formUuid Form.RGA), [op2 (tA 4) (tA 2) [.str [97, 98]], op2 (tA 6) (tA 4) [.str [99, 100]]]),
   (op2 (tA 8) (tA 4) [.str [101, 102]], [])]

theorem rga113_proper : ∀ c ∈ rga113, Spec.Proper c.1 c.2 := by
  refine fed111_proper fun x hx => ?_
  simp only [rga113, List.mem_cons, List.not_mem_nil, or_false] at hx
  unfold Stamp
  rcases hx with rfl | rfl | rfl | rfl <;> (try unfold ChainedTo) <;> (try unfold ChainedTo) <;> unfold op2 <;> decide +kernel

theorem rga113'_proper : ∀ c ∈ rga113', Spec.Proper c.1 c.2 := by
  refine fed111_proper fun x hx => ?_
  simp only [rga113', List.mem_cons, List.not_mem_nil, or_false] at hx
  unfold Stamp
  rcases hx with rfl | rfl | rfl <;> (try unfold ChainedTo) <;> (try unfold ChainedTo) <;> (try unfold ChainedTo) <;> unfold op2 <;> decide +kernel

def keyR113 : Key := Key.ofUuids (tA 2) (formUuid Form.RGA)

theorem filter_len {l : List (AOp × List AOp)} {H : List Chain} (e : H.map Chain.ops = l.map fun c => c.1 :: c.2) {n : Nat}
    (p : Chain → Bool) (hn : ∃ c ∈ H, p c = false) (h : l.length ≤ n + 1) : (H.filter p).length ≤ n := by
  have h1 : H.length = l.length := by
    have := congrArg List.length e
    rwa [List.length_map, List.length_map] at this
  obtain ⟨c, hc, hp⟩ := hn
  have : (H.filter p).length < H.length := by
    rw [List.length_filter_lt_length_iff_exists]
    exact ⟨c, hc, by rw [hp]; simp⟩
  omega

example : ∃ H G note note' c, Lineage H ∧ TellsAs true ascii H note (texts (fold111 newStore Uuid.NIL rga113)) ∧ Lineage G ∧
    TellsAs true ascii G note' (texts (fold111 newStore Uuid.NIL rga113')) ∧ SameEvents (eventsOf H) (eventsOf G) ∧
    TextReplica.Short noMax ((texts (fold111 newStore Uuid.NIL rga113)).map Entry.bytes) ∧
    TextReplica.Short noMax ((texts (fold111 newStore Uuid.NIL rga113')).map Entry.bytes) ∧ c ∈ H ∧
    uuid2form c.rdt = Form.RGA ∧ (H.filter fun d => decide (d.object = c.object)).length ≤ 3 ∧
    (G.filter fun d => decide (d.object = c.object)).length ≤ 3 ∧ Key.ofUuids c.object c.rdt = keyR113 ∧
    Mixable (opsAt (texts (fold111 newStore Uuid.NIL rga113)) keyR113) ∧
    Mixable (opsAt (texts (fold111 newStore Uuid.NIL rga113')) keyR113) ∧
    (opsAt (texts (fold111 newStore Uuid.NIL rga113)) keyR113).length = 4 := by
  obtain ⟨H, note, L, hT, e⟩ := tellsAs_lit rga113 rga113_proper (by decide +kernel) (by decide +kernel)
  obtain ⟨G, note', L', hT', e'⟩ := tellsAs_lit rga113' rga113'_proper (by decide +kernel) (by decide +kernel)
  obtain ⟨c, h1, h2, h3⟩ := made_lit L e (x := (op2 (tA 2) (formUuid Form.RGA), [])) (by simp [rga113]) (by decide +kernel)
  obtain ⟨y, y1, y2, y3⟩ := made_lit L e (x := (op2 (tA 1) (formUuid Form.YARN), [])) (by simp [rga113]) (by decide +kernel)
  have hy : decide (y.object = c.object) = false := by rw [y2, h2]; decide +kernel
  refine ⟨H, G, note, note', c, L, hT, L', hT', same_of_bodies ?_, short_lit 20 (by decide +kernel),
    short_lit 20 (by decide +kernel), h1, by rw [h3]; decide +kernel, filter_len e _ ⟨y, y1, hy⟩ (by decide), ?_,
    by rw [h2, h3]; rfl, by decide +kernel, by decide +kernel, by decide +kernel⟩
  · rw [events_lit e, events_lit e']
    decide +kernel
  · refine Nat.le_trans (List.length_filter_le _ _) ?_
    have := congrArg List.length e'
    rw [List.length_map, List.length_map] at this
    rw [this]
    decide

/-! Stores that are fed with texts. -/

def world113 : World := ⟨noMax, fun _ _ _ => [], fun _ => [], fun _ => []⟩

theorem notes113 : PlainNotes world113 := fun _ => by
  have h : (∀ b ∈ ([] : List Byte), 32 < b.toNat ∧ b.toNat < 127 ∧ b.toNat ≠ 39 ∧ b.toNat ≠ 92) ∧
    ([] : List Byte).length < 100 := by decide
  exact h

def plainRuns : List OpView → Bool
  | [] => true
  | [_] => true
  | p :: o :: l => (!folds p.id p.vals o || copyHeadOk p.vals) && plainRuns (o :: l)

theorem plainRuns_ok : ∀ {l : List OpView}, plainRuns l = true → PlainRuns l
  | [], _ => trivial
  | [_], _ => trivial
  | p :: o :: l, h => by
    rw [plainRuns, Bool.and_eq_true] at h
    refine ⟨fun e => ?_, plainRuns_ok h.2⟩
    have := h.1
    rw [e] at this
    exact this

/-- The records of a store. -/
def store113 (s : MemStore) : Bool :=
  (s.all fun r => copyable84 (callsOf r.2) &&
    decide (r.2.map AOp.body = (frame84 (callsOf r.2)).2.map fun x => (ascii.op x.2).body)) &&
  ((texts s).all fun a =>
    decide ((a.1.form = Form.LOG ∨ a.1.form = Form.YARN → Mixable (opsAt (texts s) a.1)) ∧
      (a.1.form = Form.LOG → ∀ p ∈ opsAt (texts s) a.1, ∀ o ∈ opsAt (texts s) a.1, folds p.id p.vals o = false) ∧
      (a.1.form = Form.YARN → OneOpPerId (entriesAt (texts s) a.1)) ∧ (opsAt (texts s) a.1).length < 2 ^ 31) &&
    (match TextReplica.read noMax 20 ((texts s).map Entry.bytes) a.1 with
      | .ok (some r) => decide (r.2.length < 2 ^ 30) | _ => false)) &&
  (opsAt (texts s) Key.ZERO).all fun o => decide (o.id ≠ Uuid.NIL.inc)

/-- A chain is a text that is received, and then the records are those of the next store. -/
def step113 (s : MemStore) (tip : Uuid) (c : AOp × List AOp) : Bool :=
  store113 s && copyable84 (callsOf (c.1 :: c.2)) &&
  (match (frame84 (callsOf (c.1 :: c.2))).2 with
    | [] => false
    | x :: post => decide ((x :: post).length < 100) && decide (x.1 ≠ 3) && decide (ascii.op x.2 = c.1) &&
        decide ((post.map fun y => ascii.op y.2) = c.2) && plainRuns (x.2 :: post.map Prod.snd) && copyLit (.uuid x.2.id)) &&
  (match TextReplica.receive world113 20 ((texts s).map Entry.bytes) tip 0#64 (frame84 (callsOf (c.1 :: c.2))).1 with
    | .ok (some (.done st T _)) => st.ok && decide (T = (texts (after (rcv s tip (c.1 :: c.2)))).map Entry.bytes) &&
        T.all fun r => decide (r.2.length < 2 ^ 30)
    | _ => false)

def steps113 (s : MemStore) (tip : Uuid) : List (AOp × List AOp) → Bool
  | [] => true
  | c :: l => step113 s tip c && steps113 (after (rcv s tip (c.1 :: c.2))) (lastOf c.1.id c.2) l

theorem fedText_run : ∀ (l : List (AOp × List AOp)) {s : MemStore} {tip : Uuid} {acc : List (List AOp)},
    FedText ascii world113 ((texts s).map Entry.bytes) acc → (tip = Uuid.NIL ∨ ∃ f ∈ acc, ∃ x ∈ f, x.id = tip) →
    (∀ c ∈ l, Spec.Proper c.1 c.2) → steps113 s tip l = true →
    FedText ascii world113 ((texts (fold111 s tip l)).map Entry.bytes) (acc ++ l.map fun c => c.1 :: c.2)
  | [], s, tip, acc, h, _, _, _ => by rw [List.map_nil, List.append_nil]; exact h
  | c :: l, s, tip, acc, h, ht, hp, hg => by
    rw [steps113, step113, store113] at hg
    simp only [Bool.and_eq_true] at hg
    obtain ⟨⟨⟨⟨⟨⟨g1, g2⟩, g3⟩, g4⟩, g5⟩, g6⟩, g7⟩ := hg
    split at g5
    · cases g5
    · rename_i x post e5
      simp only [Bool.and_eq_true, decide_eq_true_eq] at g5
      obtain ⟨⟨⟨⟨⟨f1, f2⟩, f3⟩, f4⟩, f5⟩, f6⟩ := g5
      split at g6
      · rename_i st T now' e6
        simp only [Bool.and_eq_true, decide_eq_true_eq] at g6
        obtain ⟨⟨k1, k2⟩, k3⟩ := g6
        have hS : Says ascii (texts s) s := says_lit g1
        have step := FedText.frame (R := ascii) (w := world113) (A := texts s) (tip := tip) (now := 0#64) (x := x) (post := post) h
          (fun a ha => by
            obtain ⟨r, -, h⟩ := same2_mem hS a ha
            exact h.2.1)
          (legible_lit (fun a ha => by
              have := List.all_eq_true.1 g2 a ha
              rw [Bool.and_eq_true] at this
              exact of_decide_eq_true this.1) (fun o ho => of_decide_eq_true (List.all_eq_true.1 g3 o ho)))
          (short_lit 20 fun a ha => by
              have := List.all_eq_true.1 g2 a ha
              rw [Bool.and_eq_true] at this
              exact this.2) ht
          (chainText_lit g4 e5 f1 f2 (by rw [f3, f4]; exact hp c List.mem_cons_self) (plainRuns_ok f5) f6) notes113
          (shortRecords_lit 20 (by rw [e6]; exact k3)) e6
        rw [if_pos k1, List.map_cons, f3, f4] at step
        rw [k2] at step
        rw [List.map_cons, fold111, show acc ++ (c.1 :: c.2) :: l.map (fun c => c.1 :: c.2) =
          (acc ++ [c.1 :: c.2]) ++ l.map (fun c => c.1 :: c.2) by simp]
        refine fedText_run l step ?_ (fun x hx => hp x (List.mem_cons_of_mem _ hx)) g7
        obtain ⟨y, hy, e⟩ := lastOf_mem c.1 c.2
        exact .inr ⟨c.1 :: c.2, by simp, y, hy, e⟩
      · cases g6

theorem fedText_lit (l : List (AOp × List AOp)) (hp : ∀ c ∈ l, Spec.Proper c.1 c.2)
    (hg : steps113 newStore Uuid.NIL l = true) :
    FedText ascii world113 ((texts (fold111 newStore Uuid.NIL l)).map Entry.bytes) (l.map fun c => c.1 :: c.2) := by
  have := fedText_run l (FedText.new (w := world113) (says_lit (s := newStore) (by decide +kernel))) (.inl rfl) hp hg
  rwa [List.nil_append] at this

/-- The two stores of the register, fed with three texts and with four. -/
example : ∃ acc acc' : List (List AOp), ∃ o,
    FedText ascii world113 ((texts (fold111 newStore Uuid.NIL lww111)).map Entry.bytes) acc ∧
    FedText ascii world113 ((texts (fold111 newStore Uuid.NIL lww113)).map Entry.bytes) acc' ∧
    (∀ a ∈ texts (fold111 newStore Uuid.NIL lww111), Copyable a.2) ∧ (∀ a ∈ texts (fold111 newStore Uuid.NIL lww113), Copyable a.2) ∧
    SameEvents acc.flatten acc'.flatten ∧ acc.length = 3 ∧ acc'.length = 4 ∧
    TextReplica.Short world113.mx ((texts (fold111 newStore Uuid.NIL lww111)).map Entry.bytes) ∧
    TextReplica.Short world113.mx ((texts (fold111 newStore Uuid.NIL lww113)).map Entry.bytes) ∧ o ∈ acc.flatten ∧
    IdForm (uuid2form o.ref) ∧ o.ref.version = Uuid.vNAME ∧
    Mixes (texts (fold111 newStore Uuid.NIL lww111)) (Key.ofUuids o.id o.ref) ∧
    Mixes (texts (fold111 newStore Uuid.NIL lww113)) (Key.ofUuids o.id o.ref) := by
  have copy : ∀ {s : MemStore}, (s.all fun r => copyable84 (callsOf r.2)) = true → ∀ a ∈ texts s, Copyable a.2 := by
    intro s h a ha
    obtain ⟨r, hr, rfl⟩ := List.mem_map.1 ha
    exact copyable_lit (List.all_eq_true.1 h r hr)
  refine ⟨_, _, op2 (tA 2) (formUuid Form.LWW), fedText_lit lww111 lww111_proper (by decide +kernel),
    fedText_lit lww113 lww113_proper (by decide +kernel), copy (by decide +kernel), copy (by decide +kernel),
    same_of_bodies (by decide +kernel), rfl, rfl, short_lit 20 (by decide +kernel), short_lit 20 (by decide +kernel),
    by simp [lww111], by unfold IdForm; decide +kernel, by decide +kernel,
    ⟨by decide +kernel, by decide +kernel, by decide +kernel⟩, ⟨by decide +kernel, by decide +kernel, by decide +kernel⟩⟩

end Ron.Props
