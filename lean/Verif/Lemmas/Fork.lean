import Verif.Spec.Fork
import Verif.Props.LineageSame
import Verif.Props.LineageFrames
/-!
The branches of a replica and their histories.
-/
namespace Ron.Spec
open Ron Host Commit Props

theorem Carries.weaken {wh : Bool} {H : List Chain} {note : Uuid → List Nat} {s : MemStore} (K : Carries wh H note s) :
    Carries false H note s := by
  refine ⟨⟨K.sorted, K.log, K.full, K.index, fun k h1 h2 h3 => ?_, K.tips⟩, K.tip⟩
  have h := K.state k h1 h2 h3
  exact ⟨h.part, h.some, h.order, h.all, fun h => by cases h⟩

theorem yarn_proper {id : Uuid} (hs : Stamp id) (hp : id.origin.payload ≠ 0) :
    Proper (Chain.yarn id).head (Chain.yarn id).rest := by
  refine ⟨by show Term.raw ≠ Term.query; decide, hs, hp, trivial, hs, fun h => ?_, fun _ => Or.inr ?_⟩
  · exact absurd (show (formUuid Form.YARN).version = Uuid.vTIME from h) (by decide)
  · show uuid2form (formUuid Form.YARN) ∈ types
    decide +kernel

theorem yarn_cause {H : List Chain} {id : Uuid} (h : ∀ i, Known H i → i.origin ≠ id.origin) : Follows H (Chain.yarn id) :=
  ⟨Or.inl ⟨rfl, h⟩, Or.inl ⟨by show (formUuid Form.YARN).version = _; decide,
    by show uuid2form (formUuid Form.YARN) ≠ _; decide +kernel, rfl, rfl⟩⟩

theorem yarn_lineage {id : Uuid} (hs : Stamp id) (hp : id.origin.payload ≠ 0) : Lineage [Chain.yarn id] := by
  have := Lineage.add Lineage.nil (yarn_proper hs hp) (yarn_cause (H := []) fun i ⟨c, hc, _⟩ => by cases hc)
  exact this

/-- A yarn that nothing is known of may as well have come first. -/
theorem lineage_after {H : List Chain} (L : Lineage H) {id : Uuid} (hs : Stamp id) (hp : id.origin.payload ≠ 0)
    (hn : ∀ i, Known H i → i.origin ≠ id.origin) : Lineage ([Chain.yarn id] ++ H) := by
  induction L with
  | nil => exact yarn_lineage hs hp
  | @add H c L P F ih =>
    rw [← List.append_assoc]
    have hk : ∀ i, Known ([Chain.yarn id] ++ H) i ↔ i = id ∨ Known H i := by
      intro i
      constructor
      · rintro ⟨d, hd, o, ho, e⟩
        rcases List.mem_append.1 hd with hd | hd
        · rw [List.mem_singleton.1 hd] at ho
          have : o = (Chain.yarn id).head := List.mem_singleton.1 ho
          rw [this] at e
          exact Or.inl e.symm
        · exact Or.inr ⟨d, hd, o, ho, e⟩
      · rintro (rfl | ⟨d, hd, h⟩)
        · exact ⟨_, List.mem_append_left _ (List.mem_singleton.2 rfl), _, List.mem_cons_self, rfl⟩
        · exact ⟨d, List.mem_append_right _ hd, h⟩
    have hc : c.head.id.origin ≠ id.origin := hn _ ⟨c, by simp, c.head, List.mem_cons_self, rfl⟩
    refine Lineage.add (ih fun i ⟨d, hd, h⟩ => hn i ⟨d, List.mem_append_left _ hd, h⟩) P ⟨?_, ?_⟩
    · rcases F.yarn with ⟨h1, h2⟩ | ⟨h1, ⟨i, h2, h2'⟩, h3⟩
      · refine Or.inl ⟨h1, fun i hi => ?_⟩
        rcases (hk i).1 hi with rfl | hi
        · exact Ne.symm hc
        · exact h2 i hi
      · refine Or.inr ⟨h1, ⟨i, (hk i).2 (Or.inr h2), h2'⟩, fun j hj hjo => ?_⟩
        rcases (hk j).1 hj with rfl | hj
        · exact absurd hjo.symm hc
        · exact h3 j hj hjo
    · rcases F.cause with h | ⟨h1, h2, d, hd, h3⟩
      · exact Or.inl h
      · exact Or.inr ⟨h1, h2, d, List.mem_append_right _ hd, h3⟩

end Ron.Spec

namespace Ron.Host
open Ron Spec Commit Props

/-- A yarn is begun in a new store. -/
theorem beginYarn_carries {v : Rdt.View} {env : Env} (hv : env.mg = Rdt.mergeCursors v) {id : Uuid} (hs : Stamp id)
    (hp : id.origin.payload ≠ 0) (now : Word) :
    ∃ d now' note, beginYarn env newStore Uuid.NIL now id = some (Status.OK, d, now') ∧
      Carries true [Chain.yarn id] note d ∧ tipOf d = some id := by
  have F : Follows ([] ++ []) (Chain.yarn id) := yarn_cause fun i ⟨c, hc, _⟩ => by cases hc
  obtain ⟨note, c', e, M, hb, ht, hm, -⟩ := save_follows (H := []) (F := []) (env := env) (v := v) (d := Chain.yarn id)
    Lineage.nil (mid_start newStore_holds Uuid.NIL now) hv (yarn_proper hs hp) F (Clear.nil _) (fun _ => Clear.nil _)
    (Or.inl rfl)
  have hb : c'.base = Uuid.NIL := hb
  have ht : c'.tip = id := ht
  have hne : c'.tip ≠ c'.base := by
    rw [hb, ht]
    intro e
    have := hs.2
    rw [e] at this
    exact absurd this (by decide)
  have hsave : save c' = (Status.OK, { c' with main := savedStore c', mem := [], base := Uuid.NIL, tip := Uuid.NIL }) := by
    unfold save
    have q1 : ¬ (Key.ZERO = Key.END) := by decide
    have q2 : ¬ ¬ Status.OK.ok = true := by decide
    rw [if_neg hne, if_neg (by rw [hb]; simp), if_neg (by rw [hb, Uuid.lt_nil]; decide)]
    simp only [MemStore.write, q1, if_false, q2]
    rfl
  refine ⟨savedStore c', c'.now, note, ?_, savedStore_holds M, by rw [savedStore_tip M, ht]⟩
  unfold beginYarn
  rw [show (⟨[⟨id, formUuid Form.YARN, [], .raw⟩], Status.ENDOFFRAME, true⟩ : ACur) =
    ⟨(Chain.yarn id).ops, Status.ENDOFFRAME, true⟩ from rfl, e, Option.map_some]
  simp only [hsave]

/-- The stamp a yarn begins with. -/
theorem begin_stamp {h : Host} {wall yarn : Word} {tr : Bool} (hp : yarn.payload ≠ 0) (hc : tr = true ∨ Begins h wall yarn) :
    Stamp (if tr then (Uuid.time 0#64 yarn, h) else h.now' wall yarn).1 ∧
    (if tr then (Uuid.time 0#64 yarn, h) else h.now' wall yarn).1.origin = (branchId yarn).origin ∧
    (if tr then (Uuid.time 0#64 yarn, h) else h.now' wall yarn).1.origin.payload ≠ 0 ∧
    (if tr then (Uuid.time 0#64 yarn, h) else h.now' wall yarn).2.stores = h.stores := by
  have hy : yarn ≠ 0#64 := by
    rintro rfl
    exact hp rfl
  have hv : ∀ x : Word, (Uuid.time x yarn).origin.toNat / 2 ^ 60 = 2 := by
    intro x
    have := Uuid.time_version x yarn
    unfold Uuid.version Word.flags Uuid.vTIME at this
    have h4 := (Uuid.time x yarn).origin.isLt
    unfold Uuid.time at *
    have : yarn.payload < 2 ^ 60 := Nat.mod_lt _ (by decide)
    simp only [BitVec.toNat_ofNat] at *
    omega
  have ho : ∀ x : Word, (Uuid.time x yarn).origin.payload ≠ 0 := fun x => by rw [Uuid.time_payload]; exact hp
  cases tr with
  | true => exact ⟨⟨by show (0#64 : Word).toNat < NEVER.toNat; decide, hv _⟩, rfl, ho _, rfl⟩
  | false =>
    rcases hc with hc | hc
    · cases hc
    · have e : h.now' wall yarn = ((clockNow h.now wall yarn).2, { h with now := (clockNow h.now wall yarn).1 }) := by
        unfold now'
        rw [if_neg hy]
      simp only [Bool.false_eq_true, if_false, e]
      exact ⟨⟨hc.2, hv _⟩, rfl, ho _, trivial⟩

/-- A branch is created, or the replica is as it was but for the clock. -/
theorem createBranch_kept {v : Rdt.View} {hs : Hashing} {h h' : Host} {wall yarn : Word} {tr : Bool} {st : Status}
    (hp : yarn.payload ≠ 0) (hc : tr = true ∨ Begins h wall yarn)
    (e : h.createBranch (Rdt.mergeCursors v) hs wall yarn tr = some (st, h')) :
    st.ok = false ∧ h'.stores = h.stores ∨ st = Status.OK ∧ h.has (branchId yarn) = false ∧ ∃ id d note,
      h'.stores = h.stores ++ [⟨branchId yarn, Uuid.NIL, d⟩] ∧ Stamp id ∧ id.origin = (branchId yarn).origin ∧
      id.origin.payload ≠ 0 ∧ Carries true [Chain.yarn id] note d ∧ tipOf d = some id := by
  obtain ⟨h1, h2, h3, h4⟩ := begin_stamp hp hc
  unfold createBranch at e
  simp only at e
  revert e h1 h2 h3 h4
  generalize (if tr then (Uuid.time 0#64 yarn, h) else h.now' wall yarn) = n
  intro h1 h2 h3 h4 e
  have hhas : ∀ i, n.2.has i = h.has i := fun i => by unfold has find; rw [h4]
  split at e
  · cases e
    exact Or.inl ⟨by decide, h4⟩
  · rename_i hno
    split at e
    · cases e
    · obtain ⟨r, hr, e⟩ := Commit.map_some e
      obtain ⟨d, now', note, e1, e2, e3⟩ := beginYarn_carries (v := v) (env := ⟨Rdt.mergeCursors v, hs, wall, n.2.active.origin⟩)
        rfl h1 h3 n.2.now
      have : some r = some (Status.OK, d, now') := hr.symm.trans e1
      cases this
      cases e
      have hno' : h.has (branchId yarn) = false := by
        rw [← hhas]
        simpa using hno
      refine Or.inr ⟨rfl, hno', n.1, d, note, ?_, h1, h2, h3, e2, e3⟩
      unfold setData
      simp only [List.map_append, List.map_cons, List.map_nil, if_true, h4]
      congr 1
      · conv => rhs; rw [← List.map_id h.stores]
        apply List.map_congr_left
        intro s hs'
        rw [if_neg]
        · rfl
        · intro e
          unfold has find at hno'
          rw [Option.isSome_eq_false_iff, Option.isNone_iff_eq_none, List.find?_eq_none] at hno'
          exact hno' s hs' (by simp [e])


theorem find_none {h : Host} {id : Uuid} (e : h.has id = false) : h.find id = none := by
  unfold has at e
  rwa [Option.isSome_eq_false_iff, Option.isNone_iff_eq_none] at e

theorem setData_last {h : Host} {l : List OpenStore} {x : OpenStore} {id : Uuid} (hst : h.stores = l ++ [x])
    (hx : x.id = id) (hl : ∀ s ∈ l, s.id ≠ id) (d : MemStore) :
    (h.setData id d).stores = l ++ [{ x with data := d }] := by
  unfold setData
  simp only [hst, List.map_append, List.map_cons, List.map_nil, if_pos hx]
  congr 1
  conv => rhs; rw [← List.map_id l]
  apply List.map_congr_left
  intro s hs
  rw [if_neg (hl s hs)]
  rfl

/-- A branch is forked, or the replica is as it was but for the clock. -/
theorem fork_copied {v : Rdt.View} {hs : Hashing} {h h' : Host} {wall new orig : Word} {st : Status}
    (hb : Begins h wall new)
    (hr : ∀ o, h.find (branchId orig) = some o → KeyOrder o.data ∧ (∃ t, tipOf o.data = some t) ∧
      ∀ r ∈ o.data, ∃ f, Engine.read (Rdt.mergeCursors v) o.data r.1 = some (Status.OK, f))
    (e : h.forkBranch (Rdt.mergeCursors v) hs wall new orig = some (st, h')) :
    st.ok = false ∧ h'.stores = h.stores ∨ st = Status.OK ∧ h.has (branchId new) = false ∧ ∃ o id d note d',
      h.find (branchId orig) = some o ∧ h'.stores = h.stores ++ [⟨branchId new, Uuid.NIL, d'⟩] ∧ Stamp id ∧
      id.origin = (branchId new).origin ∧ id.origin.payload ≠ 0 ∧ Carries true [Chain.yarn id] note d ∧
      tipOf d = some id ∧ KeyOrder d' ∧
      (∀ k, k = Key.ZERO ∨ (∀ r ∈ o.data, r.1 ≠ k) → stored k d' = stored k d) ∧
      ∀ r ∈ o.data, r.1 ≠ Key.ZERO → ∃ f, Engine.read (Rdt.mergeCursors v) o.data r.1 = some (Status.OK, f) ∧
        stored r.1 d' = stored r.1 d ++ [f] := by
  unfold forkBranch at e
  split at e
  · cases e
    exact Or.inl ⟨by decide, rfl⟩
  rename_i hho
  obtain ⟨o, ho⟩ : ∃ o, h.find (branchId orig) = some o := by
    unfold has at hho
    exact Option.isSome_iff_exists.1 (Classical.not_not.1 hho)
  obtain ⟨hso, ⟨t, ht⟩, hro⟩ := hr o ho
  obtain ⟨c, hc, e⟩ := Commit.bind_some e
  rcases createBranch_kept (st := c.1) (h' := c.2) hb.1 (Or.inr hb) hc with ⟨h1, h2⟩ | ⟨h1, hno, id, d, note, h2, h3, h4, h5, h6, h7⟩
  · rw [if_pos (by rw [h1]; decide)] at e
    cases e
    exact Or.inl ⟨h1, h2⟩
  · rw [if_neg (by rw [h1]; decide)] at e
    have hne : branchId orig ≠ branchId new := by
      intro x
      have := find_none hno
      rw [← x, ho] at this
      cases this
    have ho' : c.2.find (branchId orig) = some o := (createBranch_find (st := c.1) (h' := c.2) hne hc).trans ho
    have hn' : c.2.find (branchId new) = some ⟨branchId new, Uuid.NIL, d⟩ := by
      have := find_none hno
      unfold find at this ⊢
      rw [h2, List.find?_append, this]
      simp
    have hfresh : ∀ s ∈ h.stores, s.id ≠ branchId new := by
      intro s hs' e
      have := find_none hno
      unfold find at this
      exact (List.find?_eq_none.1 this) s hs' (by simp [e])
    rw [ho', hn'] at e
    simp only at e
    split at e
    · cases e
    · rename_i k ks hks
      obtain ⟨q, hq, e⟩ := Commit.bind_some e
      obtain ⟨hk0, hz⟩ := keys_tail hso ht hks
      have hsorted := keys_sorted hso
      rw [hks] at hsorted
      have hnd : ks.Nodup := (List.pairwise_cons.1 hsorted).2.imp fun h e => Key.lt_ne h e
      have hkr : ∃ f, Engine.read (Rdt.mergeCursors v) o.data k = some (Status.OK, f) := by
        obtain ⟨r, hrm, rfl⟩ := keys_sublist o.data k (by rw [hks]; simp)
        exact hro r hrm
      obtain ⟨f0, hf0⟩ := hkr
      rw [hf0] at hq
      cases hq
      rw [if_neg (show ¬ ¬ Status.OK.ok = true by decide)] at e
      have hreads : ∀ j ∈ ks, ∃ f, Engine.read (Rdt.mergeCursors v) o.data j = some (Status.OK, f) := by
        intro j hj
        obtain ⟨r, hrm, rfl⟩ := keys_sublist o.data j (by rw [hks]; simp [hj])
        exact hro r hrm
      obtain ⟨d', g1, g2, g3, g4⟩ := copyKeys_exact ks h6.sorted hnd hreads
      rw [g1] at e
      cases e
      refine Or.inr ⟨rfl, hno, o, id, d, note, d', ho, setData_last h2 rfl hfresh d', h3, h4, h5, h6, h7, g2, ?_, ?_⟩
      · intro j hj
        refine g3 j fun hm => ?_
        rcases hj with hj | hj
        · exact hz j hm hj
        · obtain ⟨r, hrm, e⟩ := keys_sublist o.data j (by rw [hks]; simp [hm])
          exact hj r hrm e
      · intro r hrm hrz
        have := mem_keys r hrm
        rw [hks, hk0] at this
        rcases List.mem_cons.1 this with e | e
        · exact absurd e hrz
        · exact g4 _ e

theorem meta_single (v : Rdt.View) {x : AOp} (hx : x.term = .raw) :
    Rdt.mergeCursors v Form.META [[x]] = some (Status.OK, [x]) := by
  obtain ⟨out, e, m⟩ := Heap.merge_spec Rdt.metaKeyed [[x]] (fun i hi => by
    rw [List.mem_singleton.1 hi]; exact List.pairwise_singleton _ _)
  have hx' : ∀ y ∈ out, y = x := fun y hy => by simpa using (m.sound y hy).1
  obtain ⟨y, hy, -⟩ := m.full x (by simp)
  have hout : out = [x] := by
    match out, hx', hy, m.sorted with
    | [a], hx', _, _ => rw [hx' a (by simp)]
    | a :: b :: l, hx', _, hp =>
      have := (List.pairwise_cons.1 hp).1 b (by simp)
      rw [hx' a (by simp), hx' b (by simp)] at this
      have := (Uuid.lt_same rfl).1 this
      omega
  rw [Rdt.mergeCursors_meta, e, hout]
  show some (Status.OK, [({ x with term := .raw } : AOp)]) = _
  rw [← hx]

/-- The store of a fork: its own yarn and the history of the original. -/
theorem copied_carries {v : Rdt.View} {H : List Chain} {note note0 : Uuid → List Nat} {o d d' : MemStore} {id : Uuid}
    (L : Lineage H) (K : Carries false H note o) (D : Carries true [Chain.yarn id] note0 d)
    (hform : ∀ r ∈ o, r.1.form = Form.RGA ∨ r.1.form = Form.MAX → Legible v o r.1) (hn : ∀ i, Known H i → i.origin ≠ id.origin)
    (hsort : KeyOrder d') (hsame : ∀ k, k = Key.ZERO ∨ (∀ r ∈ o, r.1 ≠ k) → stored k d' = stored k d)
    (hcopy : ∀ r ∈ o, r.1 ≠ Key.ZERO → ∃ f, Engine.read (Rdt.mergeCursors v) o r.1 = some (Status.OK, f) ∧
      stored r.1 d' = stored r.1 d ++ [f]) :
    Carries false ([Chain.yarn id] ++ H) (fun i => if i = id then note0 i else note i) d' := by
  have hz : Key.ZERO.form = Form.ZERO := by decide
  -- what a key has
  have key : ∀ k : Key, k.form ≠ Form.ZERO → stored k o = [] ∧ stored k d' = stored k d ∨
      stored k o ≠ [] ∧ ∃ f, Engine.read (Rdt.mergeCursors v) o k = some (Status.OK, f) ∧ stored k d' = stored k d ++ [f] := by
    intro k hk
    match hst : stored k o with
    | [] =>
      refine Or.inl ⟨rfl, hsame k (Or.inr fun r hr e => ?_)⟩
      have : r.2 ∈ stored k o := by rw [← e]; exact mem_stored.2 hr
      rw [hst] at this
      cases this
    | f :: fs =>
      have hr : (k, f) ∈ o := mem_stored.1 (by rw [hst]; exact List.mem_cons_self)
      exact Or.inr ⟨by simp, hcopy _ hr (by intro e; simp only at e; rw [e] at hk; exact hk hz)⟩
  refine ⟨⟨hsort, ?_, ?_, ?_, ?_, ?_⟩, ?_⟩
  · intro k hk
    rw [List.filter_append, List.flatMap_append, List.map_append, ← D.log k hk]
    rcases key k (by rw [hk]; decide) with ⟨h1, h2⟩ | ⟨h1, f, h2, h3⟩
    · rw [h2, ← K.log k hk, h1]
      simp
    · obtain ⟨l, hl, hb⟩ := read_log (v := v) K.toRetains hk
      rw [h2] at hl
      cases hl
      rw [h3, ← hb]
      simp
  · intro k hk hmem
    rcases key k (by rw [hk]; decide) with ⟨h1, h2⟩ | ⟨h1, f, h2, h3⟩
    · rw [h2] at hmem
      exact D.full k hk hmem
    · rw [h3] at hmem
      rcases List.mem_append.1 hmem with hm | hm
      · exact D.full k hk hm
      · obtain ⟨l, hl, hb⟩ := read_log (v := v) K.toRetains hk
        rw [h2] at hl
        cases hl
        rw [← K.log k hk, ← List.mem_singleton.1 hm] at hb
        match hst : stored k o, h1 with
        | g :: gs, _ =>
          rw [hst] at hb
          simp only [List.map_nil, List.flatten_cons, List.map_append] at hb
          have := (List.append_eq_nil_iff.1 hb.symm).1
          rw [List.map_eq_nil_iff] at this
          exact K.full k hk (by rw [hst, this]; exact List.mem_cons_self)
  · intro k hk
    have hdn : (([Chain.yarn id].filter fun c => decide (Key.mk' c.head.id Form.META = k)).map fun c =>
        [c.entry fun i => if i = id then note0 i else note i]) = stored k d := by
      rw [D.index k hk]
      apply List.map_congr_left
      intro c hc
      have : c = Chain.yarn id := List.mem_singleton.1 (List.mem_filter.1 hc).1
      unfold Chain.entry
      rw [this]
      simp only [Chain.yarn, if_true]
    have hon : ((H.filter fun c => decide (Key.mk' c.head.id Form.META = k)).map fun c =>
        [c.entry fun i => if i = id then note0 i else note i]) = stored k o := by
      rw [K.index k hk]
      apply List.map_congr_left
      intro c hc
      have : c.head.id ≠ id := fun e => hn c.head.id ⟨c, (List.mem_filter.1 hc).1, c.head, List.mem_cons_self, rfl⟩ (by rw [e])
      unfold Chain.entry
      simp only [if_neg this]
    rw [List.filter_append, List.map_append, hdn, hon]
    rcases key k (by rw [hk]; decide) with ⟨h1, h2⟩ | ⟨h1, f, h2, h3⟩
    · rw [h2, h1, List.append_nil]
    · rw [h3]
      congr 1
      have hi := K.index k hk
      match hfl : (H.filter fun c => decide (Key.mk' c.head.id Form.META = k)) with
      | [] => rw [hfl] at hi; exact absurd hi h1
      | c :: cs =>
        have hcf : c ∈ H.filter fun c => decide (Key.mk' c.head.id Form.META = k) := by rw [hfl]; exact List.mem_cons_self
        obtain ⟨hc, e⟩ := List.mem_filter.1 hcf
        have e := of_decide_eq_true e
        subst e
        rw [filter_head L.sound hc] at hi
        rw [hi]
        unfold Engine.read at h2
        rw [if_neg (Key.mk_ne_end (by decide)), show Engine.operands o _ = _ from hi] at h2
        simp only [List.map_cons, List.map_nil] at h2
        rw [form_mk, show withOps [[c.entry note]] = [[c.entry note]] from rfl, meta_single v rfl] at h2
        have this : [c.entry note] = f := congrArg Prod.snd (Option.some.inj h2)
        rw [← this]
        rfl
  · intro k h1 h2 h3
    rw [List.filter_append]
    have hd := (D.state k h1 h2 h3)
    have hd' : Stands false k.form ([Chain.yarn id].filter fun c => decide (Key.ofUuids c.object c.rdt = k)) (stored k d) :=
      ⟨hd.part, hd.some, hd.order, hd.all, fun h => by cases h⟩
    have ho := K.state k h1 h2 h3
    rcases key k h3 with ⟨g1, g2⟩ | ⟨g1, f, g2, g3⟩
    · rw [g2]
      have : (H.filter fun c => decide (Key.ofUuids c.object c.rdt = k)) = [] :=
        Classical.byContradiction fun h => ho.some h g1
      rw [this, List.append_nil]
      exact hd'
    · rw [g3]
      refine hd'.append ?_
      obtain ⟨g, hg⟩ := List.exists_mem_of_ne_nil _ g1
      obtain ⟨hgn, hp⟩ := ho.part g hg
      obtain ⟨x, hx⟩ := List.exists_mem_of_ne_nil _ hgn
      obtain ⟨c, hcf, -⟩ := hp x hx
      obtain ⟨hc, e⟩ := List.mem_filter.1 hcf
      have e := of_decide_eq_true e
      subst e
      have hkf : (Key.ofUuids c.object c.rdt).form = uuid2form c.rdt := by unfold Key.ofUuids; exact form_mk _ _
      by_cases hid : ¬ IdForm (uuid2form c.rdt)
      · have hrm : uuid2form c.rdt = Form.RGA ∨ uuid2form c.rdt = Form.MAX := by
          have := (L.object c hc).2
          unfold types at this
          simp only [List.mem_cons, List.not_mem_nil, or_false] at this
          unfold IdForm at hid
          rcases this with h | h | h | h | h
          · exact absurd (Or.inr (Or.inr h)) hid
          · exact absurd (Or.inl h) hid
          · exact Or.inl h
          · exact absurd (Or.inr (Or.inl h)) hid
          · exact Or.inr h
        obtain ⟨f', e1, e2, e3⟩ := hform _ (mem_stored.1 hg) (by simp only [hkf]; exact hrm)
        simp only at e1 e3
        rw [g2] at e1
        cases e1
        have hops : ∀ x ∈ f, ∃ g ∈ stored (Key.ofUuids c.object c.rdt) o, ∃ y ∈ g, y.body = x.body := by
          rcases hrm with hr | hm
          · intro x hx
            unfold Engine.read at g2
            have hne : Key.ofUuids c.object c.rdt ≠ Key.END := key_ne_end (by rw [hr]; decide)
            rw [if_neg hne] at g2
            split at g2
            · cases g2; cases hx
            · obtain ⟨m, hm, g2⟩ := Commit.map_some g2
              obtain ⟨ms, out, em, hall⟩ := C37_no_new_ops_partial v (Key.ofUuids c.object c.rdt).form
                (withOps (Engine.operands o (Key.ofUuids c.object c.rdt))) (by rw [hkf, hr]; intro h; cases h)
              rw [hm] at em
              cases em
              simp only at g2
              split at g2
              · cases g2
                obtain ⟨i, hi, y, hy, e⟩ := hall x hx
                exact ⟨i, (mem_withOps.1 hi).1, y, hy, e⟩
              · cases g2
          · exact e3 (by rw [hkf]; exact hm)
        have hno : ¬ (Key.ofUuids c.object c.rdt).form ∈ [Form.YARN, Form.LWW, Form.MX] := by
          rw [hkf]
          rcases hrm with h | h <;> rw [h] <;> decide
        refine ⟨fun f' hf' => ?_, fun _ h => (by cases h), fun h => absurd h hno, fun h => absurd h hno, fun h => (by cases h)⟩
        rw [List.mem_singleton.1 hf']
        refine ⟨e2, fun x hx => ?_⟩
        obtain ⟨g', hg', y, hy, e⟩ := hops x hx
        obtain ⟨a, ha, z, hz', eb⟩ := (ho.part g' hg').2 y hy
        exact ⟨a, ha, z, hz', eb.trans e⟩
      have hid := Classical.not_not.1 hid
      obtain ⟨out, e1, e2, e3⟩ := C102_object v H note o L K c hc hid
      rw [g2] at e1
      cases e1
      rw [filter_state L hc]
      refine ⟨fun f' hf' => ?_, fun _ h => (by cases h), fun _ f' hf' => ?_, fun _ a ha y hy => ?_, fun h => (by cases h)⟩
      · rw [List.mem_singleton.1 hf']
        constructor
        · rintro rfl
          obtain ⟨y, hy, -⟩ := (e3 c.head.body).2 ⟨c.head, List.mem_flatMap.2 ⟨c, List.mem_filter.2 ⟨hc, by simp⟩, List.mem_cons_self⟩, rfl⟩
          cases hy
        · intro y hy
          obtain ⟨z, hz', eb⟩ := (e3 y.body).1 ⟨y, hy, rfl⟩
          obtain ⟨a, ha, hz'⟩ := List.mem_flatMap.1 hz'
          exact ⟨a, ha, z, hz', eb⟩
      · rw [List.mem_singleton.1 hf']
        exact e2
      · obtain ⟨z, hz', eb⟩ := (e3 y.body).2 ⟨y, List.mem_flatMap.2 ⟨a, ha, hy⟩, rfl⟩
        exact ⟨f, List.mem_singleton.2 rfl, z, hz', eb⟩
  · intro r hr hrf
    have hmem : r.2 ∈ stored r.1 d' := mem_stored.2 hr
    rw [hsame r.1 (by
      by_cases h : r.1 = Key.ZERO
      · exact Or.inl h
      · refine Or.inr fun q hq e => ?_
        exact h (by rw [← e]; exact (K.tips q hq (by rw [e]; exact hrf)).1))] at hmem
    exact D.tips r (mem_stored.1 hmem) hrf
  · obtain ⟨f, hf⟩ := D.tip
    exact ⟨f, mem_stored.1 (by rw [hsame _ (Or.inl rfl)]; exact mem_stored.2 hf)⟩

/-- All of a store can be read if its arrays and maxima can. -/
theorem reads_all {v : Rdt.View} {wh : Bool} {H : List Chain} {note : Uuid → List Nat} {s : MemStore} (L : Lineage H)
    (K : Carries wh H note s) {r : Key × Frame} (hr : r ∈ s)
    (hl : r.1.form = Form.RGA ∨ r.1.form = Form.MAX → Legible v s r.1) :
    ∃ f, Engine.read (Rdt.mergeCursors v) s r.1 = some (Status.OK, f) := by
  by_cases hrm : r.1.form = Form.RGA ∨ r.1.form = Form.MAX
  · obtain ⟨f, h, -⟩ := hl hrm
    exact ⟨f, h⟩
  have h1 : r.1.form ≠ Form.RGA := fun h => hrm (Or.inl h)
  have h2 : r.1.form ≠ Form.MAX := fun h => hrm (Or.inr h)
  by_cases hz : r.1.form = Form.ZERO
  · obtain ⟨x, hx, h1, -⟩ := read_zero_form v s hz
    obtain ⟨x1, x2⟩ := x
    cases h1
    exact ⟨_, hx⟩
  · by_cases hl : r.1.form = Form.LOG
    · obtain ⟨l, h, -⟩ := read_log (v := v) K.toRetains hl
      exact ⟨l, h⟩
    · by_cases hm : r.1.form = Form.META
      · have hmem : r.2 ∈ stored r.1 s := mem_stored.2 hr
        rw [K.index _ hm] at hmem
        obtain ⟨c, hc, -⟩ := List.mem_map.1 hmem
        obtain ⟨hc, e⟩ := List.mem_filter.1 hc
        obtain ⟨x, xs, h, -⟩ := read_index (v := v) L.sound K.toRetains hc
        rw [of_decide_eq_true e] at h
        exact ⟨_, h⟩
      · obtain ⟨hgn, hp⟩ := (K.state r.1 hl hm hz).part r.2 (mem_stored.2 hr)
        obtain ⟨x, hx⟩ := List.exists_mem_of_ne_nil _ hgn
        obtain ⟨c, hcf, -⟩ := hp x hx
        obtain ⟨hc, e⟩ := List.mem_filter.1 hcf
        have e := of_decide_eq_true e
        have hkf : r.1.form = uuid2form c.rdt := by rw [← e]; unfold Key.ofUuids; exact form_mk _ _
        rw [hkf] at h1 h2
        have hid : IdForm (uuid2form c.rdt) := by
          have := (L.object c hc).2
          unfold types at this
          simp only [List.mem_cons, List.not_mem_nil, or_false] at this
          unfold IdForm
          rcases this with h | h | h | h | h
          · exact Or.inr (Or.inr h)
          · exact Or.inl h
          · exact absurd h h1
          · exact Or.inr (Or.inl h)
          · exact absurd h h2
        obtain ⟨out, e1, -⟩ := C102_object v H note s L K c hc hid
        rw [e] at e1
        exact ⟨out, e1⟩

/-- Every event of the history is in a record. -/
theorem event_stored {wh : Bool} {H : List Chain} {note : Uuid → List Nat} {s : MemStore} (K : Carries wh H note s) {i : Uuid}
    (hi : Spec.Known H i) : ∃ r ∈ s, ∃ x ∈ r.2, x.id = i := by
  obtain ⟨c, hc, x, hx, e⟩ := hi
  have hl := K.log (Key.mk' c.object Form.LOG) (form_mk _ _)
  obtain ⟨y, hy, eb⟩ := Rdt.mem_body hl.symm (List.mem_flatMap.2 ⟨c, List.mem_filter.2 ⟨hc, by simp⟩, hx⟩)
  obtain ⟨f, hf, hy⟩ := List.mem_flatten.1 hy
  exact ⟨_, mem_stored.1 hf, y, hy, (Rdt.body_id eb).trans e⟩

theorem known_mono {H G : List Chain} {i : Uuid} (h : Spec.Known H i) : Spec.Known (H ++ G) i := by
  obtain ⟨c, hc, hi⟩ := h
  exact ⟨c, List.mem_append_left _ hc, hi⟩

/-- A fork of a branch and its history. -/
theorem fork_kept {v : Rdt.View} {hs : Hashing} {h h' : Host} {wall new orig : Word} {st : Status} (hb : Begins h wall new)
    (hk : ∀ s, h.find (branchId orig) = some s → ∃ H, Kept s H)
    (hc : ∀ s, h.find (branchId orig) = some s → ∀ r ∈ s.data,
      (r.1.form = Form.RGA ∨ r.1.form = Form.MAX → Legible v s.data r.1) ∧ ∀ x ∈ r.2, x.id.origin ≠ (branchId new).origin)
    (e : h.forkBranch (Rdt.mergeCursors v) hs wall new orig = some (st, h')) :
    st.ok = false ∧ h'.stores = h.stores ∨ st = Status.OK ∧ h.has (branchId new) = false ∧ ∃ o id d,
      h.find (branchId orig) = some o ∧ h'.stores = h.stores ++ [⟨branchId new, Uuid.NIL, d⟩] ∧
      id.origin = (branchId new).origin ∧
      ∀ H, Kept o H → Kept ⟨branchId new, Uuid.NIL, d⟩ ([Chain.yarn id] ++ H) := by
  rcases fork_copied hb (fun o ho => by
      obtain ⟨H, k⟩ := hk o ho
      obtain ⟨note, K⟩ := k.holds
      obtain ⟨i, hi, -⟩ := k.recorded
      exact ⟨K.sorted, ⟨i, hi⟩, fun r hr => reads_all k.lineage K hr (hc o ho r hr).1⟩) e with
    h1 | ⟨h1, h2, o, id, d, note0, d', h3, h4, h5, h6, h7, h8, h9, h10, h11, h12⟩
  · exact Or.inl h1
  · refine Or.inr ⟨h1, h2, o, id, d', h3, h4, h6, fun H k => ?_⟩
    obtain ⟨note, K⟩ := k.holds
    have hn : ∀ i, Spec.Known H i → i.origin ≠ id.origin := by
      intro i hi
      obtain ⟨r, hr, x, hx, rfl⟩ := event_stored K hi
      rw [h6]
      exact (hc o h3 r hr).2 x hx
    refine ⟨lineage_after k.lineage h5 h7 hn, ⟨_, copied_carries k.lineage K h8
      (fun r hr => (hc o h3 r hr).1) hn h10 h11 h12⟩, ⟨id, ?_, ?_⟩, Or.inl rfl⟩
    · show tipOf d' = _
      rw [← h9]
      unfold tipOf
      rw [h11 _ (Or.inl rfl)]
    · exact ⟨Chain.yarn id, by simp, _, List.mem_cons_self, rfl⟩

/-- A branch after a frame of one chain. -/
theorem receive_kept {v : Rdt.View} {env : Env} (hv : env.mg = Rdt.mergeCursors v) {s : OpenStore} {H : List Chain}
    (k : Kept s H) {now : Word} {o : AOp} {os : List AOp} (P : Proper o os) {st : Status} {d : MemStore} {now' : Word}
    (e : Commit.receive env s.data s.tip now ⟨o :: os, Status.ENDOFFRAME, true⟩ = some (st, d, now')) :
    (st.ok = true ↔ ∃ c : Chain, c.head = o ∧ c.rest = os ∧ Spec.Follows H c ∧
      (s.tip = Uuid.NIL ∨ s.tip.origin = o.id.origin)) ∧
    (st.ok = false → d = s.data) ∧
    ∀ c : Chain, c.head = o → c.rest = os → Spec.Follows H c → st.ok = true → Kept { s with data := d } (H ++ [c]) := by
  obtain ⟨note, K⟩ := k.holds
  obtain ⟨st', d', n, e', h1, h2, h3⟩ := C101_accepts v H note s.data k.lineage K env hv s.tip now o os P k.cached
  rw [e] at e'
  cases e'
  refine ⟨h1, h2, fun c g1 g2 g3 g4 => ?_⟩
  obtain ⟨⟨note', K'⟩, L', ht⟩ := h3 c g1 g2 g3 g4
  refine ⟨L', ⟨note', K'⟩, ⟨_, ht, c, by simp, ?_⟩, ?_⟩
  · obtain ⟨x, hx, e⟩ := lastOf_mem c.head c.rest
    exact ⟨x, hx, by rw [e, g1, g2]⟩
  · rcases k.cached with h | h
    · exact Or.inl h
    · exact Or.inr (known_mono h)

theorem endOf_mem {G : List Chain} (h : G ≠ []) : Spec.Known G (endOf (G.map Chain.parts)) := by
  rcases List.eq_nil_or_concat G with e | ⟨G', c, rfl⟩
  · exact absurd e h
  · rw [List.concat_eq_append]
    unfold endOf
    rw [List.map_append, List.map_singleton, List.getLast?_concat]
    obtain ⟨x, hx, e⟩ := lastOf_mem c.head c.rest
    exact ⟨c, by simp, x, hx, e⟩

/-- A branch after a frame of many chains. -/
theorem bundle_kept {v : Rdt.View} {env : Env} (hv : env.mg = Rdt.mergeCursors v) {s : OpenStore} {H : List Chain}
    (k : Kept s H) {now : Word} {l : List (AOp × List AOp)} (h0 : l ≠ []) (hP : ∀ p ∈ l, Proper p.1 p.2) (hA : Parted l)
    (hl : ∀ p ∈ l.dropLast, p.1.ref.version = Uuid.vNAME) (ht : s.tip = Uuid.NIL ∨ ∀ p ∈ l, p.1.id.origin = s.tip.origin)
    {st : Status} {d : MemStore} {now' : Word}
    (e : Commit.receive env s.data s.tip now ⟨opsOf l, Status.ENDOFFRAME, true⟩ = some (st, d, now')) :
    (st.ok = true ↔ ∃ G, G.map Chain.parts = l ∧ Lineage (H ++ G)) ∧ (st.ok = false → d = s.data) ∧
    ∀ G, G.map Chain.parts = l → Lineage (H ++ G) → Kept { s with data := d } (H ++ G) := by
  obtain ⟨note, K⟩ := k.holds
  have ht' : s.tip = Uuid.NIL ∨ Spec.Known H s.tip ∧ ∀ p ∈ l, p.1.id.origin = s.tip.origin := by
    rcases k.cached with h | h
    · exact Or.inl h
    · rcases ht with g | g
      · exact Or.inl g
      · exact Or.inr ⟨h, g⟩
  obtain ⟨st', d', n, e', h1, h2, h3⟩ := C103_frame_partial v H note s.data k.lineage K env hv s.tip now l h0 hP hA ht'
    (C103_creates H l hl)
  rw [e] at e'
  cases e'
  refine ⟨h1, h2, fun G g1 g2 => ?_⟩
  obtain ⟨⟨note', K'⟩, q⟩ := h3 G g1 g2
  refine ⟨g2, ⟨note', K'⟩, ⟨_, q, ?_⟩, ?_⟩
  · rw [← g1]
    obtain ⟨c, hc, hi⟩ := endOf_mem (G := G) (by intro e; rw [e] at g1; exact h0 g1.symm)
    exact ⟨c, List.mem_append_right _ hc, hi⟩
  · rcases k.cached with h | h
    · exact Or.inl h
    · exact Or.inr (known_mono h)

/-! ### Opening -/

theorem openTip_tip {v : Rdt.View} {s : MemStore} {id t : Uuid} {r : Status × Uuid} (ht : tipOf s = some t)
    (e : Commit.openTip (Rdt.mergeCursors v) s id = some r) (hok : r.1.ok = true) : r.2 = t := by
  obtain ⟨x, hx, h1, h2⟩ := read_zero_form v s (show Key.ZERO.form = Form.ZERO from by decide)
  unfold Commit.openTip at e
  rw [hx, Option.map_some] at e
  obtain ⟨x1, x2⟩ := x
  cases h1
  have hh : ∃ o, ((Engine.operands s Key.ZERO).getLast?.bind fun f => f.head?) = some o ∧ o.id = t := by
    unfold tipOf at ht
    rw [show stored Key.ZERO s = Engine.operands s Key.ZERO from rfl] at ht
    cases hl : (Engine.operands s Key.ZERO).getLast? with
    | none => rw [hl] at ht; cases ht
    | some f =>
      rw [hl] at ht
      cases f with
      | nil => cases ht
      | cons o f => exact ⟨o, rfl, Option.some.inj ht⟩
  obtain ⟨o, ho, rfl⟩ := hh
  have hb := h2 o ho (by decide)
  match x2, hb, e with
  | y :: ys, hb, e =>
    have hb : y.body = o.body := Option.some.inj hb
    simp only at e
    have hk : ¬ ¬ ({ code := ⟨0#64, 0#64⟩ } : Status).ok = true := by decide
    rw [if_neg hk] at e
    split at e
    · cases e; exact absurd hok (show ¬ Status.BADFRAME.ok = true by decide)
    · cases e; exact Rdt.body_id hb

theorem openLoop_kept {v : Rdt.View} : ∀ (rest done : List OpenStore) (now : Word) {st : Status} {l : List OpenStore}
    {now' : Word}, openLoop (Rdt.mergeCursors v) done rest now = some (st, l, now') →
    ∀ s ∈ l, s ∈ done ∨ ∃ x ∈ rest, s.id = x.id ∧ s.data = x.data ∧
      (s.tip = x.tip ∨ ∀ t, tipOf x.data = some t → s.tip = t) := by
  intro rest
  induction rest with
  | nil =>
    intro done now st l now' e s hs
    cases e
    exact Or.inl hs
  | cons x rest ih =>
    intro done now st l now' e s hs
    unfold openLoop at e
    obtain ⟨r, hr, e⟩ := Commit.bind_some e
    split at e
    · cases e
      rcases List.mem_append.1 hs with h | h
      · exact Or.inl h
      · exact Or.inr ⟨s, h, rfl, rfl, Or.inl rfl⟩
    · rename_i hok
      rcases ih _ _ e s hs with h | ⟨y, hy, h⟩
      · rcases List.mem_append.1 h with h | h
        · exact Or.inl h
        · rw [List.mem_singleton.1 h]
          refine Or.inr ⟨x, List.mem_cons_self, rfl, rfl, Or.inr fun t ht => ?_⟩
          exact openTip_tip ht hr (Classical.not_not.1 hok)
      · exact Or.inr ⟨y, List.mem_cons_of_mem _ hy, h⟩

theorem opened_stores {mg : Reducer} {db : Db} {st : Status} {h : Host} (e : opened mg db = some (st, h)) :
    ∃ st' now, openLoop mg [] (db.map fun s => ⟨s.1, Uuid.NIL, s.2⟩) 0#64 = some (st', h.stores, now) := by
  unfold opened at e
  obtain ⟨r, hr, e⟩ := Commit.bind_some e
  refine ⟨r.1, r.2.2, ?_⟩
  rw [hr]
  congr 2
  simp only at e
  split at e
  · cases e; rfl
  · split at e
    · cases e
    · obtain ⟨a, -, e⟩ := Commit.map_some e
      split at e
      · cases e; rfl
      · cases e; rfl

/-- Every branch has a history, one store to an id. -/
def AllKept (h : Host) : Prop := (h.stores.map OpenStore.id).Nodup ∧ ∀ s ∈ h.stores, s.id ≠ Uuid.NIL → ∃ H, Kept s H

theorem reopened_kept {v : Rdt.View} {h h' : Host} (k : AllKept h) {st : Status}
    (e : opened (Rdt.mergeCursors v) h.close = some (st, h')) : AllKept h' := by
  have hid := congrArg (List.map Prod.fst) (opened_close e)
  obtain ⟨st', now, e⟩ := opened_stores e
  refine ⟨?_, fun s hs hn => ?_⟩
  · unfold close at hid
    rw [List.map_map, List.map_map] at hid
    have := k.1
    rw [show List.map OpenStore.id h'.stores = List.map OpenStore.id h.stores from hid]
    exact this
  rcases openLoop_kept _ _ _ e s hs with h1 | ⟨x, hx, h1, h2, h3⟩
  · cases h1
  · obtain ⟨p, hp, rfl⟩ := List.mem_map.1 hx
    obtain ⟨y, hy, rfl⟩ := List.mem_map.1 hp
    simp only at h1 h2 h3
    obtain ⟨H, q⟩ := k.2 y hy (by rw [← h1]; exact hn)
    refine ⟨H, q.lineage, by rw [h2]; exact q.holds, by rw [h2]; exact q.recorded, ?_⟩
    rcases h3 with h3 | h3
    · exact Or.inl h3
    · obtain ⟨i, h4, h5⟩ := q.recorded
      rw [h3 i h4]
      exact Or.inr h5

theorem created_kept {v : Rdt.View} {hs : Hashing} {wall : Word} {st st' : Status} {db : Db} {h : Host}
    (e : createReplica (Rdt.mergeCursors v) hs wall = some (st, db))
    (eo : opened (Rdt.mergeCursors v) db = some (st', h)) : AllKept h := by
  unfold createReplica at e
  obtain ⟨o, ho, e⟩ := Commit.bind_some e
  have hdb : db.map Prod.fst = [Uuid.NIL] := by
    split at e
    · cases e
    · obtain ⟨r, -, e⟩ := Commit.map_some e
      cases e
      have hc := congrArg (List.map Prod.fst) (opened_close ho)
      unfold close at hc ⊢
      rw [List.map_map] at hc ⊢
      rw [show List.map Prod.fst [(Uuid.NIL, newStore)] = [Uuid.NIL] from rfl] at hc
      rw [← hc]
      unfold setData
      simp only [List.map_map]
      apply List.map_congr_left
      intro x _
      simp only [Function.comp_apply]
      split <;> rfl
  have hi : h.stores.map OpenStore.id = [Uuid.NIL] := by
    have := congrArg (List.map Prod.fst) (opened_close eo)
    rw [hdb] at this
    unfold close at this
    rw [List.map_map] at this
    exact this
  refine ⟨by rw [hi]; simp, fun s hs hn => ?_⟩
  have : s.id ∈ h.stores.map OpenStore.id := List.mem_map.2 ⟨s, hs, rfl⟩
  rw [hi] at this
  exact absurd (List.mem_singleton.1 this) hn

theorem branch_ne (y : Word) : branchId y ≠ Uuid.NIL := by
  intro h
  have h : (Uuid.time NEVER 0#64).value = 0#64 := congrArg Uuid.value h
  exact absurd h (show ¬ (Uuid.time NEVER 0#64).value = 0#64 from by decide)

theorem nodup_map {α β : Type _} {f : α → β} : ∀ {l : List α}, (l.map f).Nodup → ∀ {a b : α}, a ∈ l → b ∈ l → f a = f b →
    a = b := by
  intro l
  induction l with
  | nil => intro _ a b ha; cases ha
  | cons x l ih =>
    intro hn a b ha hb e
    rw [List.map_cons, List.nodup_cons] at hn
    rcases List.mem_cons.1 ha with ha | ha <;> rcases List.mem_cons.1 hb with hb | hb
    · rw [ha, hb]
    · exact absurd (List.mem_map.2 ⟨b, hb, by rw [← e, ha]⟩) hn.1
    · exact absurd (List.mem_map.2 ⟨a, ha, by rw [e, hb]⟩) hn.1
    · exact ih hn.2 ha hb e

theorem ids_setData (h : Host) (id : Uuid) (d : MemStore) :
    (h.setData id d).stores.map OpenStore.id = h.stores.map OpenStore.id := by
  unfold setData
  simp only [List.map_map]
  apply List.map_congr_left
  intro x _
  simp only [Function.comp_apply]
  split <;> rfl

/-- One more branch. -/
theorem added_kept {h h' : Host} {i : Uuid} {d : MemStore} (k : AllKept h) (hh : h.has i = false)
    (e : h'.stores = h.stores ++ [⟨i, Uuid.NIL, d⟩]) (hd : ∃ H, Kept ⟨i, Uuid.NIL, d⟩ H) : AllKept h' := by
  unfold AllKept
  rw [e]
  refine ⟨?_, fun s hs hn => ?_⟩
  · rw [List.map_append, List.nodup_append]
    refine ⟨k.1, by simp, fun a ha b hb hab => ?_⟩
    obtain ⟨x, hx, rfl⟩ := List.mem_map.1 ha
    rw [List.map_singleton, List.mem_singleton] at hb
    have := List.find?_eq_none.1 (find_none hh) x hx
    exact this (decide_eq_true (hab.trans hb))
  · rcases List.mem_append.1 hs with hs | hs
    · exact k.2 s hs hn
    · rw [List.mem_singleton.1 hs]; exact hd

/-- Whatever is done, every branch has a history. -/
theorem call_kept {v : Rdt.View} {hs : Hashing} {h h' : Host} {c : HostCall} {st : Status} (k : AllKept h) (hc : Sparing v h c)
    (e : hostCall (Rdt.mergeCursors v) hs h c = some (st, h')) : AllKept h' := by
  have keep : ∀ {g : Host}, g.stores = h.stores → AllKept g := by
    intro g eg
    unfold AllKept
    rw [eg]
    exact k
  obtain ⟨h1, h2⟩ := hc
  cases c with
  | reopen => exact reopened_kept k e
  | setActive w id =>
    simp only [hostCall] at e
    unfold setActive at e
    split at e
    · cases e; exact k
    · simp only at e
      split at e
      · cases e
      · split at e
        · cases e; exact keep rfl
        · cases e
          refine ⟨?_, fun s hs hn => ?_⟩
          · show (List.map OpenStore.id (setData _ _ _).stores).Nodup
            rw [ids_setData]
            exact k.1
          · simp only [setData] at hs
            obtain ⟨x, hx, rfl⟩ := List.mem_map.1 hs
            split at hn
            · rename_i hi
              exact absurd hi hn
            · rename_i hi
              rw [if_neg hi]
              exact k.2 x hx hn
  | create w y t =>
    rcases h1 with h1 | h1
    case inr => exact h1.elim
    rcases createBranch_kept h1.1 h1.2 e with ⟨-, e'⟩ | ⟨-, hh, id, d, note, e', i1, i2, i3, K, ht⟩
    · exact keep e'
    · exact added_kept k hh e' ⟨_, yarn_lineage i1 i3, ⟨note, K.weaken⟩,
        ⟨id, ht, Chain.yarn id, List.mem_singleton.2 rfl, _, List.mem_cons_self, rfl⟩, Or.inl rfl⟩
  | fork w n o =>
    rcases h1 with h1 | h1
    case inr => exact h1.elim
    have hk : ∀ s, h.find (branchId o) = some s → ∃ H, Kept s H := fun s hs =>
      k.2 s (find_some hs).1 (by
        rw [(find_some hs).2]
        exact branch_ne o)
    rcases fork_kept h1 hk (h2 w n o rfl) e with ⟨-, e'⟩ | ⟨-, hh, s, id, d, h3, e', -, h5⟩
    · exact keep e'
    · obtain ⟨H, q⟩ := hk s h3
      exact added_kept k hh e' ⟨_, h5 H q⟩
  | drop id =>
    simp only [hostCall] at e
    unfold dropStore at e
    split at e
    · cases e; exact k
    · split at e
      · cases e; exact k
      · cases e
        refine ⟨?_, fun s hs hn => k.2 s (List.mem_filter.1 hs).1 hn⟩
        exact (List.filter_sublist.map _).nodup k.1
  | receive w y cur =>
    simp only [hostCall] at e
    unfold Host.receive at e
    split at e
    · cases e; exact k
    · split at e
      · cases e; exact k
      · rename_i s hs
        obtain ⟨r, hr, e⟩ := Commit.map_some e
        cases e
        obtain ⟨g1, g2⟩ := find_some hs
        obtain ⟨H, q⟩ := k.2 s g1 (by rw [g2]; exact branch_ne y)
        obtain ⟨rs, rd, rn⟩ := r
        have hnew : ∃ H', Kept { s with data := rd } H' := by
          rcases h1 with ⟨o, os, rfl, P⟩ | ⟨l, l0, rfl, hP, hA, hl, ht⟩
          · obtain ⟨a1, a2, a3⟩ := receive_kept rfl q P hr
            cases hok : rs.ok with
            | true =>
              obtain ⟨c, c1, c2, c3, -⟩ := a1.1 hok
              exact ⟨_, a3 c c1 c2 c3 hok⟩
            | false =>
              rw [a2 hok]
              exact ⟨H, q⟩
          · obtain ⟨a1, a2, a3⟩ := bundle_kept rfl q l0 hP hA hl (ht s hs) hr
            cases hok : rs.ok with
            | true =>
              obtain ⟨G, c1, c2⟩ := a1.1 hok
              exact ⟨_, a3 G c1 c2⟩
            | false =>
              rw [a2 hok]
              exact ⟨H, q⟩
        refine ⟨?_, fun x hx hn => ?_⟩
        · show (List.map OpenStore.id (setData _ _ _).stores).Nodup
          rw [ids_setData]
          exact k.1
        · simp only [setData] at hx
          obtain ⟨z, hz, rfl⟩ := List.mem_map.1 hx
          split
          · rename_i hi
            have hzs : z = s := by
              exact nodup_map k.1 hz g1 hi
            subst hzs
            exact hnew
          · rename_i hi
            rw [if_neg hi] at hn
            exact k.2 z hz hn

end Ron.Host
