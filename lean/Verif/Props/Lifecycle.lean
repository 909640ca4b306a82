import Verif.Lemmas.Lifecycle
import Verif.Lemmas.ChainReceive
import Verif.Props.Replica
/-!
Properties of the life of a replica: C61, C62, C63, C64, C65, C66.
-/
namespace Ron.Props
open Ron Spec Host

/-! ## Test data -/

def mg6 : Reducer := Rdt.mergeCursors tView
/-- The replica after a call. -/
def act (h : Host) (c : HostCall) : Host := ((hostCall mg6 tHash h c).getD (Status.OK, h)).2
def actSt (h : Host) (c : HostCall) : Status := ((hostCall mg6 tHash h c).getD (Status.BAD_STATE, h)).1
/-- A frame, received in branch `A`. -/
def frameA (ops : List AOp) : HostCall := .receive 1002#64 yA ⟨ops, Status.ENDOFFRAME, true⟩
/-- A new replica. -/
def host0 : Host :=
  ((opened mg6 ((createReplica mg6 tHash 1000#64).getD (Status.OK, [])).2).getD (Status.OK, ⟨[], Uuid.NIL, 0#64⟩)).2
/-- A branch is created. -/
def host1 : Host := act host0 (.create 1001#64 yA false)
/-- The replica is reopened. -/
def host2 : Host := act host1 .reopen

theorem lived_act {P : Host → HostCall → Prop} {h : Host} (l : Lived mg6 tHash P h) {c : HostCall} (hp : P h c)
    (hs : (hostCall mg6 tHash h c).isSome = true) : Lived mg6 tHash P (act h c) := by
  unfold act
  match hq : hostCall mg6 tHash h c, hs with
  | some r, _ => exact .used l hp hq

theorem lived0 (P : Host → HostCall → Prop) : Lived mg6 tHash P host0 := by
  have h1 : ((createReplica mg6 tHash 1000#64).isSome) = true := by decide +kernel
  have h2 : (opened mg6 ((createReplica mg6 tHash 1000#64).getD (Status.OK, [])).2).isSome = true := by decide +kernel
  unfold host0
  match hc : createReplica mg6 tHash 1000#64, h1 with
  | some r, _ =>
    rw [hc] at h2
    match hq : opened mg6 ((some r).getD (Status.OK, [])).2, h2 with
    | some q, _ => exact .created hc hq

theorem startable1 : Startable host0 1001#64 yA := by
  refine ⟨Or.inl (by decide), ?_⟩
  decide +kernel

theorem lived1 : Lived mg6 tHash Careful host1 := lived_act (lived0 _) (Or.inr startable1) (by decide +kernel)
theorem lived2 : Lived mg6 tHash Careful host2 := lived_act lived1 trivial (by decide +kernel)

/-! ## C61 — a replica can be opened again -/

/-- Whatever was done, the replica can be opened. -/
def C61_claim : Prop := ∀ (v : Rdt.View) (hs : Hashing) (h : Host),
  Lived (Rdt.mergeCursors v) hs (fun _ _ => True) h → ∃ h', opened (Rdt.mergeCursors v) h.close = some (Status.OK, h')

/-- Into a branch just created, the first event of another yarn. -/
def host3 : Host := act host1 (frameA [op2 (evB 3) (formUuid Form.YARN)])

/-- An event of another yarn, received in a branch before the replica is reopened, becomes its tip;
`Open` then refuses the whole replica. -/
theorem C61_violated : ¬ C61_claim := by
  intro h
  have l : Lived mg6 tHash (fun _ _ => True) host3 :=
    lived_act (lived_act (lived0 _) trivial (by decide +kernel)) trivial (by decide +kernel)
  obtain ⟨h', e⟩ := h tView tHash host3 l
  have : (opened mg6 host3.close).map Prod.fst = some Status.BADFRAME := by decide +kernel
  rw [show opened mg6 host3.close = _ from e] at this
  exact absurd (Option.some.inj this : Status.OK = Status.BADFRAME) (by decide)

/-- The same, of replicas that receive nothing. -/
def C61_calls_claim : Prop := ∀ (v : Rdt.View) (hs : Hashing) (h : Host),
  Lived (Rdt.mergeCursors v) hs (fun _ c => ∀ w y f, c ≠ .receive w y f) h →
    ∃ h', opened (Rdt.mergeCursors v) h.close = some (Status.OK, h')

/-- A branch without a yarn is created while another is active. -/
def host4 : Host := act (act host1 (.setActive 1003#64 (branchId yA))) (.create 1004#64 0#64 false)

/-- Once a store has been made active, `CreateBranch(0)` stamps the first op of the new branch with
the yarn of the active one; `Open` then refuses the whole replica. -/
theorem C61_calls_violated : ¬ C61_calls_claim := by
  intro h
  have l : Lived mg6 tHash (fun _ c => ∀ w y f, c ≠ .receive w y f) host4 :=
    lived_act (lived_act (lived_act (lived0 _) (by simp) (by decide +kernel)) (by simp) (by decide +kernel))
      (by simp) (by decide +kernel)
  obtain ⟨h', e⟩ := h tView tHash host4 l
  have : (opened mg6 host4.close).map Prod.fst = some Status.BADFRAME := by decide +kernel
  rw [show opened mg6 host4.close = _ from e] at this
  exact absurd (Option.some.inj this : Status.OK = Status.BADFRAME) (by decide)

/-- A replica that was used with care can be opened again, always: branches are created with a stamp
of their own yarn, earlier than `NEVER`; a branch receives ops of other yarns only if the replica was
reopened since it was created. -/
theorem C61_reopen_partial (v : Rdt.View) (hs : Hashing) (h : Host)
    (l : Lived (Rdt.mergeCursors v) hs Careful h) :
    ∃ h', opened (Rdt.mergeCursors v) h.close = some (Status.OK, h') := by
  obtain ⟨h', e, -⟩ := opened_good v l.sound
  exact ⟨h', e⟩

/-- Opening a database, successfully or not, changes nothing in it. -/
theorem C61_unchanged (mg : Reducer) (db : Db) (st : Status) (h : Host) (e : opened mg db = some (st, h)) :
    h.close = db := opened_close e

/-- Two branches, a foreign yarn, a fork, events in all of them. -/
def host5 : Host := act (act (act (act (act (act host2
  (frameA [op2 (evB 5) (formUuid Form.YARN), op2 (evA 2000) (formUuid Form.LWW), op2 (evA 2001) (evA 2000) [.int 5]]))
  (.fork 2010#64 yB yA)) (.receive 2011#64 yB ⟨[op2 (evB 3000) (formUuid Form.RGA)], Status.ENDOFFRAME, true⟩))
  (.create 2012#64 77#64 true)) (.drop (branchId 77#64))) (.setActive 2013#64 (branchId yB))

def C61_calls5 : List (Host × HostCall) :=
  let h1 := act host2 (frameA [op2 (evB 5) (formUuid Form.YARN), op2 (evA 2000) (formUuid Form.LWW), op2 (evA 2001) (evA 2000) [.int 5]])
  let h2 := act h1 (.fork 2010#64 yB yA)
  let h3 := act h2 (.receive 2011#64 yB ⟨[op2 (evB 3000) (formUuid Form.RGA)], Status.ENDOFFRAME, true⟩)
  let h4 := act h3 (.create 2012#64 77#64 true)
  let h5 := act h4 (.drop (branchId 77#64))
  [(host2, frameA [op2 (evB 5) (formUuid Form.YARN), op2 (evA 2000) (formUuid Form.LWW), op2 (evA 2001) (evA 2000) [.int 5]]),
   (h1, .fork 2010#64 yB yA), (h2, .receive 2011#64 yB ⟨[op2 (evB 3000) (formUuid Form.RGA)], Status.ENDOFFRAME, true⟩),
   (h3, .create 2012#64 77#64 true), (h4, .drop (branchId 77#64)), (h5, .setActive 2013#64 (branchId yB))]

/-- All of these calls succeed. -/
example : ∀ p ∈ C61_calls5, (actSt p.1 p.2).ok = true := by decide +kernel

theorem careful_tip {h : Host} {w y : Word} {cur : ACur}
    (hd : (h.find (branchId y)).all (fun s => decide (s.tip ≠ Uuid.NIL)) = true) : Careful h (.receive w y cur) := by
  intro s hs
  rw [hs] at hd
  exact Or.inl (by simpa using hd)

example : Lived mg6 tHash Careful host5 := by
  unfold host5
  have l1 := lived_act lived2 (c := frameA [op2 (evB 5) (formUuid Form.YARN), op2 (evA 2000) (formUuid Form.LWW), op2 (evA 2001) (evA 2000) [.int 5]])
    (careful_tip (by decide +kernel)) (by decide +kernel)
  have l2 := lived_act l1 (c := .fork 2010#64 yB yA) ⟨Or.inl (by decide), by decide +kernel⟩ (by decide +kernel)
  have l3 := lived_act l2 (c := .receive 2011#64 yB ⟨[op2 (evB 3000) (formUuid Form.RGA)], Status.ENDOFFRAME, true⟩)
    (fun s hs => Or.inr (fun o ho => by
      rw [(find_some hs).2, List.mem_singleton.1 ho]
      decide +kernel)) (by decide +kernel)
  have l4 := lived_act l3 (c := .create 2012#64 77#64 true) (Or.inl rfl) (by decide +kernel)
  have l5 := lived_act l4 (c := .drop (branchId 77#64)) trivial (by decide +kernel)
  exact lived_act l5 trivial (by decide +kernel)

/-! ## C62 — the active store is remembered -/

/-- A store made active is active when the replica is opened again. -/
def C62_claim : Prop := ∀ (v : Rdt.View) (hs : Hashing) (h h1 h2 : Host) (wall : Word) (id : Uuid) (st st' : Status),
  Lived (Rdt.mergeCursors v) hs Careful h → h.setActive wall id = some (st, h1) → st.ok = true →
  opened (Rdt.mergeCursors v) h1.close = some (st', h2) → st'.ok = true → h2.active = id

/-- The active store is forgotten. -/
theorem C62_violated : ¬ C62_claim := by
  intro h
  have h1 : ((host1.setActive 1003#64 (branchId yA)).map fun r => (r.1.ok,
      (opened mg6 r.2.close).map fun q => (q.1.ok, q.2.active))) = some (true, some (true, Uuid.NIL)) := by decide +kernel
  obtain ⟨r, hr, h1⟩ := Commit.map_some h1
  have h2 : ((opened mg6 r.2.close).map fun q => (q.1.ok, q.2.active)) = some (true, Uuid.NIL) := congrArg Prod.snd h1
  obtain ⟨q, hq, h2⟩ := Commit.map_some h2
  have := h tView tHash host1 r.2 q.2 1003#64 (branchId yA) r.1 q.1 lived1 hr (congrArg Prod.fst h1) hq
    (congrArg Prod.fst h2)
  rw [show q.2.active = Uuid.NIL from congrArg Prod.snd h2] at this
  exact absurd this (by decide)

/-- After opening, the store without a branch is the active one, whatever is recorded. -/
theorem C62_forgotten_partial (mg : Reducer) (db : Db) (st : Status) (h : Host) (e : opened mg db = some (st, h)) :
    h.active = Uuid.NIL := opened_active e

/-- The choice is recorded all the same: it is in the record that `Open` reads and drops. -/
theorem C62_recorded_partial (v : Rdt.View) (hs : Hashing) (h h1 : Host) (wall : Word) (id : Uuid) (st : Status)
    (l : Lived (Rdt.mergeCursors v) hs Careful h) (e : h.setActive wall id = some (st, h1)) (hok : st.ok = true) :
    h1.active = id ∧ h.has id = true ∧ ∃ m r, h1.find Uuid.NIL = some m ∧
      Engine.read (Rdt.mergeCursors v) m.data (Key.mk' ACTIVE_STORE_UUID Form.ZERO) = some (Status.OK, r) ∧
      r.head?.map AOp.ref = some id := by
  unfold setActive at e
  split at e
  · cases e; exact absurd hok (by decide)
  · rename_i hh
    simp only at e
    split at e
    · cases e
    · rename_i m hm
      split at e
      · cases e; exact absurd hok ‹_›
      · cases e
        refine ⟨rfl, by simpa using hh, ?_⟩
        obtain ⟨hmm, hmi⟩ := find_some hm
        have hk : Key.mk' ACTIVE_STORE_UUID Form.ZERO ≠ Key.END := Key.mk_ne_end (by decide)
        have hw : Engine.write m.data (Key.mk' ACTIVE_STORE_UUID Form.ZERO) [⟨(h.now' wall 0#64).1, id, [], .raw⟩] =
            (Status.OK, MemStore.insert (Key.mk' ACTIVE_STORE_UUID Form.ZERO) [⟨(h.now' wall 0#64).1, id, [], .raw⟩] m.data) := by
          unfold Engine.write
          rw [if_neg (fun x => hk x.1)]
        obtain ⟨r, hr, hr1, hr2⟩ := read_zero_form v
          (MemStore.insert (Key.mk' ACTIVE_STORE_UUID Form.ZERO) [⟨(h.now' wall 0#64).1, id, [], .raw⟩] m.data)
          (k := Key.mk' ACTIVE_STORE_UUID Form.ZERO) (Commit.form_mk _ _)
        have hso : MemStore.Sorted m.data := (l.sound.good m hmm).sorted
        have e2 : Engine.operands (MemStore.insert (Key.mk' ACTIVE_STORE_UUID Form.ZERO)
            [⟨(h.now' wall 0#64).1, id, [], .raw⟩] m.data) (Key.mk' ACTIVE_STORE_UUID Form.ZERO) = _ :=
          MemStore.insert_recs hso _ _ _
        rw [if_pos rfl] at e2
        have hb := hr2 ⟨(h.now' wall 0#64).1, id, [], .raw⟩ (by rw [e2]; simp) hk
        obtain ⟨r1, r2⟩ := r
        cases hr1
        refine ⟨_, r2, find_setData_same (h := (h.now' wall 0#64).2) hm _, ?_, ?_⟩
        · show Engine.read _ (Engine.write m.data _ _).2 _ = _
          rw [hw]
          exact hr
        · match r2, hb with
          | p :: ps, hb => exact congrArg (fun b : Option Body => b.map fun b => b.2.1) hb

example : (act (act host1 (.setActive 1003#64 (branchId yA))) .reopen).active = Uuid.NIL ∧
    (act host1 (.setActive 1003#64 (branchId yA))).active = branchId yA := by decide +kernel

/-! ## C63 — a fork holds what the original holds -/

/-- Whatever can be read from the original can be read from the fork. -/
def C63_claim : Prop := ∀ (v : Rdt.View) (hs : Hashing) (h h' : Host) (wall new orig : Word) (st : Status)
  (o n : OpenStore), Lived (Rdt.mergeCursors v) hs Careful h →
  h.forkBranch (Rdt.mergeCursors v) hs wall new orig = some (st, h') → st.ok = true →
  h.find (branchId orig) = some o → h'.find (branchId new) = some n →
  ∀ k f, k ≠ Key.ZERO → Engine.read (Rdt.mergeCursors v) o.data k = some (Status.OK, f) →
    ∃ g, Engine.read (Rdt.mergeCursors v) n.data k = some (Status.OK, g) ∧ g.map AOp.body = f.map AOp.body

/-- An array of four pieces, and another one. -/
def host6a : Host := act host2 (frameA [op2 (evA 1010) (formUuid Form.RGA)])
def host6b : Host := act host6a (frameA [op2 (evA 1011) (evA 1010)])
def host6c : Host := act host6b (frameA [op2 (evA 1012) (evA 1011)])
def host6d : Host := act host6c (frameA [op2 (evA 1013) (evA 1012)])
def host6e : Host := act host6d (frameA [op2 (evA 1015) (formUuid Form.RGA)])

theorem lived6 : Lived mg6 tHash Careful host6e :=
  lived_act (lived_act (lived_act (lived_act (lived_act lived2
    (careful_tip (by decide +kernel)) (by decide +kernel)) (careful_tip (by decide +kernel)) (by decide +kernel))
    (careful_tip (by decide +kernel)) (by decide +kernel)) (careful_tip (by decide +kernel)) (by decide +kernel))
    (careful_tip (by decide +kernel)) (by decide +kernel)

/-- A key whose value can not be merged ends the copying: the objects after it are missing from the
fork, and the status is `OK`. -/
theorem C63_violated : ¬ C63_claim := by
  intro h
  have h1 : ((host6e.forkBranch mg6 tHash 1020#64 yB yA).bind fun r => (host6e.find (branchId yA)).bind fun o =>
      (r.2.find (branchId yB)).bind fun n =>
      (Engine.read mg6 o.data (Key.mk' (evA 1015) Form.RGA)).map fun f => (r.1.ok, f,
        Engine.read mg6 n.data (Key.mk' (evA 1015) Form.RGA))) =
      some (true, (Status.OK, [op2 (evA 1015) (formUuid Form.RGA)]), some (Status.OK, [])) := by decide +kernel
  obtain ⟨r, hr, h1⟩ := Commit.bind_some h1
  obtain ⟨o, ho, h1⟩ := Commit.bind_some h1
  obtain ⟨n, hn, h1⟩ := Commit.bind_some h1
  obtain ⟨f, hf, h1⟩ := Commit.map_some h1
  simp only [Prod.mk.injEq] at h1
  obtain ⟨hok, rfl, hg⟩ := h1
  obtain ⟨g, h2, h3⟩ := h tView tHash host6e r.2 1020#64 yB yA r.1 o n lived6 hr hok ho hn _ _
    (by decide) hf
  rw [show Engine.read (Rdt.mergeCursors tView) n.data _ = _ from hg] at h2
  cases h2
  cases h3

/-- If all of the original can be read, each of its objects is written to the fork as it reads;
otherwise the fork is what `CreateBranch` makes. The tip record is not copied. Missing from the
claim: that the frame reads back from the store unchanged. -/
theorem C63_copied_partial (v : Rdt.View) (hs : Hashing) (h h' : Host) (wall new orig : Word) (st : Status)
    (o : OpenStore) (l : Lived (Rdt.mergeCursors v) hs Careful h) (hstart : Startable h wall new)
    (e : h.forkBranch (Rdt.mergeCursors v) hs wall new orig = some (st, h')) (hok : st.ok = true)
    (ho : h.find (branchId orig) = some o)
    (hr : ∀ r ∈ o.data, ∃ f, Engine.read (Rdt.mergeCursors v) o.data r.1 = some (Status.OK, f)) :
    ∃ st1 h1 c n, h.createBranch (Rdt.mergeCursors v) hs wall new false = some (st1, h1) ∧
      h1.find (branchId new) = some c ∧ h'.find (branchId new) = some n ∧
      (∀ k, k = Key.ZERO ∨ (∀ r ∈ o.data, r.1 ≠ k) → stored k n.data = stored k c.data) ∧
      ∀ r ∈ o.data, r.1 ≠ Key.ZERO → ∃ f, Engine.read (Rdt.mergeCursors v) o.data r.1 = some (Status.OK, f) ∧
        stored r.1 n.data = stored r.1 c.data ++ [f] := by
  unfold forkBranch at e
  rw [if_neg (by unfold has; rw [ho]; simp)] at e
  obtain ⟨c, hc, e⟩ := Commit.bind_some e
  split at e
  · cases e; exact absurd hok ‹_›
  · rename_i hck
    obtain ⟨hno, s, hs1, -⟩ := createBranch_new (st := c.1) (h' := c.2) hc (Commit.ok_of_not_not hck)
    have hne : branchId orig ≠ branchId new := by
      intro x
      unfold has at hno
      rw [← x, ho] at hno
      cases hno
    have ho' : c.2.find (branchId orig) = some o :=
      (createBranch_find (st := c.1) (h' := c.2) hne hc).trans ho
    have g := createBranch_good v hs l.sound (st := c.1) (h' := c.2) (tr := false) (Or.inr hstart) hc
    rw [ho', hs1] at e
    simp only at e
    split at e
    · cases e
    · rename_i k ks hks
      obtain ⟨q, hq, e⟩ := Commit.bind_some e
      obtain ⟨hom, -⟩ := find_some ho'
      obtain ⟨hsm, -⟩ := find_some hs1
      obtain ⟨t, ht, -⟩ := (g.good o hom).tip
      obtain ⟨hk0, hz⟩ := keys_tail (g.good o hom).sorted ht hks
      have hsorted := keys_sorted (g.good o hom).sorted
      rw [hks] at hsorted
      have hnd : ks.Nodup := (List.pairwise_cons.1 hsorted).2.imp fun h e => Key.lt_ne h e
      have hreads : ∀ j ∈ ks, ∃ f, Engine.read (Rdt.mergeCursors v) o.data j = some (Status.OK, f) := by
        intro j hj
        obtain ⟨r, hrm, rfl⟩ := keys_sublist o.data j (by rw [hks]; simp [hj])
        exact hr r hrm
      split at e
      · cases e; exact absurd hok ‹_›
      · obtain ⟨d, h1, h2, h3, h4⟩ := copyKeys_exact ks (g.good s hsm).sorted hnd hreads
        rw [h1] at e
        cases e
        refine ⟨c.1, c.2, s, _, hc, hs1, find_setData_same hs1 d, ?_, ?_⟩
        · intro j hj
          refine h3 j fun hm => ?_
          rcases hj with hj | hj
          · exact hz j hm hj
          · obtain ⟨r, hrm, e⟩ := keys_sublist o.data j (by rw [hks]; simp [hm])
            exact hj r hrm e
        · intro r hrm hrz
          have := mem_keys r hrm
          rw [hks, hk0] at this
          rcases List.mem_cons.1 this with e | e
          · exact absurd e hrz
          · exact h4 _ e

/-- Three pieces can be merged, and all is copied. -/
example : (host6c.find (branchId yA)).all (fun o => o.data.all fun r =>
      (Engine.read mg6 o.data r.1).any fun x => x.1.ok) = true ∧
    (actSt host6c (.fork 1020#64 yB yA)).ok = true ∧
    (((act host6c (.fork 1020#64 yB yA)).find (branchId yB)).map fun n =>
      (stored (Key.mk' (evA 1010) Form.RGA) n.data).map fun f => f.map AOp.id) =
        some [[evA 1010, evA 1011, evA 1012]] := by decide +kernel

/-! ## C64 — the clock is set when a replica is opened -/

/-- After opening, the next stamp is later than anything that is stored. -/
def C64_claim : Prop := ∀ (v : Rdt.View) (hs : Hashing) (h h' : Host) (st : Status) (wall origin : Word),
  Lived (Rdt.mergeCursors v) hs Careful h → opened (Rdt.mergeCursors v) h.close = some (st, h') → st.ok = true →
  ∀ s ∈ h'.stores, ∀ x, Logged s.data x → x.1.value.toNat < NEVER.toNat →
    x.1.value.toNat < (h'.now' wall origin).1.value.toNat

/-- A branch receives an event of another yarn from the future, then one of its own. -/
def host7 : Host := act host2 (frameA [op2 (evB 5000) (formUuid Form.YARN), op2 (evA 2000) (formUuid Form.LWW)])

/-- Only the tips of the stores are seen; an event of another yarn may be later than they are. -/
theorem C64_violated : ¬ C64_claim := by
  intro h
  have l : Lived mg6 tHash Careful host7 := lived_act lived2 (careful_tip (by decide +kernel)) (by decide +kernel)
  have h1 : ((opened mg6 host7.close).map fun r => (r.1.ok, (r.2.now' 0#64 yA).1.value,
      r.2.stores.any fun s => s.data.any fun q => decide (q.1.form = Form.LOG) && q.2.any fun o =>
        decide (o.body = (evB 5000, formUuid Form.YARN, [])))) = some (true, 2001#64, true) := by decide +kernel
  obtain ⟨r, hr, h1⟩ := Commit.map_some h1
  simp only [Prod.mk.injEq, List.any_eq_true, Bool.and_eq_true, decide_eq_true_eq] at h1
  obtain ⟨hok, hn, s, hs, q, hq, hf, o, ho, hb⟩ := h1
  have := h tView tHash host7 r.2 r.1 0#64 yA l hr hok s hs (evB 5000, formUuid Form.YARN, [])
    ⟨q, hq, hf, o, ho, hb⟩ (by decide)
  rw [hn] at this
  exact absurd this (by decide)

/-- After opening, the next stamp is later than the tip of every store. Missing from the claim: the
events of other yarns. -/
theorem C64_tips_partial (mg : Reducer) (db : Db) (h : Host) (st : Status) (wall origin : Word)
    (e : opened mg db = some (st, h)) (hok : st.ok = true) :
    ∀ s ∈ h.stores, s.tip.version = Uuid.vTIME → s.tip.value.toNat < NEVER.toNat →
      s.tip.value.toNat < (h.now' wall origin).1.value.toNat := by
  intro s hs hv hn
  have h1 := opened_clock e hok s hs hv hn
  have h2 := opened_bound e
  have hN : NEVER.toNat < 2 ^ 60 := by decide
  unfold now' clockNow
  simp only
  show s.tip.value.toNat < (if wall.toNat > h.now.toNat then wall else h.now.inc).toNat
  split
  · omega
  · unfold Word.inc
    rw [BitVec.toNat_add]
    simp only [BitVec.toNat_ofNat]
    omega

example : (opened mg6 host7.close).any (fun r => r.1.ok && r.2.stores.any fun s =>
    decide (s.tip = evA 2000)) = true := by decide +kernel

/-! ## C65 — stores are apart -/

/-- A call that names one store leaves all the others as they are. -/
theorem C65_apart (mg : Reducer) (hs : Hashing) (h h' : Host) (c : HostCall) (st : Status) (id : Uuid)
    (hr : c ≠ .reopen) (hj : ¬ c.touches id) (e : hostCall mg hs h c = some (st, h')) :
    h'.find id = h.find id := hostCall_find hr hj e

/-- Closing and opening a replica leaves all of the data as it is. -/
theorem C65_reopened (mg : Reducer) (hs : Hashing) (h h' : Host) (st : Status)
    (e : hostCall mg hs h .reopen = some (st, h')) : h'.close = h.close := opened_close e

example : (act host2 (.fork 2010#64 yB yA)).find (branchId yA) = host2.find (branchId yA) ∧
    (host2.find (branchId yA)).isSome = true ∧
    (act host2 (frameA [op2 (evA 2000) (formUuid Form.LWW)])).find (branchId yA) ≠ host2.find (branchId yA) ∧
    (act host2 (frameA [op2 (evA 2000) (formUuid Form.LWW)])).find Uuid.NIL = host2.find Uuid.NIL := by decide +kernel

/-! ## C66 — events in order are accepted -/

/-- The first event of a yarn that the branch knows nothing of is accepted. -/
def C66_claim : Prop := ∀ (v : Rdt.View) (hs : Hashing) (h h' : Host) (wall yarn : Word) (s : OpenStore) (o : AOp)
  (st : Status), Lived (Rdt.mergeCursors v) hs Careful h → h.find (branchId yarn) = some s →
  o.id.version = Uuid.vTIME → o.id.origin.payload ≠ 0 → o.id.value.toNat < NEVER.toNat →
  o.ref = formUuid Form.YARN → o.term = .raw → (∀ r ∈ s.data, ∀ p ∈ r.2, p.id.origin ≠ o.id.origin) →
  h.receive (Rdt.mergeCursors v) hs wall yarn ⟨[o], Status.ENDOFFRAME, true⟩ = some (st, h') → st.ok = true

/-- Once a branch has a tip, a frame has to end with an event of its own yarn. -/
theorem C66_violated : ¬ C66_claim := by
  intro h
  have h1 : ((host2.find (branchId yA)).bind fun s =>
      (host2.receive mg6 tHash 1002#64 yA ⟨[op2 (evB 3) (formUuid Form.YARN)], Status.ENDOFFRAME, true⟩).map fun r =>
      (s.data.all fun q => q.2.all fun p => decide (p.id.origin ≠ yB), r.1)) = some (true, Status.BAD_STATE) := by
    decide +kernel
  obtain ⟨s, hs, h1⟩ := Commit.bind_some h1
  obtain ⟨r, hr, h1⟩ := Commit.map_some h1
  simp only [Prod.mk.injEq, List.all_eq_true, decide_eq_true_eq] at h1
  have := h tView tHash host2 r.2 1002#64 yA s (op2 (evB 3) (formUuid Form.YARN)) r.1 lived2 hs (by decide) (by decide)
    (by decide) rfl rfl (fun q hq p hp => h1.1 q hq p hp) hr
  rw [h1.2] at this
  exact absurd this (by decide)

/-- In a new branch the first event of any yarn is accepted, and in the log afterwards. -/
theorem C66_first_partial (v : Rdt.View) (hs : Hashing) (wall active now : Word) (o : AOp)
    (hi : o.id.version = Uuid.vTIME) (hp : o.id.origin.payload ≠ 0) (hr : o.ref = formUuid Form.YARN)
    (hq : o.term ≠ .query) (hn : o.id.value.toNat < NEVER.toNat) :
    ∃ s' now', Commit.receive ⟨Rdt.mergeCursors v, hs, wall, active⟩ newStore Uuid.NIL now
      ⟨[o], Status.ENDOFFRAME, true⟩ = some (Status.OK, s', now') ∧ tipOf s' = some o.id ∧ Logged s' o.body := by
  have hok : Status.OK.ok = true := by decide
  have hsee : (clockSee now o.id).2.ok = true := by
    unfold clockSee
    rw [if_neg (by rw [hi]; decide)]
    split
    · exact hok
    · rw [if_neg (Nat.not_le.2 hn)]; exact hok
  have hsane : (Commit.checkEventSanity o).ok = true := by
    unfold Commit.checkEventSanity
    rw [hr, if_neg (by rw [hi]; decide), if_neg (by decide), if_neg (by decide), if_neg (by decide)]
    exact hok
  obtain ⟨t, c1, m, c2, ht, hh, hm⟩ := Commit.newStore_lookups v hs wall active Uuid.NIL now hi hr
  obtain ⟨s', now', h1, h2, h3, -⟩ := Commit.receive_one newStore_sorted hq hp hsane ht hh
    (by rw [hm]; decide) hsee (Or.inl rfl)
  exact ⟨s', now', h1, h2, _, h3, Commit.form_log _, _, List.mem_singleton.2 rfl, rfl⟩

/-- An event of another yarn in front of a frame that is accepted, the first one of a yarn that the branch knows nothing
of, does not change that. -/
def C66_mixed_claim : Prop := ∀ (v : Rdt.View) (hs : Hashing) (h h' h1 : Host) (wall yarn : Word) (s : OpenStore) (o : AOp)
  (os : List AOp) (st st1 : Status), Lived (Rdt.mergeCursors v) hs Careful h → h.find (branchId yarn) = some s →
  o.id.version = Uuid.vTIME → o.id.origin.payload ≠ 0 → o.id.value.toNat < NEVER.toNat →
  o.ref = formUuid Form.YARN → o.term = .raw → (∀ r ∈ s.data, ∀ p ∈ r.2, p.id.origin ≠ o.id.origin) →
  (∀ p ∈ os, p.id.origin = s.id.origin) →
  h.receive (Rdt.mergeCursors v) hs wall yarn ⟨os, Status.ENDOFFRAME, true⟩ = some (st, h') → st.ok = true →
  h.receive (Rdt.mergeCursors v) hs wall yarn ⟨o :: os, Status.ENDOFFRAME, true⟩ = some (st1, h1) → st1.ok = true

/-- The event of the other yarn is taken for the tip of the branch. If it is later than the second op of a chain of the
branch's yarn, the chain ends with that op, and the op is taken for the beginning of the next chain too, which is refused
as not later than what was just saved. -/
theorem C66_mixed_violated : ¬ C66_mixed_claim := by
  intro h
  have h1 : ((host2.find (branchId yA)).bind fun s =>
      (host2.receive mg6 tHash 1002#64 yA ⟨[op2 (evA 1010) (formUuid Form.LWW), op2 (evA 1011) (evA 1010)],
        Status.ENDOFFRAME, true⟩).bind fun q =>
      (host2.receive mg6 tHash 1002#64 yA ⟨[op2 (evB 3000) (formUuid Form.YARN), op2 (evA 1010) (formUuid Form.LWW),
        op2 (evA 1011) (evA 1010)], Status.ENDOFFRAME, true⟩).map fun r =>
      (s.data.all fun q => q.2.all fun p => decide (p.id.origin ≠ yB), decide (s.id.origin = yA), q.1.ok, r.1)) =
      some (true, true, true, Status.CAUSEBREAK) := by
    decide +kernel
  obtain ⟨s, hs, h1⟩ := Commit.bind_some h1
  obtain ⟨q, hq, h1⟩ := Commit.bind_some h1
  obtain ⟨r, hr, h1⟩ := Commit.map_some h1
  simp only [Prod.mk.injEq, List.all_eq_true, decide_eq_true_eq] at h1
  obtain ⟨k1, k2, k3, k4⟩ := h1
  have := h tView tHash host2 q.2 r.2 1002#64 yA s (op2 (evB 3000) (formUuid Form.YARN))
    [op2 (evA 1010) (formUuid Form.LWW), op2 (evA 1011) (evA 1010)] q.1 r.1 lived2 hs (by decide) (by decide)
    (by decide) rfl rfl (fun q hq p hp => k1 q hq p hp) (fun p hp => by
      rw [k2]
      rcases List.mem_cons.1 hp with rfl | hp
      · rfl
      · rw [List.mem_singleton.1 hp]; rfl) hq k3 hr
  rw [k4] at this
  exact absurd this (by decide)

/-- A chain of any length is accepted, logged, and its last event becomes the tip if: its first event is sane; the tip of
its yarn is found and earlier; the event it refers to is that tip, or is found, or it creates an object of a known
type; each of the others is a later event of the yarn that refers to the one before; and the branch has no tip or an
earlier one of the same yarn. Missing from the claim: events of other yarns at the end of a frame; frames of many chains. -/
theorem C66_chain_partial (env : Env) (main : MemStore) (hm : KeyOrder main) (tip : Uuid) (now : Word) (o : AOp)
    (os : List AOp) (t r : OpMeta) (c1 c2 : Commit) (hq : o.term ≠ .query) (hp : o.id.origin.payload ≠ 0)
    (hs : (Commit.checkEventSanity o).ok = true) (hy : o.ref ≠ formUuid Form.YARN)
    (ht : (Commit.start main tip now).findYarnTipMeta env o.id.origin = some (Status.OK, t, c1))
    (hlt : Uuid.lt t.id o.id = true) (hto : t.id.origin = o.id.origin)
    (href : o.ref = t.id ∧ r = t ∨
      o.ref.version = Uuid.vNAME ∧ uuid2form o.ref ≠ Form.ERROR ∧ r.rdt = o.ref ∧ r.object = o.id ∨
      o.ref ≠ t.id ∧ o.ref.version = Uuid.vTIME ∧ c1.findOpMeta env o.ref = some (Status.OK, r, c2))
    (hf : uuid2form r.rdt ≠ Form.ERROR) (hc : ChainedTo o.id os)
    (hn : (lastOf o.id os).value.toNat < NEVER.toNat)
    (hb : tip = Uuid.NIL ∨ tip.origin = o.id.origin ∧ Uuid.lt tip o.id = true) :
    ∃ s' now', Commit.receive env main tip now ⟨o :: os, Status.ENDOFFRAME, true⟩ = some (Status.OK, s', now') ∧
      tipOf s' = some (lastOf o.id os) ∧ (Key.mk' r.object Form.LOG, punctuate (o :: os)) ∈ s' ∧
      (Key.ofUuids r.object r.rdt, punctuate (o :: os)) ∈ s' := by
  have hok : Status.OK.ok = true := by decide
  have hi := Commit.sane_time hs
  have hlv : (lastOf o.id os).version = Uuid.vTIME := by
    unfold Uuid.version at *
    rw [(Commit.chained_last os o.id hc).1]
    exact hi
  have hsee : (clockSee now (lastOf o.id os)).2.ok = true := by
    unfold clockSee
    rw [if_neg (by rw [hlv]; decide)]
    split
    · exact hok
    · rw [if_neg (Nat.not_le.2 hn)]; exact hok
  have ht' : (Commit.start main tip now).yarnTip env o = some (Status.OK, t, c1) := by
    unfold Commit.yarnTip
    rw [ht, Option.bind_some, if_neg hy]
    simp only [hok, not_true_eq_false, if_false]
    rw [if_neg]
    unfold Uuid.ge
    rw [hlt]
    decide
  have hnext : ∀ x : OpMeta, ∃ m, t.next env.hs o x = some m ∧ m.rdt = x.rdt ∧ m.object = x.object := by
    intro x
    unfold OpMeta.next
    rw [if_pos ⟨hto.symm, hlt⟩]
    exact ⟨_, rfl, rfl, rfl⟩
  have hh : ∃ m c', c1.headMeta env t o = some (Status.OK, m, c') ∧ m.rdt = r.rdt ∧ m.object = r.object := by
    unfold Commit.headMeta
    by_cases hrt : o.ref = t.id
    · rw [if_pos hrt]
      rcases href with ⟨-, rfl⟩ | ⟨h1, -⟩ | ⟨h1, -⟩
      · obtain ⟨m, e, h1, h2⟩ := hnext r
        exact ⟨m, c1, by rw [e]; rfl, h1, h2⟩
      · exfalso
        rw [hrt] at h1
        have := Commit.time_of_origin hto
        rw [h1, hi] at this
        exact absurd this (by decide)
      · exact absurd hrt h1
    · rw [if_neg hrt]
      rcases href with ⟨h1, -⟩ | ⟨h1, h2, h3, h4⟩ | ⟨-, h1, h2⟩
      · exact absurd h1 hrt
      · rw [if_pos h1, if_neg h2, Commit.root_some hi h1]
        exact ⟨_, _, rfl, h3.symm, h4.symm⟩
      · rw [if_neg (by rw [h1]; decide), h2, Option.bind_some]
        simp only [hok, not_true_eq_false, if_false]
        obtain ⟨m, e, h1, h2⟩ := hnext r
        exact ⟨m, c2, by rw [e]; rfl, h1, h2⟩
  obtain ⟨m, c', hh, h1, h2⟩ := hh
  obtain ⟨s', now', a, b, c, d⟩ := Commit.receive_chain hm hq hp hs ht' hh (by rw [h1]; exact hf) hc hsee hb
  exact ⟨s', now', a, b, by rw [← h2]; exact c, by rw [← h2, ← h1]; exact d⟩

/-- An event is accepted, logged, and becomes the tip if: it is sane; the tip of its yarn is found
and earlier; the event it refers to is that tip, or is found, or it creates an object of a known
type; and the branch has no tip or an earlier one of the same yarn. Missing from the claim: events of
other yarns at the end of a frame; frames of many chains. The chain of one event, from `C66_chain_partial`. -/
theorem C66_next_partial (env : Env) (main : MemStore) (hm : KeyOrder main) (tip : Uuid) (now : Word) (o : AOp)
    (t r : OpMeta) (c1 c2 : Commit) (hq : o.term ≠ .query) (hp : o.id.origin.payload ≠ 0)
    (hs : (Commit.checkEventSanity o).ok = true) (hy : o.ref ≠ formUuid Form.YARN)
    (ht : (Commit.start main tip now).findYarnTipMeta env o.id.origin = some (Status.OK, t, c1))
    (hlt : Uuid.lt t.id o.id = true) (hto : t.id.origin = o.id.origin)
    (href : o.ref = t.id ∧ r = t ∨
      o.ref.version = Uuid.vNAME ∧ uuid2form o.ref ≠ Form.ERROR ∧ r.rdt = o.ref ∧ r.object = o.id ∨
      o.ref ≠ t.id ∧ o.ref.version = Uuid.vTIME ∧ c1.findOpMeta env o.ref = some (Status.OK, r, c2))
    (hf : uuid2form r.rdt ≠ Form.ERROR)
    (hn : o.id.value.toNat < NEVER.toNat)
    (hb : tip = Uuid.NIL ∨ tip.origin = o.id.origin ∧ Uuid.lt tip o.id = true) :
    ∃ s' now', Commit.receive env main tip now ⟨[o], Status.ENDOFFRAME, true⟩ = some (Status.OK, s', now') ∧
      tipOf s' = some o.id ∧ (Key.mk' r.object Form.LOG, [{ o with term := .raw }]) ∈ s' ∧
      (Key.ofUuids r.object r.rdt, [{ o with term := .raw }]) ∈ s' :=
  C66_chain_partial env main hm tip now o [] t r c1 c2 hq hp hs hy ht hlt hto href hf trivial hn hb

/-- The hypotheses hold: the next event of the yarn, with a reference to the one before. -/
example : ((Commit.start st1 (evA 10) 0#64).findYarnTipMeta tEnv yA).any (fun r => r.1 == Status.OK &&
      decide (r.2.1.id = evA 10) && Uuid.lt r.2.1.id (evA 12)) = true ∧
    uuid2form (formUuid Form.LWW) ≠ Form.ERROR ∧
    (rcv st1 (evA 10) [op2 (evA 12) (formUuid Form.LWW)]).any (fun r => r.1 == Status.OK) = true := by decide +kernel

/-- A chain of three: the hypotheses hold, and it is accepted. -/
example : ChainedTo (evA 12) [op2 (evA 13) (evA 12), op2 (evA 20) (evA 13)] ∧
    lastOf (evA 12) [op2 (evA 13) (evA 12), op2 (evA 20) (evA 13)] = evA 20 ∧
    (rcv st1 (evA 10) [op2 (evA 12) (formUuid Form.LWW), op2 (evA 13) (evA 12), op2 (evA 20) (evA 13)]).any (fun r =>
      r.1 == Status.OK && decide (tipOf r.2.1 = some (evA 20))) = true := by
  refine ⟨⟨?_, ?_, ?_, ?_, ?_, ?_, ?_, ?_, ?_⟩, ?_, ?_⟩ <;> first | trivial | decide +kernel

/-- The yarn of a stamp: that of the tip of the store, or if the store has no tip that of the active branch. -/
theorem C47_yarn (mg : Reducer) (hs : Hashing) (wall : Word) (h : Host) (main : MemStore) (tip : Uuid) (now : Word) :
    let t := ((Commit.start main tip now).hostNow (h.env mg hs wall)).1
    t.version = Uuid.vTIME ∧
      t.origin.payload = (if tip.origin = 0#64 then h.active.origin else tip.origin).payload := by
  refine ⟨Uuid.time_version _ _, ?_⟩
  exact Uuid.time_payload _ _

/-- A store without a tip, with the branch `A` active; a store with a tip of `B`. -/
example : ((Commit.start st0 Uuid.NIL 0#64).hostNow ({ host1 with active := branchId yA }.env mg6 tHash 5#64)).1 = evA 5 ∧
    ((Commit.start st0 (evB 3) 0#64).hostNow ({ host1 with active := branchId yA }.env mg6 tHash 5#64)).1 = evB 5 := by
  decide +kernel

end Ron.Props
