import Verif.Lemmas.HashFrame
/-!
Property C107: the hashes of the events of a frame.
-/
namespace Ron.Props
open Ron Spec HashRun

/-! ## C107 — the hashes of a frame -/

/-- Of a frame of events in order, each of which refers to a name or to an event before it, the command prints the hash of
every event. -/
def C107_claim : Prop := ∀ (hs : Hashing) (E : List AOp), (∀ o p r, (hs.op o p r).length = 32) → Clocked E → Backed [] E →
  ∃ out, hashFrame hs E = some (Status.OK, out) ∧
    ∀ o ∈ E, ∃ d t, Merkle hs E (.event o.id) d ∧ (⟨256, d⟩ : SHA2).base64 = some t ∧
      ∃ x ∈ out, x.body = (SHA2_ID, o.id, [.str (t.map UInt8.toNat)])

/-- What is refused: events that refer to nothing that came before. The report names the events in order; the hash of each is
the empty string, since the number of known bits of a hash is never set. -/
theorem C107_report_partial (hs : Hashing) (E : List AOp) (ht : ∀ o ∈ E, o.id.version = Uuid.vTIME) :
    ∃ st out, hashFrame hs E = some (st, out) ∧ (st.ok = true ↔ Backed [] E) ∧
      (st.ok = true → st = Status.OK ∧ out.map AOp.body = E.map fun o => (SHA2_ID, o.id, [.str []])) ∧
      (st.ok = false → (st = Status.TREEGAP ∨ st = Status.BAD_STATE) ∧ out = []) := by
  obtain ⟨st, s, h1, h2, h3, h4⟩ := loop_after E [] HashRun.empty (after_nil hs) ht
  refine ⟨st, if st.ok then s.report.release else [], ?_, h2, fun h => ?_, fun h => ⟨h4 h, by rw [h]; rfl⟩⟩
  · unfold hashFrame
    rw [h1]
    rfl
  · obtain ⟨h5, K⟩ := h3 h
    refine ⟨h5, ?_⟩
    rw [if_pos h, release_bodies, K.report]
    rfl

/-- Two events of a yarn: an object and a value. -/
def hashed : List AOp := [op2 (evA 10) (formUuid Form.LWW), op2 (evA 11) (evA 10) [.int 1]]
theorem hashed_timely : Clocked hashed := by
  refine ⟨by unfold hashed; decide +kernel, ?_⟩
  unfold hashed
  decide +kernel
theorem hashed_backed : Backed [] hashed := by
  unfold hashed Backed Backed Backed
  decide +kernel

/-- A hash that has bytes. -/
def ones : Hashing := ⟨fun _ _ _ => List.replicate 32 255, fun _ => List.replicate 32 255, fun _ => []⟩

theorem C107_violated : ¬ C107_claim := by
  intro h
  obtain ⟨out, h1, h2⟩ := h ones hashed (fun _ _ _ => by simp [ones]) hashed_timely hashed_backed
  obtain ⟨st, out', g1, g2, g3, -⟩ := C107_report_partial ones hashed hashed_timely.events
  rw [h1] at g1
  cases g1
  have hb := (g3 (by decide)).2
  obtain ⟨d, t, hm, ht, x, hx, hxb⟩ := h2 (op2 (evA 10) (formUuid Form.LWW)) List.mem_cons_self
  have : x.body ∈ out.map AOp.body := List.mem_map.2 ⟨x, hx, rfl⟩
  rw [hb] at this
  obtain ⟨o, ho, he⟩ := List.mem_map.1 this
  rw [hxb] at he
  simp only [Prod.mk.injEq, List.cons.injEq, AVal.str.injEq, and_true, true_and] at he
  have hd : d = List.replicate 32 255 := by
    generalize hc : Cause.event (op2 (evA 10) (formUuid Form.LWW)).id = c at hm
    cases hm with
    | start y => cases hc
    | name u => cases hc
    | event => rfl
  rw [hd] at ht
  have hl : (⟨256, List.replicate 32 255⟩ : SHA2).base64.map List.length = some 43 := by decide +kernel
  rw [ht] at hl
  have h0 : t = [] := List.map_eq_nil_iff.1 he.2.symm
  rw [h0] at hl
  cases hl

/-- The hashes are computed right: what is kept of every event is its Merkle hash. -/
theorem C107_merkle (hs : Hashing) (E : List AOp) (T : Clocked E) (s : HashRun)
    (e : HashRun.empty.loop hs E = some (Status.OK, s)) :
    ∀ o ∈ E, ∃ g, s.hashes.lookup o.id = some g ∧ Merkle hs E (.event o.id) g.bits := by
  obtain ⟨K, R⟩ := loop_right E [] HashRun.empty (after_nil hs) (fun i g h => by simp [HashRun.empty] at h) T s e
  intro o ho
  have hk := (K.known o.id).2 ⟨o, ho, rfl⟩
  match hl : s.hashes.lookup o.id, hk with
  | some g, _ => exact ⟨g, rfl, R _ _ hl⟩

theorem timely_inj {E : List AOp} (T : Clocked E) {a b : AOp} (ha : a ∈ E) (hb : b ∈ E) (h : a.id = b.id) : a = b := by
  have ho := T.order
  clear T
  induction E with
  | nil => cases ha
  | cons x E ih =>
    rw [List.pairwise_cons] at ho
    have key : ∀ y ∈ E, x.id ≠ y.id := by
      intro y hy e
      have h1 := ho.1 y hy (by rw [e])
      rw [e] at h1
      have := (Uuid.lt_same rfl).1 h1
      omega
    rcases List.mem_cons.1 ha with ha | ha <;> rcases List.mem_cons.1 hb with hb | hb
    · rw [ha, hb]
    · rw [ha] at h; exact absurd h (key b hb)
    · rw [hb] at h; exact absurd h.symm (key a ha)
    · exact ih ha hb ho.2

theorem precedes_unique {E : List AOp} {o : AOp} {a b : Cause} (ha : Precedes E o a) (hb : Precedes E o b) : a = b := by
  cases a with
  | name => exact ha.elim
  | start y =>
    cases b with
    | name => exact hb.elim
    | start z => rw [ha.1, hb.1]
    | event j =>
      obtain ⟨h1, h2, ⟨x, hx, rfl⟩, -⟩ := hb
      exact absurd h2 (ha.2 x hx h1)
  | event i =>
    obtain ⟨h1, h2, ⟨x, hx, rfl⟩, h3⟩ := ha
    cases b with
    | name => exact hb.elim
    | start z => exact absurd h2 (hb.2 x hx h1)
    | event j =>
      obtain ⟨g1, g2, ⟨y, hy, rfl⟩, g3⟩ := hb
      have e : x.id.origin = y.id.origin := h1.trans g1.symm
      have q1 := mt (Uuid.lt_same e).2 (h3 y hy g1 g2)
      have q2 := mt (Uuid.lt_same e.symm).2 (g3 x hx h1 h2)
      rw [Uuid.ext_same e (by omega)]

theorem refers_unique {o : AOp} {a b : Cause} (ha : Refers o a) (hb : Refers o b) : a = b := by
  cases a with
  | start => exact ha.elim
  | name u =>
    cases b with
    | start => exact hb.elim
    | name w => rw [← ha.2, ← hb.2]
    | event j => exact absurd (ha.1.symm.trans hb.1) (by decide)
  | event i =>
    cases b with
    | start => exact hb.elim
    | name w => exact absurd (hb.1.symm.trans ha.1) (by decide)
    | event j => rw [← ha.2, ← hb.2]

/-- An event of a frame in order has one Merkle hash at most. -/
theorem C107_unique (hs : Hashing) (E : List AOp) (T : Clocked E) (c : Cause) (d d' : Digest) (h : Merkle hs E c d)
    (h' : Merkle hs E c d') : d = d' := by
  induction h generalizing d' with
  | start y => cases h'; rfl
  | name u => cases h'; rfl
  | @event o a b p r ho hp hr _ _ ih1 ih2 =>
    generalize hc : Cause.event o.id = c at h'
    cases h' with
    | start => cases hc
    | name => cases hc
    | @event o' a' b' p' r' ho' hp' hr' hm1 hm2 =>
      have e := timely_inj T ho ho' (Cause.event.inj hc)
      subst e
      have e1 := precedes_unique hp hp'
      have e2 := refers_unique hr hr'
      subst e1
      subst e2
      rw [ih1 p' hm1, ih2 r' hm2]

example : ∃ s, HashRun.empty.loop ones hashed = some (Status.OK, s) := by
  obtain ⟨st, s, h1, h2, h3, -⟩ := loop_after hashed [] HashRun.empty (after_nil ones) hashed_timely.events
  exact ⟨s, by rw [h1, (h3 (h2.2 hashed_backed)).1]⟩

/-- Frames that are accepted are in order. -/
def C107_order_claim : Prop := ∀ (hs : Hashing) (E : List AOp) (out : List AOp), hashFrame hs E = some (Status.OK, out) →
  (∀ o ∈ E, o.id.version = Uuid.vTIME) → Clocked E

/-- The order of time is not looked at. -/
theorem C107_order_violated : ¬ C107_order_claim := by
  intro h
  have e : (hashFrame tHash [op2 (evA 11) (formUuid Form.LWW), op2 (evA 10) (formUuid Form.LWW)]).map Prod.fst =
      some Status.OK := by decide +kernel
  obtain ⟨r, hr, e⟩ := Commit.map_some e
  obtain ⟨st, out⟩ := r
  cases e
  have T := h tHash _ out hr (by decide +kernel)
  have := T.order
  rw [List.pairwise_cons] at this
  exact absurd (this.1 _ List.mem_cons_self rfl) (by decide)

/-- A frame with a hash that is not that of the event is refused. -/
def C107_check_claim : Prop := ∀ (hs : Hashing) (E : List AOp) (o : AOp) (d : Digest) (h : SHA2) (t : List Nat) (st : Status)
  (out : List AOp), Clocked E → o ∈ E → Merkle hs E (.event o.id) d →
  SHA2.parseBase64 (t.flatMap utf8append) = some h → h.matches ⟨256, d⟩ = some false →
  hashFrame hs (E ++ [⟨SHA2_ID, o.id, [.str t], .raw⟩]) = some (st, out) → st.ok = false

theorem sha2_name : SHA2_ID.version = Uuid.vNAME ∧ SHA2_ID.origin = 0#64 := by decide

/-- The hashes of events are in both; `s` has seen annotations, `t` has not. -/
structure Noted (s t : HashRun) : Prop where
  report : s.report = t.report
  hashes : ∀ i : Uuid, i.version = Uuid.vTIME → s.hashes.lookup i = t.hashes.lookup i
  tips : ∀ y : Word, y ≠ 0#64 → s.tips.lookup y = t.tips.lookup y
  zero : ∀ g, s.hashes.lookup SHA2_ID = some g → g.bits = List.replicate 32 0 ∧ g.known ≤ 256

theorem time_origin {i : Uuid} (h : i.version = Uuid.vTIME) : i.origin ≠ 0#64 := by
  intro e
  unfold Uuid.version at h
  rw [e] at h
  exact absurd h (by decide)

theorem annotated_event {hs : Hashing} {s t : HashRun} (A : Noted s t) {o : AOp} (ho : o.id.version = Uuid.vTIME) :
    ∃ st s' t', s.event hs o = some (st, s') ∧ t.event hs o = some (st, t') ∧ Noted s' t' := by
  have hp : s.prevHash hs o = t.prevHash hs o := by
    unfold prevHash
    rw [A.tips _ (time_origin ho)]
    split
    · rfl
    · rw [A.hashes _ (by unfold Uuid.version at ho ⊢; exact ho)]
  have hr : s.refHash hs o = t.refHash hs o := by
    unfold refHash
    by_cases h : o.ref.version = Uuid.vTIME
    · rw [if_pos h, if_pos h, A.hashes _ h]
    · rw [if_neg h, if_neg h]
  unfold event
  simp only [hp, hr]
  by_cases hk : ¬ (t.refHash hs o).1.ok = true
  · simp only [if_pos hk]
    exact ⟨_, _, _, rfl, rfl, A⟩
  · simp only [if_neg hk, base64_new, Option.map_some]
    refine ⟨_, _, _, rfl, rfl, by simp only [A.report], fun i hi => ?_, fun y hy => ?_, fun g hg => ?_⟩
    · simp only [lookup_cons, A.hashes i hi]
    · simp only [lookup_cons, A.tips y hy]
    · simp only [lookup_cons] at hg
      rw [if_neg] at hg
      · exact A.zero g hg
      · intro e
        rw [← e] at ho
        exact absurd (sha2_name.1.symm.trans ho) (by decide)

theorem annotated_note {s t : HashRun} (A : Noted s t) {o : AOp} {text : List Nat} (ho : o.id = SHA2_ID)
    (hl : (text.flatMap utf8append).length ≤ 43) : ∃ s', s.annotation o text = some (Status.OK, s') ∧ Noted s' t := by
  have hz : ∀ i : Uuid, i.version = Uuid.vTIME → i ≠ SHA2_ID := by
    intro i hi e
    rw [e] at hi
    exact absurd (sha2_name.1.symm.trans hi) (by decide)
  unfold annotation
  rw [(C11_hash_parse_zero _).2 hl, ho]
  simp only [Option.bind_some]
  cases hg : s.hashes.lookup SHA2_ID with
  | none =>
    refine ⟨_, rfl, A.report, fun i hi => ?_, fun y hy => ?_, fun g hg => ?_⟩
    · simp only [lookup_cons]
      rw [if_neg (hz i hi), A.hashes i hi]
    · simp only
      split
      · rw [lookup_cons, if_neg (by rw [sha2_name.2]; exact hy), A.tips y hy]
      · exact A.tips y hy
    · simp only [lookup_cons, if_true] at hg
      cases hg
      exact ⟨rfl, by simp only; omega⟩
  | some g =>
    obtain ⟨h1, h2⟩ := A.zero g hg
    obtain ⟨r, e, h3⟩ := C12_matches ⟨min (6 * (text.flatMap utf8append).length) 256, List.replicate 32 0⟩ g
      (by simp) (by rw [h1]; simp) (by simp only; omega) h2
    have hr : r = true := h3.2 (fun i _ => by rw [h1])
    simp only [e, hr, Option.map_some, if_true]
    exact ⟨s, rfl, A⟩

theorem loop_cons (hs : Hashing) (s : HashRun) (o : AOp) (f : List AOp) : s.loop hs (o :: f) =
    (s.turn hs o).bind fun r => if ¬ r.1.ok then some r else r.2.loop hs f := rfl

theorem annotated_loop {hs : Hashing} : ∀ (f : List AOp) (s t : HashRun), Noted s t →
    (∀ o ∈ f, o.id = SHA2_ID → ∀ x xs, o.vals = .str x :: xs → (x.flatMap utf8append).length ≤ 43) →
    ∃ st s' t', s.loop hs f = some (st, s') ∧ t.loop hs (f.filter fun o => decide (o.id.version = Uuid.vTIME)) = some (st, t') ∧
      Noted s' t' := by
  intro f
  induction f with
  | nil => intro s t A _; exact ⟨_, s, t, rfl, rfl, A⟩
  | cons o f ih =>
    intro s t A hl
    have hl' : ∀ x ∈ f, x.id = SHA2_ID → ∀ y ys, x.vals = .str y :: ys → (y.flatMap utf8append).length ≤ 43 :=
      fun x hx => hl x (List.mem_cons_of_mem _ hx)
    have hk : ¬ ¬ Status.OK.ok = true := by decide
    rw [loop_cons]
    by_cases ho : o.id.version = Uuid.vTIME
    · rw [List.filter_cons, if_pos (decide_eq_true ho)]
      obtain ⟨st, s', t', e1, e2, A'⟩ := annotated_event (hs := hs) A ho
      have q1 : s.turn hs o = some (st, s') := by unfold turn; rw [if_pos ho]; exact e1
      have q2 : t.turn hs o = some (st, t') := by unfold turn; rw [if_pos ho]; exact e2
      rw [q1, loop_cons, q2]
      simp only [Option.bind_some]
      by_cases hb : ¬ st.ok = true
      · simp only [if_pos hb]
        exact ⟨_, _, _, rfl, rfl, A'⟩
      · simp only [if_neg hb]
        exact ih s' t' A' hl'
    · rw [List.filter_cons, if_neg (by simpa using ho)]
      have hturn : ∃ s', s.turn hs o = some (Status.OK, s') ∧ Noted s' t := by
        unfold turn
        rw [if_neg ho]
        split
        · rename_i hi
          split
          · rename_i x xs hv
            exact annotated_note A hi (hl o List.mem_cons_self hi x xs hv)
          · exact ⟨s, rfl, A⟩
        · exact ⟨s, rfl, A⟩
      obtain ⟨s', e, A'⟩ := hturn
      rw [e]
      simp only [Option.bind_some, if_neg hk]
      obtain ⟨st, s'', t', h1, h2, h3⟩ := ih s' t A' hl'
      exact ⟨st, s'', t', h1, h2, h3⟩

/-- Whatever hashes are stated in a frame, they make no difference. (An assertion fails if one is longer than a hash.) -/
theorem C107_ignored (hs : Hashing) (f : List AOp)
    (hl : ∀ o ∈ f, o.id = SHA2_ID → ∀ x xs, o.vals = .str x :: xs → (x.flatMap utf8append).length ≤ 43) :
    hashFrame hs f = hashFrame hs (f.filter fun o => decide (o.id.version = Uuid.vTIME)) := by
  obtain ⟨st, s, t, h1, h2, h3⟩ := annotated_loop (hs := hs) f HashRun.empty HashRun.empty
    ⟨rfl, fun _ _ => rfl, fun _ _ => rfl, fun g hg => by simp [HashRun.empty] at hg⟩ hl
  unfold hashFrame
  rw [h1, h2]
  simp only [Option.map_some, h3.report]

/-- A hash of one character is stated, which is not that of the event. -/
theorem C107_check_violated : ¬ C107_check_claim := by
  intro h
  have h1 : Merkle ones [op2 (evA 10) (formUuid Form.LWW)] (.event (evA 10)) (List.replicate 32 255) := by
    have : Merkle ones [op2 (evA 10) (formUuid Form.LWW)] (.event (op2 (evA 10) (formUuid Form.LWW)).id)
        (ones.op (op2 (evA 10) (formUuid Form.LWW)) (ones.form ⟨0#64, yA⟩) (ones.form (formUuid Form.LWW))) :=
      .event List.mem_cons_self (a := .start yA) (b := .name (formUuid Form.LWW))
        ⟨rfl, fun x hx _ => by rw [List.mem_singleton.1 hx]; decide⟩ ⟨by decide, rfl⟩ (.start _) (.name _)
    exact this
  have T : Clocked [op2 (evA 10) (formUuid Form.LWW)] :=
    ⟨fun o ho => by rw [List.mem_singleton.1 ho]; decide, List.pairwise_singleton _ _⟩
  have h2 : (hashFrame ones ([op2 (evA 10) (formUuid Form.LWW)] ++ [⟨SHA2_ID, evA 10, [.str [48]], .raw⟩])).map Prod.fst =
      some Status.OK := by decide +kernel
  obtain ⟨r, hr, e⟩ := Commit.map_some h2
  obtain ⟨st, out⟩ := r
  cases e
  have := h ones _ (op2 (evA 10) (formUuid Form.LWW)) _ ⟨6, List.replicate 32 0⟩ [48] Status.OK out T List.mem_cons_self h1
    (by decide +kernel) (by decide +kernel) hr
  exact absurd this (by decide)

/-- The hash that the replica gives to an event is the one that the command gives to it. -/
def C107_replica_claim : Prop := ∀ (hs : Hashing) (o : AOp) (m : OpMeta) (d : Digest),
  OpMeta.root hs o OpMeta.nil = some m → Merkle hs [o] (.event o.id) d → m.hash = d

theorem root_merkle {hs : Hashing} {o : AOp} (hn : o.ref.version = Uuid.vNAME) :
    Merkle hs [o] (.event o.id) (hs.op o (hs.form ⟨0#64, o.id.origin⟩) (hs.form o.ref)) :=
  .event List.mem_cons_self (a := .start o.id.origin) (b := .name o.ref)
    ⟨rfl, fun x hx _ h => by
      rw [List.mem_singleton.1 hx] at h
      have := (Uuid.lt_same rfl).1 h
      omega⟩ ⟨hn, rfl⟩ (.start _) (.name _)

/-- If the hash function is collision free on the strings hashed, no root op has the same hash in both. -/
theorem C107_replica_differs (H : List Byte → List Byte) (text : Digest → List Nat) (o : AOp) (m : OpMeta) (d : Digest)
    (hv : ∀ a ∈ o.vals.map plain, HAtomOk a)
    (e : OpMeta.root (hashing H text) o OpMeta.nil = some m) (hd : Merkle (hashing H text) [o] (.event o.id) d)
    (hf : Fine H [atomBytes ⟨0#64, o.id.origin⟩,
      opBytes o.id o.ref (o.vals.map plain) (List.replicate 32 0) (H (atomBytes o.ref)),
      opBytes o.id o.ref (o.vals.map plain) (H (atomBytes ⟨0#64, o.id.origin⟩)) (H (atomBytes o.ref))]) : m.hash ≠ d := by
  unfold OpMeta.root at e
  split at e
  · rename_i hv'
    cases e
    have T : Clocked [o] := ⟨fun x hx => by rw [List.mem_singleton.1 hx]; exact hv'.1, List.pairwise_singleton _ _⟩
    rw [C107_unique _ _ T _ _ _ hd (root_merkle hv'.2)]
    intro he
    have he : H (opBytes o.id o.ref (o.vals.map plain) (List.replicate 32 0) (H (atomBytes o.ref))) =
      H (opBytes o.id o.ref (o.vals.map plain) (H (atomBytes ⟨0#64, o.id.origin⟩)) (H (atomBytes o.ref))) := he
    have := hf.inj _ (by simp) _ (by simp) he
    have := opBytes_inj hv hv (by rw [List.length_replicate, hf.size]) rfl this
    exact hf.nonzero _ List.mem_cons_self this.2.2.2.1.symm
  · cases e

example :
    let H : List Byte → List Byte := fun s => s.foldl (· + ·) 0 :: List.replicate 31 1
    let o := op2 (evA 10) (formUuid Form.YARN)
    Fine H [atomBytes ⟨0#64, o.id.origin⟩,
      opBytes o.id o.ref (o.vals.map plain) (List.replicate 32 0) (H (atomBytes o.ref)),
      opBytes o.id o.ref (o.vals.map plain) (H (atomBytes ⟨0#64, o.id.origin⟩)) (H (atomBytes o.ref))] ∧
    (OpMeta.root (hashing H fun _ => []) o OpMeta.nil).isSome = true :=
  ⟨⟨fun s => by simp, by decide +kernel, by decide +kernel⟩, by decide +kernel⟩

/-- The replica takes zeroes for the hash of what comes before a yarn, the command takes the hash of its id. -/
theorem C107_replica_violated : ¬ C107_replica_claim := by
  intro h
  have := h ⟨fun _ p _ => p, fun _ => [1], fun _ => []⟩ (op2 (evA 10) (formUuid Form.YARN))
    ⟨evA 10, formUuid Form.YARN, evA 10, List.replicate 32 0, 0#64, 10#64⟩ [1] (by decide +kernel)
    (root_merkle (by decide))
  exact absurd this (by decide)

end Ron.Props
