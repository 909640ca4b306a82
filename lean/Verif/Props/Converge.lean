import Verif.Lemmas.Converge
import Verif.Props.Filing
import Verif.Props.Rga
import Verif.Lemmas.StoreRun
/-!
C97: the state of an object is what its log says; C98: replicas that have the same events have the
same objects.
-/
namespace Ron.Props
open Ron Commit Spec

/-! ## C97 — the state of an object is what its log says -/

/-- Whatever frames are received, the state of an object of one of the usual types can be read, and
its ops are those of the log of the object. -/
def C97_claim : Prop := ∀ (v : Rdt.View) (s : MemStore), Received (Rdt.mergeCursors v) st0 s →
  ∀ obj rdt, Created s obj rdt → StateForm (uuid2form rdt) →
    ∃ out, Engine.read (Rdt.mergeCursors v) s (Key.ofUuids obj rdt) = some (Status.OK, out) ∧
      ∀ b, (∃ o ∈ out, o.body = b) ↔ HeldIn (Key.mk' obj Form.LOG) s b

/-- An array that three more chains are added to. -/
def st97 : MemStore := after (rcv st60 Uuid.NIL [op2 (evB 13) (evA 11) [.int 1], op2 (evA 14) (evA 11) [.int 2],
  op2 (evB 15) (evA 11) [.int 3]])

theorem received_st97 : Received tEnv.mg st0 st97 :=
  received_after received_st60 (by decide +kernel)

/-- It fails: an array written in more than three chains can not be read. -/
theorem C97_violated : ¬ C97_claim := by
  intro h
  obtain ⟨out, e, -⟩ := h tView st97 received_st97 (evA 11) (formUuid Form.RGA)
    ⟨by decide, _, heldIn_of (b := (evA 11, formUuid Form.RGA, [])) (by decide +kernel), rfl, rfl⟩ (by
      right; decide)
  have k : (Engine.read (Rdt.mergeCursors tView) st97 (Key.ofUuids (evA 11) (formUuid Form.RGA))).map
      (fun r => r.1.ok) = some false := by decide +kernel
  rw [e] at k
  revert k
  show ¬ some Status.OK.ok = some false
  decide

/-- All of it was accepted. -/
example : (statusOf (rcv st60 Uuid.NIL [op2 (evB 13) (evA 11) [.int 1], op2 (evA 14) (evA 11) [.int 2],
  op2 (evB 15) (evA 11) [.int 3]])).ok = true := by decide +kernel

/-- The reducers of the code (but that of `max`) are such. -/
theorem C97_reducers_partial (v : Rdt.View) :
    Saves fun f fs => if f = Form.MAX then none else Rdt.mergeCursors v f fs := by
  constructor
  · intro f fs st out hf h hok hne hs
    have hmax : f ≠ Form.MAX := by
      rcases hf with (h | h | h) | h <;> rw [h] <;> decide
    rw [if_neg hmax] at h
    rcases hf with hf | rfl
    · obtain ⟨out', e, -, h2, -⟩ := Rdt.merge_id v hf fs (hs hf)
      rw [e] at h
      cases h
      intro i hi o ho
      exact (h2 o.id).2 ⟨o, List.mem_flatten.2 ⟨i, hi, ho⟩, rfl⟩
    · by_cases hlen : fs.length ≤ 3
      · obtain ⟨s, out', e, h1, -, h3⟩ := C31_accepts_iff v fs hne hlen
        rw [e] at h
        cases h
        refine h3 (h1.resolve_right ?_)
        intro e
        rw [e] at hok
        exact absurd hok (by decide)
      · rw [C31_refuses_many v fs hne (by omega)] at h
        cases h
        exact absurd hok (by decide)
  · intro f fs hf hs
    have hmax : f ≠ Form.MAX := by
      rcases hf with h | h | h <;> rw [h] <;> decide
    obtain ⟨out, e, h1, -⟩ := Rdt.merge_id v hf fs hs
    exact ⟨out, by rw [if_neg hmax]; exact e, h1⟩

theorem mem_operands {s : MemStore} {k : Key} (g : Frame) : g ∈ Engine.operands s k ↔ (k, g) ∈ s := by
  unfold Engine.operands
  rw [List.mem_map]
  constructor
  · rintro ⟨r, hr, rfl⟩
    obtain ⟨h1, h2⟩ := List.mem_filter.1 hr
    have h2 := of_decide_eq_true h2
    rw [← h2]; exact h1
  · intro hg
    exact ⟨_, List.mem_filter.2 ⟨hg, decide_eq_true rfl⟩, rfl⟩

/-- Everything that is known of a history. -/
theorem history_whole {mg : Reducer} (hm : Honest mg) (hv : Saves mg) {s : MemStore} (h : ReceivedPlain mg st0 s) :
    Filed (formUuid Form.META) NAMES s ∧ Whole s := by
  induction h with
  | none =>
    have one : ∀ k b, HeldIn k st0 b → k = Key.ZERO ∧ b.2.1 ≠ formUuid Form.META := by
      rintro k b ⟨f, hf, o, ho, rfl⟩
      cases List.mem_singleton.1 hf
      rw [List.mem_singleton.1 ho]
      exact ⟨rfl, by decide⟩
    refine ⟨⟨fun k b hk hb => ?_, fun k b h1 _ _ _ hb => ?_, fun k b hb e => ?_⟩, ⟨?_, ?_⟩⟩
    · rw [(one k b hb).1] at hk; exact absurd hk (by decide)
    · rw [(one k b hb).1] at h1; exact absurd (by decide) h1
    · exact absurd e (one k b hb).2
    · intro k f hf _
      cases List.mem_singleton.1 hf
      exact List.pairwise_singleton _ _
    · rintro - obj rdt ⟨-, b, hb, -⟩
      have := (one _ b hb).1
      rw [show (Key.mk' obj Form.LOG = Key.ZERO) = ((Key.mk' obj Form.LOG) = Key.ZERO) from rfl] at this
      have e := form_log obj
      rw [this] at e
      exact absurd e (by decide)
  | more h he hid hr ih =>
    exact ⟨C60_filed_partial _ (by rw [he]; exact hm) _ _ _ _ _ _ _ hid ih.1 hr,
      receive_whole (by rw [he]; exact hm) (by rw [he]; exact hv) hid ih.1 ih.2 hr⟩

/-- The records: an object of one of these types (registers, sets, arrays, yarns) has in the records
of its state the ops of its log, all of them and no others. Assumed: no op received refers to the name
`meta` or to the stamp `NEVER`; the ids in the logs are those of plain events, each of one op. -/
theorem C97_states_partial (mg : Reducer) (hm : Honest mg) (hv : Saves mg) (s : MemStore)
    (h : ReceivedPlain mg st0 s) (ht : Tidy s) (obj rdt : Uuid) (hc : Created s obj rdt)
    (hf : StateForm (uuid2form rdt)) (b : Body) :
    HeldIn (Key.ofUuids obj rdt) s b ↔ HeldIn (Key.mk' obj Form.LOG) s b := by
  obtain ⟨hfd, hw⟩ := history_whole hm hv h
  refine ⟨fun hb => ?_, hw.states ht obj rdt hc hf b⟩
  obtain ⟨h0, b0, hb0, e0, e0'⟩ := hc
  have hev := ht.event (form_log _) hb0
  have hz := (ht.plain _ _ (form_log _) hb0).2.2
  rw [e0] at hev hz
  obtain ⟨n1, n2, n3, -⟩ := stateForm_ne hf
  have hform : (Key.ofUuids obj rdt).form = uuid2form rdt := form_mk _ _
  obtain ⟨obj', rdt', e, hc', hl⟩ := hfd.states (Key.ofUuids obj rdt) b (by rw [hform]; exact n1)
    (by rw [hform]; exact n2) (by rw [hform]; exact n3) (not_names hev hz) hb
  obtain ⟨-, b1, hb1, e1, -⟩ := hc'
  have hev' := ht.event (form_log _) hb1
  rw [e1] at hev'
  rw [(C08_key_injective _ _ _ _ hev hev' e).1]
  exact hl

/-- Reading the state of a register, a set or a yarn: it succeeds and gives the ops of the log of the
object, in the order of ids, each once. -/
theorem C97_read_partial (mg : Reducer) (hm : Honest mg) (hv : Saves mg) (s : MemStore)
    (h : ReceivedPlain mg st0 s) (ht : Tidy s) (obj rdt : Uuid) (hc : Created s obj rdt)
    (hf : IdForm (uuid2form rdt)) :
    ∃ out, Engine.read mg s (Key.ofUuids obj rdt) = some (Status.OK, out) ∧ IdSorted out ∧
      ∀ b, (∃ o ∈ out, o.body = b) ↔ HeldIn (Key.mk' obj Form.LOG) s b := by
  have same := C97_states_partial mg hm hv s h ht obj rdt hc (Or.inl hf)
  obtain ⟨hfd, hw⟩ := history_whole hm hv h
  have hform : (Key.ofUuids obj rdt).form = uuid2form rdt := form_mk _ _
  have hne : Key.ofUuids obj rdt ≠ Key.END := key_ne_end (stateForm_ne (Or.inl hf)).2.2.2
  have hops : ∀ g, g ∈ Engine.operands s (Key.ofUuids obj rdt) ↔ (Key.ofUuids obj rdt, g) ∈ s := mem_operands
  have sorted : ∀ i ∈ withOps (Engine.operands s (Key.ofUuids obj rdt)), IdSorted i := fun i hi =>
    hw.order _ i ((hops i).1 (mem_withOps.1 hi).1) (by rw [hform]; exact hf)
  obtain ⟨out, e, h1⟩ := hv.order hf sorted
  have held : ∀ o : AOp, (∃ i ∈ withOps (Engine.operands s (Key.ofUuids obj rdt)), o ∈ i) →
      HeldIn (Key.mk' obj Form.LOG) s o.body := by
    rintro o ⟨i, hi, ho⟩
    exact (same _).1 ⟨i, (hops i).1 (mem_withOps.1 hi).1, o, ho, rfl⟩
  refine ⟨out, ?_, h1, fun b => ⟨?_, fun hb => ?_⟩⟩
  · unfold Engine.read
    rw [if_neg hne]
    have hx : ∃ g, g ∈ Engine.operands s (Key.ofUuids obj rdt) := by
      obtain ⟨-, b0, hb0, -⟩ := hc
      obtain ⟨g, hg, -⟩ := (same b0).2 hb0
      exact ⟨g, (hops g).2 hg⟩
    rw [← hform] at e
    split
    · rename_i h0
      obtain ⟨g, hg⟩ := hx
      rw [h0] at hg; cases hg
    · rw [e]; rfl
  · rintro ⟨o, ho, rfl⟩
    obtain ⟨i, hi, x, hx, ex⟩ := hm.noNew e (by decide) o ho
    rw [← ex]
    exact held x ⟨i, hi, hx⟩
  · obtain ⟨g, hg, o, ho, rfl⟩ := (same b).2 hb
    have hgw : g ∈ withOps (Engine.operands s (Key.ofUuids obj rdt)) :=
      mem_withOps.2 ⟨(hops g).2 hg, by intro e; rw [e] at ho; cases ho⟩
    obtain ⟨x, hx, ex⟩ := hv.ids (Or.inl hf) e (by decide) (fun i hi => (mem_withOps.1 hi).2) (fun _ => sorted) g hgw o ho
    obtain ⟨i, hi, y, hy, ey⟩ := hm.noNew e (by decide) x hx
    have eb : y.body = o.body := ht.one _ _ _ _ (form_log _) (form_log _) (held y ⟨i, hi, hy⟩) (held o ⟨g, hgw, ho⟩)
      (by rw [ey]; exact ex)
    exact ⟨x, hx, by rw [← ey, eb]⟩

/-- The reducers of the code but that of `max`. -/
def butMax (v : Rdt.View) : Reducer := fun f fs => if f = Form.MAX then none else Rdt.mergeCursors v f fs

/-- Frames of updates: no queries, no maps. -/
inductive ReceivedUpdates (mg : Reducer) : MemStore → MemStore → Prop where
  | none (s : MemStore) : ReceivedUpdates mg s s
  | more {s s' s'' : MemStore} {env : Env} {tip : Uuid} {now now' : Word} {cur : ACur} {st : Status} :
    ReceivedUpdates mg s s' → env.mg = mg → (∀ o ∈ cur.ops, Plain o) → (∀ o ∈ cur.ops, Update o) →
    receive env s' tip now cur = some (st, s'', now') → ReceivedUpdates mg s s''

theorem ReceivedUpdates.plain {mg : Reducer} {s s' : MemStore} (h : ReceivedUpdates mg s s') : ReceivedPlain mg s s' := by
  induction h with
  | none => exact .none _
  | more _ he hp _ hr ih => exact .more ih he hp hr

theorem ReceivedUpdates.chains {mg : Reducer} (hm : Honest mg) (hv : Saves mg) {s : MemStore} (h : ReceivedUpdates mg st0 s) :
    ArrayChains s := by
  induction h with
  | none =>
    intro k f hf hk
    cases List.mem_singleton.1 hf
    exact absurd hk (by decide)
  | more h he hp hu hr ih =>
    exact receive_chained (by rw [he]; exact hm) hp hu (history_whole hm hv h.plain).1 ih hr

theorem bares_eq : ∀ {u w : List AOp}, u.map AOp.body = w.map AOp.body → u.map bare = w.map bare
  | [], [], _ => rfl
  | [], _ :: _, h => by cases h
  | _ :: _, [], h => by cases h
  | a :: u, b :: w, h => by
    rw [List.map_cons, List.map_cons] at h ⊢
    obtain ⟨h1, h2⟩ := List.cons.inj h
    rw [bare_eq h1, bares_eq h2]

/-- No op is in the records of the state twice. -/
def NoRepeats (s : MemStore) (k : Key) : Prop := ((Engine.operands s k).flatten.map AOp.id).Nodup

/-- Reading the state of an array that came in no more than three chains: it gives the ops of the log
in the order of the weave, and they are a tree. Missing for the full claim: more chains (which can not
be read, `C97_violated`), frames that query in between. -/
theorem C97_weave_partial (v : Rdt.View) (s : MemStore) (h : ReceivedUpdates (butMax v) st0 s) (ht : Tidy s)
    (obj rdt : Uuid) (hc : Created s obj rdt) (hf : uuid2form rdt = Form.RGA)
    (hlen : (Engine.operands s (Key.ofUuids obj rdt)).length ≤ 3) (hrep : NoRepeats s (Key.ofUuids obj rdt))
    (ops : List AOp) (hops : LogOps s obj ops) :
    ∃ out, Engine.read (butMax v) s (Key.ofUuids obj rdt) = some (Status.OK, out) ∧ Tree ops obj ∧
      IsWeave ops obj (out.map bare) := by
  have hm := C45_honest_partial v
  have hp := h.plain
  have same := C97_states_partial _ hm (C97_reducers_partial v) s hp ht obj rdt hc (Or.inr hf)
  obtain ⟨hself, -⟩ := C60_history_partial _ hm s hp
  have hch := h.chains hm (C97_reducers_partial v)
  have hform : (Key.ofUuids obj rdt).form = Form.RGA := by rw [← hf]; exact form_mk _ _
  have hne : Key.ofUuids obj rdt ≠ Key.END := key_ne_end (stateForm_ne (Or.inr hf)).2.2.2
  have hmem : ∀ g, g ∈ Engine.operands s (Key.ofUuids obj rdt) ↔ (Key.ofUuids obj rdt, g) ∈ s := mem_operands
  generalize hins : withOps (Engine.operands s (Key.ofUuids obj rdt)) = ins
  have hflat : ins.flatten = (Engine.operands s (Key.ofUuids obj rdt)).flatten := by rw [← hins, Rdt.withOps_flatten]
  have log : ∀ b, (∃ o ∈ ins.flatten, o.body = b) ↔ HeldIn (Key.mk' obj Form.LOG) s b := by
    intro b
    rw [← same b, hflat]
    constructor
    · rintro ⟨o, ho, e⟩
      obtain ⟨g, hg, ho⟩ := List.mem_flatten.1 ho
      exact ⟨g, (hmem g).1 hg, o, ho, e⟩
    · rintro ⟨g, hg, o, ho, e⟩
      exact ⟨o, List.mem_flatten.2 ⟨g, (hmem g).2 hg, ho⟩, e⟩
  have hev : ∀ b, HeldIn (Key.mk' obj Form.LOG) s b → _ := fun b hb => ht.event (form_log _) hb
  have htree : Tree ins.flatten obj := by
    refine ⟨by rw [hflat]; exact hrep, ?_⟩
    have : ∀ (n : Nat) (o : AOp), o ∈ ins.flatten → o.id.rank < n → ∃ l, Spec.Path ins.flatten obj o l := by
      intro n
      induction n with
      | zero => intro o _ hn; exact absurd hn (Nat.not_lt_zero _)
      | succ n ih =>
        intro o ho hn
        have hb := (log o.body).1 ⟨o, ho, rfl⟩
        obtain ⟨-, ⟨-, -, e⟩ | ⟨-, hlt, x, hx, e⟩⟩ := hself _ _ (form_log _) hb
        · obtain ⟨-, b0, hb0, e0, -⟩ := hc
          have h0 := hev _ hb0
          rw [e0] at h0
          exact ⟨_, .root o ho (C08_key_injective _ _ _ _ (hev _ hb) h0 e).1⟩
        · obtain ⟨p, hp, rfl⟩ := (log x).2 hx
          have e : p.id = o.ref := e
          have hlt : Uuid.lt p.id o.id = true := by rw [e]; exact hlt
          obtain ⟨l, hl⟩ := ih p hp (Nat.lt_of_lt_of_le (Uuid.rank_lt hlt) (Nat.le_of_lt_succ hn))
          exact ⟨_, .child p o l hl ho e.symm hlt⟩
    exact fun o ho => this _ o ho (Nat.lt_succ_self _)
  have hpc : ∀ i ∈ ins, i ≠ [] ∧ Piece ins.flatten obj i := by
    intro i hi
    have hi' := mem_withOps.1 (by rw [hins]; exact hi)
    obtain ⟨h1, h2⟩ := hch _ i ((hmem i).1 hi'.1) hform
    exact ⟨hi'.2, chain_piece htree (fun o ho => List.mem_flatten.2 ⟨i, hi, ho⟩) h1 h2⟩
  have hx : ∃ g o, g ∈ Engine.operands s (Key.ofUuids obj rdt) ∧ o ∈ g := by
    obtain ⟨-, b0, hb0, -⟩ := hc
    obtain ⟨g, hg, o, ho, -⟩ := (same b0).2 hb0
    exact ⟨g, o, (hmem g).2 hg, ho⟩
  obtain ⟨g, o, hg, ho⟩ := hx
  have hgi : g ∈ ins := by
    rw [← hins]
    exact mem_withOps.2 ⟨hg, by intro e; rw [e] at ho; cases ho⟩
  obtain ⟨out, w, e, hout, hw⟩ := C30_weave_partial v obj ins htree hpc
    (by rw [← hins]; exact Nat.le_trans (List.length_filter_le _ _) hlen)
    (by intro e; rw [e] at hgi; cases hgi)
  have hB : ∀ o, o ∈ ops ↔ ∃ a ∈ ins.flatten, bare a = o := by
    intro o
    rw [hops.2 o, ← log]
    constructor
    · rintro ⟨h1, a, ha, e⟩
      refine ⟨a, ha, (bare_eq e).trans ?_⟩
      cases o; cases h1; rfl
    · rintro ⟨a, ha, rfl⟩
      exact ⟨rfl, a, ha, rfl⟩
  obtain ⟨t1, t2⟩ := weave_bare htree hops.1 hB hw
  refine ⟨out, ?_, t1, ?_⟩
  · unfold Engine.read
    rw [if_neg hne]
    split
    · rename_i h0
      rw [h0] at hg; cases hg
    · rw [hform, hins]
      show ((if Form.RGA = Form.MAX then none else Rdt.mergeCursors v Form.RGA ins).map _) = _
      rw [if_neg (by decide), e]; rfl
  · rw [hout]
    rw [bares_eq (Rdt.punctuate_body w)]; exact t2

/-! ## C98 — replicas that have the same events have the same objects -/

/-- Two replicas whose logs have the same events read the same states, whatever the order in which the
events came. -/
def C98_claim : Prop := ∀ (v v' : Rdt.View) (s t : MemStore), Received (Rdt.mergeCursors v) st0 s →
  Received (Rdt.mergeCursors v') st0 t → (∀ b, Logged s b ↔ Logged t b) →
  ∀ obj rdt, Created s obj rdt → StateForm (uuid2form rdt) →
    ∃ st out out', Engine.read (Rdt.mergeCursors v) s (Key.ofUuids obj rdt) = some (st, out) ∧
      Engine.read (Rdt.mergeCursors v') t (Key.ofUuids obj rdt) = some (st, out') ∧
      out.map AOp.body = out'.map AOp.body

def frame98 : List AOp := [op2 (evA 11) (formUuid Form.RGA), op2 (evA 12) (evA 11) [.int 1],
  op2 (evA 13) (evA 12) [.int 2], op2 (evA 14) (evA 13) [.int 3]]
/-- The events in one frame. -/
def st98 : MemStore := after (rcv st1 Uuid.NIL frame98)
def st981 : MemStore := after (rcv st1 Uuid.NIL (frame98.take 1))
def st982 : MemStore := after (rcv st981 Uuid.NIL ((frame98.drop 1).take 1))
def st983 : MemStore := after (rcv st982 Uuid.NIL ((frame98.drop 2).take 1))
/-- The same events in frames of one event. -/
def st984 : MemStore := after (rcv st983 Uuid.NIL (frame98.drop 3))

theorem received_st98 : Received tEnv.mg st0 st98 := received_after received_st1 (by decide +kernel)

theorem received_st984 : Received tEnv.mg st0 st984 :=
  received_after (received_after (received_after (received_after received_st1 (by decide +kernel)) (by decide +kernel))
    (by decide +kernel)) (by decide +kernel)

theorem logged_same {s t : MemStore}
    (h : ∀ r ∈ s, r.1.form = Form.LOG → ∀ o ∈ r.2, ∃ r' ∈ t, r'.1.form = Form.LOG ∧ ∃ o' ∈ r'.2, o'.body = o.body)
    (b : Body) : Logged s b → Logged t b := by
  rintro ⟨r, hr, hk, o, ho, rfl⟩
  obtain ⟨r', hr', hk', o', ho', e⟩ := h r hr hk o ho
  exact ⟨r', hr', hk', o', ho', e⟩

/-- It fails: the replica that received the array event by event can not read it. -/
theorem C98_violated : ¬ C98_claim := by
  intro h
  obtain ⟨st, out, out', e, e', -⟩ := h tView tView st98 st984 received_st98 received_st984
    (fun b => ⟨logged_same (by decide +kernel) b, logged_same (by decide +kernel) b⟩) (evA 11) (formUuid Form.RGA)
    ⟨by decide, _, heldIn_of (b := (evA 11, formUuid Form.RGA, [])) (by decide +kernel), rfl, rfl⟩ (by
      right; decide)
  have k : (Engine.read (Rdt.mergeCursors tView) st98 (Key.ofUuids (evA 11) (formUuid Form.RGA))).map
      (fun r => r.1.ok) = some true := by decide +kernel
  have k' : (Engine.read (Rdt.mergeCursors tView) st984 (Key.ofUuids (evA 11) (formUuid Form.RGA))).map
      (fun r => r.1.ok) = some false := by decide +kernel
  rw [e] at k
  rw [e'] at k'
  simp only [Option.map_some, Option.some.injEq] at k k'
  rw [k] at k'
  cases k'

/-- The same objects, with the same logs. -/
theorem C98_logs_partial (mg mg' : Reducer) (hm : Honest mg) (hm' : Honest mg') (s t : MemStore)
    (hs : ReceivedPlain mg st0 s) (ht : ReceivedPlain mg' st0 t) (htd : Tidy s)
    (h : ∀ b, Logged s b ↔ Logged t b) (obj : Uuid) :
    (∀ b, HeldIn (Key.mk' obj Form.LOG) s b ↔ HeldIn (Key.mk' obj Form.LOG) t b) ∧
    ∀ rdt, Created s obj rdt ↔ Created t obj rdt := by
  have ss := (C60_history_partial mg hm s hs).1
  have tt := (C60_history_partial mg' hm' t ht).1
  have htd' := htd.of_same h
  have logs : ∀ b, HeldIn (Key.mk' obj Form.LOG) s b ↔ HeldIn (Key.mk' obj Form.LOG) t b := fun b =>
    ⟨logs_agree ss tt htd htd' h _ (Nat.lt_succ_self _) (form_log _),
     logs_agree tt ss htd' htd (fun b => (h b).symm) _ (Nat.lt_succ_self _) (form_log _)⟩
  refine ⟨logs, fun rdt => ⟨?_, ?_⟩⟩
  · rintro ⟨h0, b, hb, e⟩; exact ⟨h0, b, (logs b).1 hb, e⟩
  · rintro ⟨h0, b, hb, e⟩; exact ⟨h0, b, (logs b).2 hb, e⟩

/-- Registers, sets and yarns: two replicas that have the same events in their logs have the same
objects, and reading one gives the same ops in the same order at both; whatever frames brought the
events, in whatever order, and whatever was queried or refused in between. -/
theorem C98_read_partial (mg mg' : Reducer) (hm : Honest mg) (hm' : Honest mg') (hv : Saves mg) (hv' : Saves mg')
    (s t : MemStore) (hs : ReceivedPlain mg st0 s) (ht : ReceivedPlain mg' st0 t) (htd : Tidy s)
    (h : ∀ b, Logged s b ↔ Logged t b) (obj rdt : Uuid) (hc : Created s obj rdt) (hf : IdForm (uuid2form rdt)) :
    ∃ out out', Engine.read mg s (Key.ofUuids obj rdt) = some (Status.OK, out) ∧
      Engine.read mg' t (Key.ofUuids obj rdt) = some (Status.OK, out') ∧
      out.map AOp.body = out'.map AOp.body := by
  obtain ⟨l, c⟩ := C98_logs_partial mg mg' hm hm' s t hs ht htd h obj
  obtain ⟨out, e, o1, o2⟩ := C97_read_partial mg hm hv s hs htd obj rdt hc hf
  obtain ⟨out', e', o1', o2'⟩ := C97_read_partial mg' hm' hv' t ht (htd.of_same h) obj rdt ((c rdt).1 hc) hf
  exact ⟨out, out', e, e', Rdt.sorted_unique out out' o1 o1' fun b => by rw [o2 b, l b, ← o2' b]⟩

/-- Arrays: two replicas that have the same events, from frames of updates, and both have the array in
no more than three chains, read the same ops in the same order. -/
theorem C98_tree_partial (v v' : Rdt.View) (s t : MemStore) (hs : ReceivedUpdates (butMax v) st0 s)
    (ht : ReceivedUpdates (butMax v') st0 t) (htd : Tidy s) (h : ∀ b, Logged s b ↔ Logged t b) (obj rdt : Uuid)
    (hc : Created s obj rdt) (hf : uuid2form rdt = Form.RGA)
    (hls : (Engine.operands s (Key.ofUuids obj rdt)).length ≤ 3) (hrs : NoRepeats s (Key.ofUuids obj rdt))
    (hlt : (Engine.operands t (Key.ofUuids obj rdt)).length ≤ 3) (hrt : NoRepeats t (Key.ofUuids obj rdt)) :
    ∃ out out', Engine.read (butMax v) s (Key.ofUuids obj rdt) = some (Status.OK, out) ∧
      Engine.read (butMax v') t (Key.ofUuids obj rdt) = some (Status.OK, out') ∧
      out.map AOp.body = out'.map AOp.body := by
  obtain ⟨l, c⟩ := C98_logs_partial _ _ (C45_honest_partial v) (C45_honest_partial v') s t hs.plain ht.plain htd h obj
  have same := C97_states_partial _ (C45_honest_partial v) (C97_reducers_partial v) s hs.plain htd obj rdt hc (Or.inr hf)
  have hops : LogOps s obj ((Engine.operands s (Key.ofUuids obj rdt)).flatten.map bare) := by
    refine ⟨by rw [List.map_map]; exact hrs, fun o => ?_⟩
    rw [List.mem_map, ← same]
    constructor
    · rintro ⟨a, ha, rfl⟩
      obtain ⟨g, hg, ha⟩ := List.mem_flatten.1 ha
      exact ⟨rfl, g, (mem_operands g).1 hg, a, ha, rfl⟩
    · rintro ⟨h1, g, hg, a, ha, e⟩
      refine ⟨a, List.mem_flatten.2 ⟨g, (mem_operands g).2 hg, ha⟩, (bare_eq e).trans ?_⟩
      cases o; cases h1; rfl
  have hops' : LogOps t obj ((Engine.operands s (Key.ofUuids obj rdt)).flatten.map bare) :=
    ⟨hops.1, fun o => by rw [hops.2 o, l]⟩
  obtain ⟨out, e, t1, w1⟩ := C97_weave_partial v s hs htd obj rdt hc hf hls hrs _ hops
  obtain ⟨out', e', -, w2⟩ := C97_weave_partial v' t ht (htd.of_same h) obj rdt ((c rdt).1 hc) hf hlt hrt _ hops'
  refine ⟨out, out', e, e', ?_⟩
  have := congrArg (List.map AOp.body) (Rdt.weave_unique t1 w1 w2)
  rw [List.map_map, List.map_map] at this
  exact this

/-! Two replicas that receive the same events in different frames and in a different order: a register
and an array. -/

def env98 : Env := { tEnv with mg := butMax tView }
def rcv98 (s : MemStore) (ops : List AOp) : Option (Status × MemStore × Word) :=
  receive env98 s Uuid.NIL 0#64 ⟨ops, Status.ENDOFFRAME, true⟩
def root98 : List AOp := [op2 (evA 10) (formUuid Form.YARN), op2 (evB 5) (formUuid Form.YARN),
  op2 (evA 11) (formUuid Form.RGA)]
def reg98 : List AOp := [op2 (evB 6) (formUuid Form.LWW), op2 (evB 7) (evB 6) [.int 3]]
def lhs98 : MemStore := after (rcv98 (after (rcv98 (after (rcv98 st0 (root98 ++ [op2 (evA 12) (evA 11) [.int 7]])))
  reg98)) [op2 (evB 13) (evA 11) [.int 8], op2 (evA 20) (evB 6) [.int 4]])
def rhs98 : MemStore := after (rcv98 (after (rcv98 (after (rcv98 st0 (root98 ++ reg98)))
  [op2 (evB 13) (evA 11) [.int 8]])) [op2 (evA 12) (evA 11) [.int 7], op2 (evA 20) (evB 6) [.int 4]])

theorem rcv98_eq {s : MemStore} {ops : List AOp} (h : (rcv98 s ops).isSome = true) :
    ∃ st now, receive env98 s Uuid.NIL 0#64 ⟨ops, Status.ENDOFFRAME, true⟩ = some (st, after (rcv98 s ops), now) := by
  show ∃ st now, rcv98 s ops = _
  generalize rcv98 s ops = r at h
  match r, h with
  | some (a, b, c), _ => exact ⟨a, c, rfl⟩

theorem updates_rcv {s : MemStore} (h : ReceivedUpdates (butMax tView) st0 s) {ops : List AOp}
    (hp : ∀ o ∈ ops, Plain o) (hu : ∀ o ∈ ops, Update o) (hs : (rcv98 s ops).isSome = true) :
    ReceivedUpdates (butMax tView) st0 (after (rcv98 s ops)) := by
  obtain ⟨st, now, e⟩ := rcv98_eq hs
  exact .more h rfl hp hu e

/-- The ops of the logs. -/
def logOps (s : MemStore) : List AOp := (s.filter fun r => decide (r.1.form = Form.LOG)).flatMap Prod.snd

theorem tidy_of {s : MemStore}
    (h1 : ∀ o ∈ logOps s, o.id.value.toNat < 2 ^ 60 ∧ o.id.origin.toNat / 2 ^ 60 = 2 ∧ o.id.value ≠ 0#64)
    (h2 : ∀ o ∈ logOps s, ∀ o' ∈ logOps s, o.id = o'.id → o.body = o'.body) : Tidy s := by
  have mem : ∀ {k f o}, k.form = Form.LOG → (k, f) ∈ s → o ∈ f → o ∈ logOps s := fun hk hf ho =>
    List.mem_flatMap.2 ⟨_, List.mem_filter.2 ⟨hf, decide_eq_true hk⟩, ho⟩
  constructor
  · rintro k b hk ⟨f, hf, o, ho, rfl⟩
    exact h1 o (mem hk hf ho)
  · rintro k k' b b' hk hk' ⟨f, hf, o, ho, rfl⟩ ⟨f', hf', o', ho', rfl⟩ e
    exact h2 o (mem hk hf ho) o' (mem hk' hf' ho') e

theorem received_lhs98 : ReceivedUpdates (butMax tView) st0 lhs98 := by
  refine updates_rcv (updates_rcv (updates_rcv (.none _) ?_ ?_ (by decide +kernel)) ?_ ?_ (by decide +kernel)) ?_ ?_
    (by decide +kernel)
  all_goals first | (unfold Plain; decide +kernel) | (unfold Update; decide +kernel)

theorem received_rhs98 : ReceivedUpdates (butMax tView) st0 rhs98 := by
  refine updates_rcv (updates_rcv (updates_rcv (.none _) ?_ ?_ (by decide +kernel)) ?_ ?_ (by decide +kernel)) ?_ ?_
    (by decide +kernel)
  all_goals first | (unfold Plain; decide +kernel) | (unfold Update; decide +kernel)

theorem tidy_lhs98 : Tidy lhs98 := tidy_of (by decide +kernel) (by decide +kernel)

theorem logged98 (b : Body) : Logged lhs98 b ↔ Logged rhs98 b :=
  ⟨logged_same (by decide +kernel) b, logged_same (by decide +kernel) b⟩

/-- The array is in two records at one replica and in three at the other. -/
example : (Engine.operands lhs98 (Key.ofUuids (evA 11) (formUuid Form.RGA))).length = 2 ∧
    (Engine.operands rhs98 (Key.ofUuids (evA 11) (formUuid Form.RGA))).length = 3 := by decide +kernel

/-- Both read it as the same. -/
example : ∃ out out', Engine.read (butMax tView) lhs98 (Key.ofUuids (evA 11) (formUuid Form.RGA)) = some (Status.OK, out) ∧
      Engine.read (butMax tView) rhs98 (Key.ofUuids (evA 11) (formUuid Form.RGA)) = some (Status.OK, out') ∧
      out.map AOp.body = out'.map AOp.body :=
  C98_tree_partial tView tView lhs98 rhs98 received_lhs98 received_rhs98 tidy_lhs98 logged98 (evA 11) (formUuid Form.RGA)
    ⟨by decide, _, heldIn_of (b := (evA 11, formUuid Form.RGA, [])) (by decide +kernel), rfl, rfl⟩ (by decide)
    (by decide +kernel) (by unfold NoRepeats; decide +kernel) (by decide +kernel) (by unfold NoRepeats; decide +kernel)

/-- The newer branch is first. -/
example : (Engine.read (butMax tView) rhs98 (Key.ofUuids (evA 11) (formUuid Form.RGA))).map
    (fun r => r.2.map AOp.id) = some [evA 11, evB 13, evA 12] := by decide +kernel

/-- The register too. -/
example : ∃ out out', Engine.read (butMax tView) lhs98 (Key.ofUuids (evB 6) (formUuid Form.LWW)) = some (Status.OK, out) ∧
      Engine.read (butMax tView) rhs98 (Key.ofUuids (evB 6) (formUuid Form.LWW)) = some (Status.OK, out') ∧
      out.map AOp.body = out'.map AOp.body :=
  C98_read_partial _ _ (C45_honest_partial tView) (C45_honest_partial tView) (C97_reducers_partial tView)
    (C97_reducers_partial tView) lhs98 rhs98 received_lhs98.plain received_rhs98.plain tidy_lhs98 logged98
    (evB 6) (formUuid Form.LWW)
    ⟨by decide, _, heldIn_of (b := (evB 6, formUuid Form.LWW, [])) (by decide +kernel), rfl, rfl⟩ (Or.inl (by decide))

example : (Engine.read (butMax tView) rhs98 (Key.ofUuids (evB 6) (formUuid Form.LWW))).map
    (fun r => r.2.map AOp.id) = some [evB 6, evB 7, evA 20] := by decide +kernel

end Ron.Props
