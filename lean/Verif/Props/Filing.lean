import Verif.Lemmas.Filing
import Verif.Props.Replica
/-!
C60: every op is in the log of its object; more of C44: which ops are accepted; more of C46: the
metadata of an op.
-/
namespace Ron.Props
open Ron Commit Spec

/-! ## C60 — object logs are self-contained -/

/-- Whatever frames are received, every op of a log either created the object or refers to an earlier
op of the same log, and the ops of a state are those of the log of the object. -/
def C60_claim : Prop := ∀ (v : Rdt.View) (s : MemStore), Received (Rdt.mergeCursors v) st0 s →
  SelfContained s ∧ StatesMatch NAMES s

/-- Two yarns, an array with one element, and an op that refers to the name `meta` and so is taken for
metadata: of itself, as an op of the array. -/
def st60 : MemStore := after (rcv st1 Uuid.NIL [op2 (evB 5) (formUuid Form.YARN), op2 (evA 11) (formUuid Form.RGA),
  op2 (evA 12) (evA 11) [.int 7]])
def st61 : MemStore := after (rcv st60 Uuid.NIL
  [op2 (evA 20) (formUuid Form.META) [.uuid (evA 11), .uuid (formUuid Form.RGA)]])
/-- A reply to that op goes to the log of the array, where the op itself is not. -/
def st62 : MemStore := after (rcv st61 Uuid.NIL [op2 (evB 21) (evA 20) [.int 9]])

theorem received_st1 : Received tEnv.mg st0 st1 :=
  received_after (.none _) (by decide +kernel)
theorem received_st60 : Received tEnv.mg st0 st60 :=
  received_after received_st1 (by decide +kernel)
theorem received_st61 : Received tEnv.mg st0 st61 :=
  received_after received_st60 (by decide +kernel)
theorem received_st62 : Received tEnv.mg st0 st62 :=
  received_after received_st61 (by decide +kernel)

theorem heldIn_of {k : Key} {s : MemStore} {b : Body} (h : ∃ r ∈ s, r.1 = k ∧ ∃ o ∈ r.2, o.body = b) :
    HeldIn k s b := by
  obtain ⟨r, hr, rfl, h⟩ := h
  exact ⟨r.2, hr, h⟩

/-- It fails: nothing prevents an op from posing as metadata. -/
theorem C60_violated : ¬ C60_claim := by
  intro h
  have := (h tView st62 received_st62).1 (Key.mk' (evA 11) Form.LOG) (evB 21, evA 20, [.int 9]) (by decide)
    (heldIn_of (by decide +kernel))
  rcases this with ⟨-, ⟨h, -⟩ | ⟨-, -, x, ⟨f, hf, o, ho, rfl⟩, e⟩⟩
  · exact absurd h (by decide)
  · have : ∀ r ∈ st62, r.1 = Key.mk' (evA 11) Form.LOG → ∀ o ∈ r.2, o.id ≠ evA 20 := by decide +kernel
    exact this _ hf rfl o ho e

/-- All of it is accepted; and the yarn of the forged op can not go on. -/
example : (statusOf (rcv st60 Uuid.NIL
      [op2 (evA 20) (formUuid Form.META) [.uuid (evA 11), .uuid (formUuid Form.RGA)]])).ok = true ∧
    (statusOf (rcv st61 Uuid.NIL [op2 (evB 21) (evA 20) [.int 9]])).ok = true ∧
    (statusOf (rcv st61 Uuid.NIL [op2 (evA 21) (evA 20) [.int 9]])).ok = false := by decide +kernel

/-- A forged object and a reply: the state of an object that nobody created. -/
def st63 : MemStore := after (rcv st60 Uuid.NIL
  [op2 (evA 20) (formUuid Form.META) [.uuid (evA 99), .uuid (formUuid Form.LWW)]])
def st64 : MemStore := after (rcv st63 Uuid.NIL [op2 (evB 21) (evA 20) [.int 9]])

/-- The states do not match the logs either. -/
theorem C60_states_violated : ¬ ∀ (v : Rdt.View) (s : MemStore), Received (Rdt.mergeCursors v) st0 s →
    StatesMatch NAMES s := by
  intro h
  have r63 : Received tEnv.mg st0 st63 := received_after received_st60 (by decide +kernel)
  have r64 : Received tEnv.mg st0 st64 := received_after r63 (by decide +kernel)
  obtain ⟨obj, rdt, e, ⟨-, b, ⟨f, hf, o, ho, rfl⟩, e1, e2⟩, -⟩ := h tView st64 r64 (Key.mk' (evA 99) Form.LWW)
    (evB 21, evA 20, [.int 9]) (by decide) (by decide) (by decide) (by decide)
    (heldIn_of (by decide +kernel))
  have none : ∀ r ∈ st64, ∀ o ∈ r.2, r.1 = Key.mk' o.id Form.LOG →
      Key.mk' (evA 99) Form.LWW ≠ Key.ofUuids o.id o.ref := by decide +kernel
  exact none _ hf o ho (by rw [show o.id = obj from e1])
    (by rw [show o.id = obj from e1, show o.ref = rdt from e2]; exact e)

/-- Frames none of whose ops refers to the name `meta` or to the stamp `NEVER`. -/
inductive ReceivedPlain (mg : Reducer) : MemStore → MemStore → Prop where
  | none (s : MemStore) : ReceivedPlain mg s s
  | more {s s' s'' : MemStore} {env : Env} {tip : Uuid} {now now' : Word} {cur : ACur} {st : Status} :
    ReceivedPlain mg s s' → env.mg = mg → (∀ o ∈ cur.ops, Plain o) →
    receive env s' tip now cur = some (st, s'', now') → ReceivedPlain mg s s''

/-- Whatever is received, if every op was in its place it still is. Assumed: no op received refers to
the name `meta` or to the stamp `NEVER`; the reducers neither invent ops nor lose log
entries. -/
theorem C60_filed_partial (env : Env) (hm : Honest env.mg) (main : MemStore) (tip : Uuid) (now : Word)
    (cur : ACur) (st : Status) (main' : MemStore) (now' : Word) (hid : ∀ o ∈ cur.ops, Plain o)
    (hc : Filed (formUuid Form.META) NAMES main)
    (h : receive env main tip now cur = some (st, main', now')) : Filed (formUuid Form.META) NAMES main' := by
  unfold receive at h
  obtain ⟨r, hr, h⟩ := map_some h
  have h1 : Filed (formUuid Form.META) NAMES r.2.main :=
    receiveLoop_main_filed (st := r.1) (c' := r.2) _ (c := start main tip now) hc hr
  split at h
  · cases h; exact h1
  · rename_i hok
    cases h
    refine save_filed (receiveLoop_fine (st := r.1) (c' := r.2) hm _ (c := start main tip now) ?_ hid hr
      (Decidable.not_not.1 hok)) h1
    refine ⟨List.Pairwise.nil, ?_⟩
    show Filed _ _ (main ++ [])
    rw [List.append_nil]
    exact hc

/-- In every history built up from an empty store by such frames, accepted or not, every op of a log
created the object or refers to an earlier op of the same log, and every state is that of an object
in the log, of the type given at its creation, with no ops but those of the log. -/
theorem C60_history_partial (mg : Reducer) (hm : Honest mg) (s : MemStore) (h : ReceivedPlain mg st0 s) :
    SelfContained s ∧ StatesMatch NAMES s := by
  have : Filed (formUuid Form.META) NAMES s := by
    induction h with
    | none =>
      have one : ∀ k b, HeldIn k st0 b → k = Key.ZERO ∧ b.2.1 ≠ formUuid Form.META := by
        rintro k b ⟨f, hf, o, ho, rfl⟩
        cases List.mem_singleton.1 hf
        rw [List.mem_singleton.1 ho]
        exact ⟨rfl, by decide⟩
      refine ⟨fun k b hk hb => ?_, fun k b h1 _ _ _ hb => ?_, fun k b hb e => ?_⟩
      · rw [(one k b hb).1] at hk; exact absurd hk (by decide)
      · rw [(one k b hb).1] at h1; exact absurd (by decide) h1
      · exact absurd e (one k b hb).2
    | more h he hid hr ih =>
      exact C60_filed_partial _ (by rw [he]; exact hm) _ _ _ _ _ _ _ hid ih hr
  exact ⟨this.logs, this.states⟩

/-- A plain history: two yarns, an array with ops of both of them, a register. The ops land in the
logs of their objects. -/
def st65 : MemStore := after (rcv st60 Uuid.NIL [op2 (evB 13) (evA 12) [.int 9], op2 (evB 14) (evB 13)])
def st66 : MemStore := after (rcv st65 Uuid.NIL [op2 (evA 15) (formUuid Form.LWW), op2 (evA 16) (evA 15) [.int 1]])

theorem plain_rcv {mg : Reducer} {s : MemStore} (h : ReceivedPlain mg st0 s) {tip : Uuid} {ops : List AOp}
    (hid : ∀ o ∈ ops, Plain o) (e : mg = tEnv.mg)
    (hs : (rcv s tip ops).isSome = true) : ReceivedPlain mg st0 (after (rcv s tip ops)) :=
  .more h e.symm hid (rcv_eq hs)

example : ReceivedPlain tEnv.mg st0 st66 ∧
    (statusOf (rcv st65 Uuid.NIL [op2 (evA 15) (formUuid Form.LWW), op2 (evA 16) (evA 15) [.int 1]])).ok = true ∧
    (∃ r ∈ st66, r.1 = Key.mk' (evA 11) Form.LOG ∧ ∃ o ∈ r.2, o.body = (evB 14, evB 13, [])) ∧
    (∃ r ∈ st66, r.1 = Key.mk' (evA 11) Form.RGA ∧ ∃ o ∈ r.2, o.body = (evB 14, evB 13, [])) ∧
    ∃ r ∈ st66, r.1 = Key.mk' (evA 15) Form.LWW ∧ ∃ o ∈ r.2, o.body = (evA 16, evA 15, [.int 1]) := by
  refine ⟨?_, by decide +kernel, by decide +kernel, by decide +kernel, by decide +kernel⟩
  refine plain_rcv (plain_rcv (plain_rcv (plain_rcv (.none _) ?_ rfl (by decide +kernel)) ?_ rfl (by decide +kernel))
    ?_ rfl (by decide +kernel)) ?_ rfl (by decide +kernel)
  all_goals unfold Plain; decide +kernel

/-! ## C44 — which chains are accepted -/

/-- An accepted chain begins a yarn that has no events yet, or its first op is later than the tip found
for its yarn. -/
theorem C44_accepted (env : Env) (c c' : Commit) (o : AOp) (os : List AOp) (fin st : Status) (b : Bool)
    (cur' : ACur) (h : c.saveChain env ⟨o :: os, fin, b⟩ = some (st, c', cur')) (hok : st.ok = true) :
    ∃ t, c.findYarnTipMeta env o.id.origin = some t ∧
      ((o.ref = formUuid Form.YARN ∧ t.1.eq Status.NOT_FOUND = true) ∨
       (o.ref ≠ formUuid Form.YARN ∧ t.1.ok = true ∧ Uuid.lt t.2.1.id o.id = true)) := by
  unfold saveChain at h
  simp only at h
  split at h
  · cases h; exact absurd hok ‹_›
  · obtain ⟨y, hy, h⟩ := bind_some h
    split at h
    · cases h; exact absurd hok ‹_›
    · rename_i hok1
      have hok1 := ok_of_not_not hok1
      unfold yarnTip at hy
      obtain ⟨t, ht, hy⟩ := bind_some hy
      refine ⟨t, ht, ?_⟩
      split at hy
      · rename_i hr
        split at hy
        · exact Or.inl ⟨hr, ‹_›⟩
        · split at hy
          · cases hy; exact absurd hok1 ‹_›
          · split at hy <;> (cases hy; exact absurd hok1 Bool.false_ne_true)
      · rename_i hr
        split at hy
        · cases hy; exact absurd hok1 ‹_›
        · rename_i hok2
          split at hy
          · cases hy; exact absurd hok1 Bool.false_ne_true
          · rename_i hge
            refine Or.inr ⟨hr, ok_of_not_not hok2, ?_⟩
            unfold Uuid.ge at hge
            simpa using hge

/-- Events that come again are told from conflicting ones: a repeated yarn start gets `REPEAT`, another
start of the same yarn `CONFLICT`, an op that is not later than the tip `CAUSEBREAK`. -/
theorem C44_repeats (env : Env) (c c' : Commit) (tip : OpMeta) (o : AOp) (os : List AOp) (fin st : Status) (b : Bool)
    (hs : (checkEventSanity o).ok = true)
    (ht : c.findYarnTipMeta env o.id.origin = some (st, tip, c')) (hok : st.ok = true) :
    (o.ref = formUuid Form.YARN → o.id = tip.id →
      c.saveChain env ⟨o :: os, fin, b⟩ = some (Status.REPEAT, c', ⟨o :: os, fin, b⟩)) ∧
    (o.ref = formUuid Form.YARN → o.id ≠ tip.id →
      c.saveChain env ⟨o :: os, fin, b⟩ = some (Status.CONFLICT, c', ⟨o :: os, fin, b⟩)) ∧
    (o.ref ≠ formUuid Form.YARN → Uuid.lt tip.id o.id = false →
      c.saveChain env ⟨o :: os, fin, b⟩ = some (Status.CAUSEBREAK, c', ⟨o :: os, fin, b⟩)) := by
  have hnf : st.eq Status.NOT_FOUND = false := by
    cases h : st.eq Status.NOT_FOUND with
    | false => rfl
    | true =>
      have e : st.code = Status.NOT_FOUND.code := by simpa [Status.eq] using h
      have : st.ok = Status.NOT_FOUND.ok := by unfold Status.ok; rw [e]
      rw [hok] at this
      exact absurd this (by decide)
  have r1 : Status.REPEAT.ok = false := by decide
  have r2 : Status.CONFLICT.ok = false := by decide
  have r3 : Status.CAUSEBREAK.ok = false := by decide
  unfold saveChain yarnTip
  simp only [ht, Option.bind_some]
  refine ⟨fun h1 h2 => ?_, fun h1 h2 => ?_, fun h1 h2 => ?_⟩
  · simp [hs, h1, h2, hok, hnf, r1]
  · simp [hs, h1, h2, hok, hnf, r2]
  · simp [hs, h1, h2, hok, Uuid.ge, r3]

/-- In a store with two yarns: a yarn start again, another start of the yarn, the tip again, an old op. -/
example : statusOf (rcv st60 Uuid.NIL [op2 (evB 5) (formUuid Form.YARN)]) = Status.REPEAT ∧
    statusOf (rcv st60 Uuid.NIL [op2 (evB 6) (formUuid Form.YARN)]) = Status.CONFLICT ∧
    statusOf (rcv st60 Uuid.NIL [op2 (evA 12) (evA 11) [.int 7]]) = Status.CAUSEBREAK ∧
    statusOf (rcv st60 Uuid.NIL [op2 (evA 9) (formUuid Form.RGA)]) = Status.CAUSEBREAK ∧
    (statusOf (rcv st60 Uuid.NIL [op2 (evA 13) (formUuid Form.RGA)])).ok = true := by decide +kernel

/-! ## C46 — the metadata of an op -/

/-- The first op of an object: the object is the op, its type is the reference, it begins a chain and
follows the previous op of the yarn. -/
theorem C46_meta_root (hs : Hashing) (o : AOp) (prev m : OpMeta) (h : OpMeta.root hs o prev = some m) :
    m.id = o.id ∧ m.object = o.id ∧ m.rdt = o.ref ∧ m.chain = o.id.value ∧ m.prev = prev.id.value ∧
      m.hash = hs.op o prev.hash (hs.form o.ref) := by
  unfold OpMeta.root at h
  split at h
  · cases h; exact ⟨rfl, rfl, rfl, rfl, rfl, rfl⟩
  · cases h

/-- Metadata that is saved for the head of a chain, and loaded: id, object and type come back, the
chain is the one the op heads. The hash and the previous op do not come back. -/
theorem C46_saved (hs : Hashing) (m blank : OpMeta) : ∃ o, m.save hs = [o] ∧ o.term = .raw ∧
    blank.load o = (Status.OK, { blank with
      id := m.id, object := m.object, rdt := m.rdt, prev := NEVER, chain := m.id.value }) := by
  refine ⟨_, rfl, rfl, ?_⟩
  unfold OpMeta.load
  rw [if_neg (fun h => h rfl)]

example : (OpMeta.load OpMeta.nil ((OpMeta.save tHash ⟨evA 12, formUuid Form.LWW, evA 10, [], 11#64, 12#64⟩).headD (op2 Uuid.NIL Uuid.NIL))).2.object = evA 10 := by
  decide

/-- Any next op: object and type are those of the op it refers to; it follows the previous op of its
yarn, and continues the chain exactly if it refers to that op. -/
theorem C46_meta_next (hs : Hashing) (o : AOp) (prev ref m : OpMeta) (h : prev.next hs o ref = some m) :
    m.id = o.id ∧ m.object = ref.object ∧ m.rdt = ref.rdt ∧ m.prev = prev.id.value ∧
      m.hash = hs.op o prev.hash ref.hash ∧ prev.id.origin = o.id.origin ∧ Uuid.lt prev.id o.id = true ∧
      (o.ref = prev.id → m.chain = prev.chain) ∧ (o.ref ≠ prev.id → m.chain = o.id.value) := by
  unfold OpMeta.next at h
  split at h
  · rename_i hc
    obtain ⟨h1, h2⟩ := hc
    cases h
    refine ⟨rfl, rfl, rfl, rfl, rfl, h1.symm, h2, fun e => ?_, fun e => ?_⟩
    · simp only
      rw [if_neg]
      rintro (h | h)
      · rw [e] at h; exact h h1.symm
      · rw [e] at h; exact h rfl
    · simp only
      rw [if_pos]
      by_cases ho : o.ref.origin = o.id.origin
      · right
        intro hv
        apply e
        cases hr : o.ref with
        | mk v w =>
          cases hp : prev.id with
          | mk v' w' =>
            rw [hr] at ho hv
            rw [hp] at hv h1
            simp only at ho hv h1
            rw [← hv, ho, h1]
      · exact Or.inl ho
  · cases h

/-- An array, a chain of two elements, and an op of the same yarn that refers to the first of them. -/
example : ((OpMeta.root tHash (op2 (evA 11) (formUuid Form.RGA)) ⟨evA 10, formUuid Form.YARN, evA 10, [], 0#64, 10#64⟩).bind
      fun a => (a.next tHash (op2 (evA 12) (evA 11)) a).bind fun b =>
        (b.next tHash (op2 (evA 14) (evA 11)) a).map fun d =>
          ([a.prev, a.chain, b.prev, b.chain, d.prev, d.chain], d.object)) =
    some ([10#64, 11#64, 11#64, 11#64, 12#64, 14#64], evA 11) := by decide +kernel

end Ron.Props
