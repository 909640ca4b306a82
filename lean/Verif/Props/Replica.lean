import Verif.Lemmas.MaxNew
/-!
Properties of transactions: C43, C44, C45, C47.
-/
namespace Ron.Props
open Ron Commit Spec

/-! ## Test data -/

/-- Two yarns. -/
def yA : Word := BitVec.ofNat 64 (2 ^ 61 + 7)
def yB : Word := BitVec.ofNat 64 (2 ^ 61 + 9)
def evA (n : Nat) : Uuid := ⟨BitVec.ofNat 64 n, yA⟩
def evB (n : Nat) : Uuid := ⟨BitVec.ofNat 64 n, yB⟩
def op2 (i r : Uuid) (v : List AVal := []) (t : Term := .raw) : AOp := ⟨i, r, v, t⟩
def tView : Rdt.View := ⟨fun _ _ => false, fun _ => ⟨Uuid.NIL, Uuid.NIL, [], .raw⟩⟩
def tHash : Hashing := ⟨fun _ _ _ => [], fun _ => [], fun _ => []⟩
/-- The reducers of the code. -/
def tEnv : Env := ⟨Rdt.mergeCursors tView, tHash, 1000#64, yA⟩
/-- A new store, `Store::Create`, and one with a branch. -/
def st0 : MemStore := [(Key.ZERO, [op2 Uuid.NIL (formUuid Form.ZERO)])]
def rcv (s : MemStore) (tip : Uuid) (ops : List AOp) : Option (Status × MemStore × Word) :=
  receive tEnv s tip 0#64 ⟨ops, Status.ENDOFFRAME, true⟩
def after (r : Option (Status × MemStore × Word)) : MemStore := (r.getD (Status.OK, [], 0#64)).2.1
def statusOf (r : Option (Status × MemStore × Word)) : Status := (r.getD (Status.OK, [], 0#64)).1
def st1 : MemStore := after (rcv st0 Uuid.NIL [op2 (evA 10) (formUuid Form.YARN)])

/-! ## C43 — rejected batches leave no trace -/

/-- If receiving a frame fails, the store is what it was. -/
def C43_claim : Prop := ∀ (env : Env) (main : MemStore) (tip : Uuid) (now : Word) (cur : ACur)
  (st : Status) (main' : MemStore) (now' : Word),
  receive env main tip now cur = some (st, main', now') → st.ok = false → main' = main

/-- It fails: naming a version writes to the main store at once. The frame is a name, then an op
whose cause is unknown. -/
theorem C43_violated : ¬ C43_claim := by
  intro h
  have e : rcv st1 (evA 10) [op2 NAME_UUID (formUuid Form.ZERO) [.uuid (formUuid Form.RGA)],
      op2 (evA 12) (evA 11)] =
      some (Status.NOT_FOUND, after (rcv st1 (evA 10)
        [op2 NAME_UUID (formUuid Form.ZERO) [.uuid (formUuid Form.RGA)], op2 (evA 12) (evA 11)]), 1000#64) := by
    decide +kernel
  have := h _ _ _ _ _ _ _ _ e (by decide)
  revert this
  decide +kernel

/-- A failed frame leaves every record but that of the version names alone; if it names no
version, the whole store. Missing from the claim: frames that name versions. -/
theorem C43_no_trace_partial (env : Env) (main : MemStore) (tip : Uuid) (now : Word) (cur : ACur)
    (st : Status) (main' : MemStore) (now' : Word)
    (h : receive env main tip now cur = some (st, main', now')) (hst : st.ok = false) :
    (∀ k, k ≠ Key.mk' Uuid.NIL Form.LWW → Engine.operands main' k = Engine.operands main k ∧
      Engine.read env.mg main' k = Engine.read env.mg main k) ∧
    ((∀ o ∈ cur.ops, o.id ≠ NAME_UUID) → main' = main) := by
  unfold receive at h
  obtain ⟨r, hr, h⟩ := map_some h
  have hc : main' = r.2.main := by
    split at h
    · cases h; rfl
    · have hs := save_main r.2
      cases h
      rcases hs with ⟨hs, -⟩ | ⟨-, hs⟩
      · rw [hs] at hst; cases hst
      · exact hs
  subst hc
  refine ⟨fun k hk => ?_, fun hn => ?_⟩
  · have e := (receiveLoop_named (st := r.1) (c' := r.2) _ _ _ hr).operands (j := k) (Ne.symm hk)
    refine ⟨e, ?_⟩
    unfold Engine.read
    rw [e]
    rfl
  · exact (receiveLoop_keeps (st := r.1) (c' := r.2) _ _ _ hn hr).main

/-- The second op of a frame is refused after the first was accepted: nothing is stored. -/
example : statusOf (rcv st1 (evA 10) [op2 (evA 11) (formUuid Form.LWW), op2 (evA 13) (evA 12)]) = Status.NOT_FOUND ∧
    after (rcv st1 (evA 10) [op2 (evA 11) (formUuid Form.LWW), op2 (evA 13) (evA 12)]) = st1 ∧
    after (rcv st1 (evA 10) [op2 (evA 11) (formUuid Form.LWW)]) ≠ st1 := by decide +kernel

/-- The commands of a frame, accepted one after another. -/
inductive Accepts (env : Env) : Commit → ACur → Commit → ACur → Prop where
  | none (c : Commit) (cur : ACur) : Accepts env c cur c cur
  | more {c c1 c2 : Commit} {cur cur1 cur2 : ACur} {st : Status} : cur.valid = true →
    dispatch env c cur = some (st, c1, cur1) → st.ok = true → Accepts env c1 cur1 c2 cur2 →
    Accepts env c cur c2 cur2

/-- If a command is refused, whatever was accepted before it, the frame is refused with the same
status and nothing is saved. -/
theorem C43_refused (env : Env) (main : MemStore) (tip : Uuid) (now : Word) (cur : ACur) (c1 c2 : Commit)
    (cur1 cur2 : ACur) (st : Status) (ha : Accepts env (start main tip now) cur c1 cur1)
    (hv : cur1.valid = true) (hd : dispatch env c1 cur1 = some (st, c2, cur2)) (hst : st.ok = false) :
    receive env main tip now cur = some (st, c2.main, c2.now) := by
  unfold receive
  generalize start main tip now = c at ha
  generalize hf : cur.ops.length + 1 = fuel
  replace hf : cur.ops.length < fuel := by omega
  have key : receiveLoop env fuel c cur = some (st, c2) := by
    induction ha generalizing fuel with
    | none c cur =>
      cases fuel with
      | zero => omega
      | succ n => simp [receiveLoop, hv, hd, hst]
    | @more c c1 c2 cur cur1 cur2 st1 h1 h2 h3 h4 ih =>
      cases fuel with
      | zero => omega
      | succ n =>
        have hl := (dispatch_named h1 h2).2.2 h3
        have hv1 : cur1.valid = true := by
          cases h4 with
          | none => exact hv
          | more h _ _ _ => exact h
        simp only [receiveLoop, h1, h2, h3, hv1, Option.bind_some, if_true, not_true_eq_false, if_false]
        exact ih hv hd n (by omega)
  rw [key]
  simp [hst]

/-- If a frame is accepted, then so was every command of it. -/
theorem C43_all_accepted (env : Env) (main : MemStore) (tip : Uuid) (now : Word) (cur : ACur) (st : Status)
    (main' : MemStore) (now' : Word) (h : receive env main tip now cur = some (st, main', now'))
    (hst : st.ok = true) :
    ∃ c' cur', Accepts env (start main tip now) cur c' cur' ∧ cur'.valid = false ∧
      main' = (save c').2.main := by
  unfold receive at h
  obtain ⟨r, hr, h⟩ := map_some h
  have key : ∀ (fuel : Nat) (c : Commit) (cur : ACur) (st : Status) (c' : Commit),
      receiveLoop env fuel c cur = some (st, c') → st.ok = true →
      ∃ cur', Accepts env c cur c' cur' ∧ cur'.valid = false := by
    intro fuel
    induction fuel with
    | zero => intro c cur st c' h; cases h
    | succ n ih =>
      intro c cur st c' h hok
      simp only [receiveLoop] at h
      split at h
      · rename_i hv
        cases h
        exact ⟨cur, .none _ _, by simpa using hv⟩
      · rename_i hv
        obtain ⟨q, hq, h⟩ := bind_some h
        split at h
        · rename_i hb
          cases h
          exact absurd hok hb
        · rename_i hb
          split at h
          · obtain ⟨cur', h1, h2⟩ := ih _ _ _ _ h hok
            exact ⟨cur', .more (by simpa using hv) hq (by simpa using hb) h1, h2⟩
          · rename_i hz
            cases h
            exact ⟨q.2.2, .more (by simpa using hv) hq (by simpa using hb) (.none _ _), by simpa using hz⟩
  split at h
  · rename_i hb
    cases h
    exact absurd hst hb
  · rename_i hb
    cases h
    obtain ⟨cur', h1, h2⟩ := key _ _ _ _ _ hr (by simpa using hb)
    exact ⟨_, cur', h1, h2, rfl⟩

/-- The second command of a frame, refused. -/
def c43Start : Commit := start st1 (evA 10) 0#64
def c43Frame : ACur := ⟨[op2 (evA 11) (formUuid Form.LWW), op2 (evA 13) (evA 12)], Status.ENDOFFRAME, true⟩
def c43Next : Status × Commit × ACur := (dispatch tEnv c43Start c43Frame).getD (Status.BADARGS, c43Start, c43Frame)
example : Accepts tEnv c43Start c43Frame c43Next.2.1 c43Next.2.2 ∧ c43Next.2.2.valid = true ∧
    (dispatch tEnv c43Next.2.1 c43Next.2.2).map Prod.fst = some Status.NOT_FOUND ∧ Status.NOT_FOUND.ok = false := by
  have h : dispatch tEnv c43Start c43Frame = some c43Next := by decide +kernel
  exact ⟨.more (by decide) h (by decide +kernel) (.none _ _), by decide +kernel, by decide +kernel, by decide⟩
example : (statusOf (rcv st1 (evA 10) [op2 (evA 11) (formUuid Form.LWW), op2 (evA 12) (evA 11)])).ok = true := by
  decide +kernel

/-! ## C45 — no dangling references -/

/-- Stores reached by receiving frames, accepted or not, in any number of sessions: the tip a session
starts from, the clock and the wall time are arbitrary. -/
inductive Received (mg : Reducer) : MemStore → MemStore → Prop where
  | none (s : MemStore) : Received mg s s
  | more {s s' s'' : MemStore} {env : Env} {tip : Uuid} {now now' : Word} {cur : ACur} {st : Status} :
    Received mg s s' → env.mg = mg → receive env s' tip now cur = some (st, s'', now') → Received mg s s''

/-- Every op in a log refers to a known type or to an earlier op in a log. -/
def C45_claim : Prop := ∀ (v : Rdt.View) (s : MemStore), Received (Rdt.mergeCursors v) st0 s →
  ∀ b, Logged s b → Caused s b

/-- An event at the end of time, and close to it. -/
def evEnd (n : Nat) : Uuid := ⟨NEVER + BitVec.ofNat 64 n, yA⟩
def evBefore : Uuid := ⟨NEVER - 1#64, yA⟩
/-- A frame that sets the clock to the last stamp before `NEVER`, lets it go on past it (three stamps are
drawn for names), and has an event that refers to the stamp `NEVER`. -/
def frame45 : List AOp := [op2 evBefore (evA 10),
  op2 NAME_UUID (formUuid Form.ZERO) [.uuid (formUuid Form.RGA)],
  op2 NAME_UUID (formUuid Form.ZERO) [.uuid (formUuid Form.RGA)],
  op2 NAME_UUID (formUuid Form.ZERO) [.uuid (formUuid Form.RGA)], op2 (evEnd 1) (evEnd 0)]
def st45 : MemStore := after (rcv st1 (evA 10) frame45)

theorem rcv_some {s : MemStore} {tip : Uuid} {ops : List AOp} (hs : (rcv s tip ops).isSome = true) :
    ∃ st now, rcv s tip ops = some (st, after (rcv s tip ops), now) := by
  match h : rcv s tip ops with
  | none => rw [h] at hs; cases hs
  | some r => exact ⟨r.1, r.2.2, rfl⟩

theorem received_after {s : MemStore} (h : Received tEnv.mg st0 s) {tip : Uuid} {ops : List AOp}
    (hs : (rcv s tip ops).isSome = true) : Received tEnv.mg st0 (after (rcv s tip ops)) := by
  obtain ⟨st, now, e⟩ := rcv_some hs
  exact .more h rfl e

/-- It fails: a reference to the stamp `NEVER` is looked up as the tip of the yarn and found. The check of
the clock, which is to keep such events out, does not apply once the clock itself is past `NEVER`. -/
theorem C45_violated : ¬ C45_claim := by
  intro h
  have r : Received tEnv.mg st0 st45 :=
    received_after (received_after (.none _) (by decide +kernel)) (by decide +kernel)
  have l : Logged st45 (evEnd 1, evEnd 0, []) := by
    have k : st45.any (fun r => decide (r.1.form = Form.LOG) &&
      r.2.any fun o => decide (o.body = (evEnd 1, evEnd 0, []))) = true := by decide +kernel
    obtain ⟨r, hr, e⟩ := List.any_eq_true.1 k
    obtain ⟨e1, e2⟩ := Bool.and_eq_true_iff.1 e
    obtain ⟨o, ho, e3⟩ := List.any_eq_true.1 e2
    exact ⟨r, hr, of_decide_eq_true e1, o, ho, of_decide_eq_true e3⟩
  rcases h tView st45 r _ l with ⟨h, -⟩ | ⟨-, -, b, ⟨x, hx, hf, o, ho, rfl⟩, e⟩
  · exact absurd h (by decide)
  · have none : ∀ r ∈ st45, r.1.form = Form.LOG → ∀ o ∈ r.2, o.id ≠ evEnd 0 := by decide +kernel
    exact none x hx hf o ho e

/-- With the clock where it was the event is refused. -/
example : (statusOf (rcv st1 (evA 10) frame45)).ok = true ∧
    statusOf (rcv st1 (evA 10) [op2 (evEnd 1) (evEnd 0)]) = Status.BADARGS := by decide +kernel

/-- No event is referred to by the stamp `NEVER`. -/
def Timely (o : AOp) : Prop := o.ref.version = Uuid.vTIME → o.ref.value ≠ NEVER

/-- Whatever is received, if the history in the store was causally closed it still is. Assumed: no op
refers to the stamp `NEVER`; of the reducers, that they lose no log entries and make up no ops but for
what single frames of a `max` are merged to. -/
theorem C45_closed_partial {new : Body → Prop} (env : Env) (hm : Makes (formUuid Form.META) new env.mg)
    (main : MemStore) (tip : Uuid) (now : Word)
    (cur : ACur) (st : Status) (main' : MemStore) (now' : Word) (hid : ∀ o ∈ cur.ops, Timely o)
    (hc : Closed (formUuid Form.META) main)
    (h : receive env main tip now cur = some (st, main', now')) : Closed (formUuid Form.META) main' := by
  unfold receive at h
  obtain ⟨r, hr, h⟩ := map_some h
  have h1 : Closed (formUuid Form.META) r.2.main :=
    receiveLoop_main (st := r.1) (c' := r.2) _ (c := start main tip now) hc hr
  split at h
  · cases h; exact h1
  · rename_i hok
    cases h
    refine save_closed (receiveLoop_inv (st := r.1) (c' := r.2) hm _ (c := start main tip now) ?_ hid hr
      (Decidable.not_not.1 hok)) h1
    refine ⟨List.Pairwise.nil, ?_⟩
    show Closed _ (main ++ [])
    rw [List.append_nil]
    exact hc

/-- Stores reached by receiving frames none of whose ops refers to the stamp `NEVER`. -/
inductive ReceivedTimely (mg : Reducer) : MemStore → MemStore → Prop where
  | none (s : MemStore) : ReceivedTimely mg s s
  | more {s s' s'' : MemStore} {env : Env} {tip : Uuid} {now now' : Word} {cur : ACur} {st : Status} :
    ReceivedTimely mg s s' → env.mg = mg → (∀ o ∈ cur.ops, Timely o) →
    receive env s' tip now cur = some (st, s'', now') → ReceivedTimely mg s s''

/-- Every history built up from an empty store, with no reference to the stamp `NEVER`, is causally
closed, with the reducers of the code: every op in a log refers to a known type or to an earlier op in a
log. Assumed: a cursor at the end of its frame shows no op that refers to the name `meta`. -/
theorem C45_history_partial (v : Rdt.View) (hv : ∀ n, (v.past n).ref ≠ formUuid Form.META) (s : MemStore)
    (h : ReceivedTimely (Rdt.mergeCursors v) st0 s) : ∀ b, Logged s b → Caused s b := by
  have : Closed (formUuid Form.META) s := by
    induction h with
    | none =>
      refine ⟨?_, ?_⟩
      · rintro b ⟨r, hr, hf, -⟩
        rw [List.mem_singleton.1 hr] at hf
        exact absurd hf (by decide)
      · rintro b ⟨r, hr, o, ho, rfl⟩ e
        rw [List.mem_singleton.1 hr] at ho
        rw [List.mem_singleton.1 ho] at e
        exact absurd e (by decide)
    | more h he hid hr ih =>
      exact C45_closed_partial _ (by rw [he]; exact Rdt.makes v hv) _ _ _ _ _ _ _ hid ih hr
  exact this.causes

/-- The reducers of the code but for max make up nothing at all. -/
theorem C45_honest_partial (v : Rdt.View) :
    Honest fun f fs => if f = Form.MAX then none else Rdt.mergeCursors v f fs := by
  constructor
  · intro f fs st out h _ o ho
    split at h
    · cases h
    · rename_i hf
      obtain ⟨s, out', e, hall⟩ := C37_no_new_ops_partial v f fs fun e => absurd e hf
      rw [e] at h
      cases h
      exact hall o ho
  · intro fs st out h
    rw [if_neg (by decide), (C36_log_concat v fs).1] at h
    cases h
    refine ⟨by decide, fun i hi x hx => ?_⟩
    obtain ⟨y, hy, e⟩ := Rdt.mem_body (Rdt.closeLast_body fs.flatten).symm (List.mem_flatten.2 ⟨i, hi, hx⟩)
    exact ⟨y, hy, e⟩

example : ∀ n, (tView.past n).ref ≠ formUuid Form.META := by
  intro n
  show Uuid.NIL ≠ formUuid Form.META
  decide

/-- A store with a yarn and an object of three ops; an op referring to an unknown event is refused,
one referring to a known event is taken. -/
example :
    let s := after (rcv st1 (evA 10) [op2 (evA 11) (formUuid Form.RGA), op2 (evA 12) (evA 11) [.int 7]])
    statusOf (rcv s (evA 12) [op2 (evA 14) (evA 13)]) = Status.NOT_FOUND ∧
    (statusOf (rcv s (evA 12) [op2 (evA 14) (evA 11)])).ok = true ∧
    (after (rcv s (evA 12) [op2 (evA 14) (evA 11)])).length = s.length + 4 ∧
    ∀ o ∈ [op2 (evA 10) (formUuid Form.YARN), op2 (evA 12) (evA 11) [.int 7]], o.ref.version = Uuid.vTIME →
      o.ref.value ≠ NEVER := by decide +kernel

/-! ## C47 — new local events -/

/-- An op that has no stamp yet. -/
def Unstamped (o : AOp) : Prop := o.id.version = Uuid.vTIME ∧ o.id.origin.payload = 0

/-- An op with this id is stored. -/
def Stored (s : MemStore) (id : Uuid) : Prop := ∃ r ∈ s, ∃ o ∈ r.2, o.id = id

/-- If a frame of unstamped ops is accepted, there are as many increasing ids under which ops are
stored that were not there before. -/
def C47_claim : Prop := ∀ (env : Env) (main : MemStore) (tip : Uuid) (now : Word) (ops : List AOp)
  (st : Status) (main' : MemStore) (now' : Word),
  (∀ o ∈ ops, Unstamped o ∧ o.term ≠ .query ∧ uuid2form o.ref ≠ Form.TXT) →
  receive env main tip now ⟨ops, Status.ENDOFFRAME, true⟩ = some (st, main', now') → st.ok = true →
  ∃ ids : List Uuid, ids.length = ops.length ∧ ids.Pairwise (fun a b => Uuid.lt a b = true) ∧
    ∀ i ∈ ids, Stored main' i ∧ ¬ Stored main i

/-- An unstamped id. -/
def fresh (n : Nat) : Uuid := ⟨BitVec.ofNat 64 n, BitVec.ofNat 64 (2 ^ 61)⟩

/-- It fails: the stamped ops are never saved. -/
theorem C47_violated : ¬ C47_claim := by
  intro h
  have e : rcv st1 (evA 10) [op2 (fresh 1) (formUuid Form.LWW)] = some (Status.OK, st1, 1000#64) := by
    decide +kernel
  obtain ⟨ids, h1, -, h2⟩ := h tEnv st1 (evA 10) 0#64 [op2 (fresh 1) (formUuid Form.LWW)] _ _ _
    (by
      intro o ho
      rw [List.mem_singleton.1 ho]
      unfold Unstamped
      decide) e (by decide)
  match ids, h1 with
  | [i], _ =>
    have := h2 i (List.mem_singleton.2 rfl)
    exact this.2 this.1

/-- What is done: the whole run of unstamped ops is taken and reported as done, one stamp is drawn
from the clock for all of it, no record is touched. Missing from the claim: distinct stamps, and
the storing. -/
theorem C47_effect_partial (env : Env) (c : Commit) (cur : ACur) (hv : cur.valid = true) :
    c.writeNewEvents env cur = some (Status.OK, { c with now := (c.hostNow env).2.now },
      { cur with ops := cur.ops.dropWhile fun o => decide (o.id.origin.payload = 0) }) := by
  rw [writeNewEvents_eq, if_pos hv]
  rfl

/-- The frame that is made and then dropped: all the ops in their order with their values, every one
with the same stamp; a reference with no origin and a small number is counted from that stamp. -/
theorem C47_stamps_partial (env : Env) (c : Commit) (ops : List AOp)
    (h : ∀ o ∈ ops, o.id.origin.payload = 0) :
    let now := (c.hostNow env).1
    (stampAll now ABuilder.empty ops).1.bodies = ops.map fun o =>
      (now, (if o.ref.origin = 0#64 ∧ o.ref.value.toNat < 2 ^ 30 then
        (⟨now.value + o.ref.value, now.origin⟩ : Uuid) else o.ref), o.vals) := by
  intro now
  rw [stampAll_bodies]
  have e : (ops.takeWhile fun o => decide (o.id.origin.payload = 0)) = ops := by
    clear now
    induction ops with
    | nil => rfl
    | cons o os ih =>
      rw [List.takeWhile_cons_of_pos (by simpa using h o List.mem_cons_self),
        ih fun p hp => h p (List.mem_cons_of_mem _ hp)]
  rw [e]
  rfl

example : ((stampAll (evA 1000) ABuilder.empty [op2 (fresh 1) (formUuid Form.LWW),
    op2 (fresh 2) ⟨1#64, 0#64⟩ [.int 5]]).1.bodies).map (fun b => (b.1, b.2.1)) =
    [(evA 1000, formUuid Form.LWW), (evA 1000, evA 1001)] := by decide +kernel

/-! ## C44 — chains only grow forward -/

/-- The recorded tip: the id in the newest record at the zero key. -/
def recorded (s : MemStore) : Option Uuid := (stored Key.ZERO s).getLast?.bind fun f => f.head?.map AOp.id

/-- What happens to a branch: it is created, with no tip set in memory; frames are received; it is
opened again, and the tip is read. The second store component is the tip in memory. -/
inductive Branch (mg : Reducer) (id : Uuid) : MemStore → Uuid → Prop where
  | created : Branch mg id st0 Uuid.NIL
  | received {s s' : MemStore} {tip : Uuid} {env : Env} {now now' : Word} {cur : ACur} {st : Status} :
    Branch mg id s tip → env.mg = mg → receive env s tip now cur = some (st, s', now') → Branch mg id s' tip
  | opened {s : MemStore} {tip tip' : Uuid} {st : Status} : Branch mg id s tip →
    openTip mg s id = some (st, tip') → st.ok = true → Branch mg id s tip'

/-- The recorded tip never decreases. -/
def C44_tip_claim : Prop := ∀ (env : Env) (id : Uuid) (s s' : MemStore) (tip : Uuid) (now now' : Word)
  (cur : ACur) (st : Status), Branch env.mg id s tip → receive env s tip now cur = some (st, s', now') →
  st.ok = true → ∀ a b, recorded s = some a → recorded s' = some b → Uuid.lt b a = false

/-- An op added to the log is later than all that its yarn had. -/
def C44_order_claim : Prop := ∀ (env : Env) (id : Uuid) (s s' : MemStore) (tip : Uuid) (now now' : Word)
  (cur : ACur) (st : Status), Branch env.mg id s tip → receive env s tip now cur = some (st, s', now') →
  st.ok = true → ∀ x y, Logged s' x → ¬ Logged s x → Logged s y → x.1.origin = y.1.origin →
  Uuid.lt y.1 x.1 = true

/-- The clock after a frame. -/
def nowOf (r : Option (Status × MemStore × Word)) : Word := (r.getD (Status.OK, [], 0#64)).2.2

theorem rcv_eq {s : MemStore} {tip : Uuid} {ops : List AOp} (h : (rcv s tip ops).isSome = true) :
    receive tEnv s tip 0#64 ⟨ops, Status.ENDOFFRAME, true⟩ =
      some (statusOf (rcv s tip ops), after (rcv s tip ops), nowOf (rcv s tip ops)) := by
  show rcv s tip ops = _
  generalize rcv s tip ops = r at h
  match r, h with
  | some (a, b, c), _ => rfl

theorem branch_st1 : Branch tEnv.mg (evA 0) st1 Uuid.NIL :=
  .received .created rfl (rcv_eq (ops := [op2 (evA 10) (formUuid Form.YARN)]) (by decide +kernel))

/-- The first fails: `CreateBranch` leaves the tip in memory unset, so the next commit is not
checked against the one recorded. The tip even moves to another yarn. -/
theorem C44_tip_violated : ¬ C44_tip_claim := by
  intro h
  have := h _ _ _ _ _ _ _ _ _ branch_st1 (rcv_eq (ops := [op2 (evB 3) (formUuid Form.YARN)]) (by decide +kernel))
    (by decide +kernel) (evA 10) (evB 3) (by decide +kernel) (by decide +kernel)
  exact absurd this (by decide)

/-- A store with a yarn and an array of two elements. -/
def st3 : MemStore := after (rcv st1 Uuid.NIL
  [op2 (evA 11) (formUuid Form.RGA), op2 (evA 12) (evA 11), op2 (evA 13) (evA 12)])

/-- The second fails: an array's log, read inside a transaction, comes in the order of the array. The
tip of the yarn is not found then, and the yarn can be started anew with an old stamp. -/
theorem C44_order_violated : ¬ C44_order_claim := by
  intro h
  have b3 : Branch tEnv.mg (evA 0) st3 Uuid.NIL := .received branch_st1 rfl (rcv_eq (by decide +kernel))
  have := h _ _ _ _ _ _ _ _ _ b3 (rcv_eq (ops := [op2 (evA 18) (evA 12), op2 (evA 19) (evA 18),
    op2 (evA 4) (formUuid Form.YARN)]) (by decide +kernel)) (by decide +kernel)
    (evA 4, formUuid Form.YARN, []) (evA 13, evA 12, []) ?_ ?_ ?_ rfl
  · exact absurd this (by decide)
  · unfold Logged; decide +kernel
  · unfold Logged; decide +kernel
  · unfold Logged; decide +kernel

/-- In the sessions of a branch that was opened with a tip: a store and the stores after any number
of frames. -/
inductive Session (mg : Reducer) (tip : Uuid) (s : MemStore) : MemStore → Prop where
  | opened : Session mg tip s s
  | received {s' s'' : MemStore} {env : Env} {now now' : Word} {cur : ACur} {st : Status} :
    Session mg tip s s' → env.mg = mg → receive env s' tip now cur = some (st, s'', now') →
    Session mg tip s s''

/-- The records of a store are in key order, always. -/
theorem C44_key_order (env : Env) (s s' : MemStore) (tip : Uuid) (now now' : Word) (cur : ACur) (st : Status)
    (hs : KeyOrder s) (h : receive env s tip now cur = some (st, s', now')) : KeyOrder s' := by
  unfold receive at h
  obtain ⟨r, hr, h⟩ := map_some h
  have hn := receiveLoop_named (st := r.1) (c' := r.2) _ _ _ hr
  have h1 := hn.main_sorted hs
  split at h
  · cases h; exact h1
  · cases h
    rcases save_tip r.2 h1 (hn.2.2 List.Pairwise.nil) with e | ⟨-, e, -⟩
    · rw [e]; exact h1
    · exact e

/-- Throughout a session that began with a tip, the recorded tip is never before that tip and never
of another yarn. Missing from the claim: the session in which the branch is created, commits of one
session compared with each other, and the order of the ops of a yarn. -/
theorem C44_tip_partial (mg : Reducer) (tip : Uuid) (s s' : MemStore) (hs : KeyOrder s)
    (htip : tip ≠ Uuid.NIL) (ht : recorded s = some tip) (h : Session mg tip s s') :
    ∃ t, recorded s' = some t ∧ t.origin = tip.origin ∧ Uuid.lt t tip = false := by
  suffices KeyOrder s' ∧ ∃ t, recorded s' = some t ∧ t.origin = tip.origin ∧ Uuid.lt t tip = false from this.2
  induction h with
  | opened => exact ⟨hs, tip, ht, rfl, by simp [Uuid.lt]⟩
  | received h he hr ih =>
    refine ⟨C44_key_order _ _ _ _ _ _ _ _ ih.1 hr, ?_⟩
    obtain ⟨hso, t, h1, h2, h3⟩ := ih
    unfold receive at hr
    obtain ⟨r, hl, hr⟩ := map_some hr
    have hn := receiveLoop_named (st := r.1) (c' := r.2) _ _ _ hl
    have e0 : recorded r.2.main = some t := by
      have := hn.operands (j := Key.ZERO) (by decide)
      unfold recorded
      rw [show stored Key.ZERO r.2.main = _ from this]
      exact h1
    split at hr
    · cases hr; exact ⟨t, e0, h2, h3⟩
    · cases hr
      rcases save_tip r.2 (hn.main_sorted hso) (hn.2.2 List.Pairwise.nil) with e | ⟨-, -, ho, hl, pre, e⟩
      · rw [e]; exact ⟨t, e0, h2, h3⟩
      · have hb : r.2.base = tip := hn.2.1
        rw [hb] at ho hl
        refine ⟨r.2.tip, ?_, ho htip, hl⟩
        unfold recorded
        rw [show stored Key.ZERO _ = _ from e]
        simp

/-- What `Open` finds is the recorded tip. -/
theorem C44_open (v : Rdt.View) (s : MemStore) (id tip : Uuid) (st : Status)
    (hne : ∀ f ∈ stored Key.ZERO s, f ≠ [])
    (h : openTip (Rdt.mergeCursors v) s id = some (st, tip)) (hok : st.ok = true) : recorded s = some tip := by
  unfold openTip at h
  obtain ⟨r, hr, h⟩ := map_some h
  unfold Engine.read at hr
  rw [if_neg (by decide)] at hr
  have e : Engine.operands s Key.ZERO = stored Key.ZERO s := rfl
  unfold recorded
  rw [e] at hr
  revert hr hne
  generalize stored Key.ZERO s = fs
  intro hne hr
  rcases List.eq_nil_or_concat fs with rfl | ⟨pre, f, rfl⟩
  · cases hr
    rw [if_neg (by decide)] at h
    cases h
    exact absurd hok (by decide)
  · rw [List.concat_eq_append] at hne hr ⊢
    have hw : withOps (pre ++ [f]) = pre ++ [f] := by
      unfold withOps
      rw [List.filter_eq_self]
      intro a ha
      simpa using hne a ha
    have hm : Rdt.mergeCursors v Key.ZERO.form (pre ++ [f]) = some (Status.OK, Rdt.closeLast f) := by
      rw [show Key.ZERO.form = Form.ZERO from by decide]
      unfold Rdt.mergeCursors Rdt.master
      rw [if_neg (by decide), if_pos rfl]
      unfold Rdt.keepLast
      rw [List.getLast?_concat]
      show some (Status.OK, if Status.OK.ok = true then _ else []) = _
      rw [if_pos (by decide), Rdt.appendAll_empty]
    have hr' : some (Status.OK, Rdt.closeLast f) = some r := by
      match hp : pre ++ [f] with
      | [] => exact absurd hp (by simp)
      | g :: gs =>
        rw [hp] at hr hw hm
        simp only at hr
        rw [hw, hm] at hr
        exact hr
    cases hr'
    rw [if_neg (by simp [(by decide : Status.OK.ok = true)])] at h
    have hb := Rdt.closeLast_body f
    rw [List.getLast?_concat]
    match f, hne f (by simp) with
    | o :: os, _ =>
      revert h hb
      generalize Rdt.closeLast (o :: os) = g
      intro h hb
      match g with
      | [] => cases hb
      | p :: ps =>
        simp only at h
        split at h
        · cases h; exact absurd hok (by decide)
        · cases h
          have : p.body = o.body := by injection hb
          show some o.id = some p.id
          have := congrArg Prod.fst this
          exact congrArg some this.symm

/-- A branch that is opened at 10 and goes on to 13. -/
example : recorded st1 = some (evA 10) ∧ openTip tEnv.mg st1 (evA 0) = some (Status.OK, evA 10) ∧
    (statusOf (rcv st1 (evA 10) [op2 (evA 11) (formUuid Form.RGA), op2 (evA 12) (evA 11)])).ok = true ∧
    recorded (after (rcv st1 (evA 10) [op2 (evA 11) (formUuid Form.RGA), op2 (evA 12) (evA 11)])) =
      some (evA 12) ∧
    statusOf (rcv st1 (evA 10) [op2 (evA 9) (formUuid Form.RGA)]) = Status.CAUSEBREAK := by decide +kernel

example : KeyOrder st1 ∧ evA 10 ≠ Uuid.NIL ∧ (∀ f ∈ stored Key.ZERO st1, f ≠ []) := by
  unfold KeyOrder; decide +kernel

end Ron.Props
