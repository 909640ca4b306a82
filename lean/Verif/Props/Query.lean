import Verif.Model.Query
import Verif.Props.Lifecycle
import Verif.Lemmas.Filing
/-!
C70: queries change nothing. C71: answers to queries.
-/
namespace Ron.Props
open Ron.Spec Ron.Commit Ron.Host

/-! ### C70 -/

/-- C70: receiving ops all of which are queries changes nothing. -/
def C70_claim : Prop := ∀ (v : Rdt.View) (hs : Hashing) (wall : Word) (h : Host) (yarn : Word) (cur : ACur)
  (st : Status) (h' : Host), (∀ o ∈ cur.ops, o.term = .query) →
  h.receive (Rdt.mergeCursors v) hs wall yarn cur = some (st, h') →
  (∀ id, h'.find id = h.find id) ∧ h'.active = h.active ∧ h'.now = h.now

/-- A query with the id `name`. -/
def nameQuery : ACur := ⟨[op2 NAME_UUID Uuid.NIL [.uuid (formUuid Form.LWW)] .query], Status.ENDOFFRAME, true⟩

/-- C70 is violated: with the id `name`, a query assigns a name. -/
theorem C70_violated : ¬ C70_claim := by
  intro hc
  have k : (match host2.receive mg6 tHash 1002#64 yA nameQuery with
    | some (_, h') => decide (h'.now = host2.now)
    | none => true) = false := by decide +kernel
  split at k
  · rename_i st h' e
    have := (hc tView tHash 1002#64 host2 yA nameQuery st h' (by decide) e).2.2
    rw [this] at k
    simp at k
  · simp at k

theorem MemOnly.trans {a b c : Commit} (h : MemOnly a b) (k : MemOnly b c) : MemOnly a c := by
  obtain ⟨m, rfl, h⟩ := h
  obtain ⟨n, rfl, k⟩ := k
  exact ⟨n, rfl, fun x => k (h x)⟩

theorem receiveQuery_keeps {env : Env} {c c' : Commit} {cur cur' : ACur} {st : Status}
    (h : c.receiveQuery env cur = some (st, c', cur')) :
    MemOnly c c' ∧ ∀ o ∈ cur'.ops, o ∈ cur.ops := by
  have hn : ∀ cur : ACur, ∀ o ∈ cur.next.2.ops, o ∈ cur.ops := by
    intro cur o ho
    unfold ACur.next at ho
    split at ho
    · exact ho
    · split at ho
      · exact ho
      · simp at ho
      · rename_i e; rw [e]; simp at ho ⊢; exact Or.inr ho
  unfold receiveQuery at h
  split at h
  · cases h
  · rename_i o os e
    simp only at h
    split at h
    · unfold queryObject at h
      obtain ⟨r, hr, h⟩ := map_some h
      have hx := read_keeps (st := r.1) (f := r.2.1) (c' := r.2.2) hr
      split at h
      · cases h; exact ⟨hx, fun _ h => h⟩
      · cases h; exact ⟨hx, hn _⟩
    · split at h
      · unfold queryObjectLog at h
        simp only at h
        obtain ⟨m, hm, h⟩ := bind_some h
        have hx := findOpMeta_keeps (st := m.1) (m := m.2.1) (c' := m.2.2) hm
        split at h
        · cases h; exact ⟨hx, hn _⟩
        · obtain ⟨r, hr, h⟩ := bind_some h
          have hy := MemOnly.trans hx (read_keeps (st := r.1) (f := r.2.1) (c' := r.2.2) hr)
          split at h
          · cases h; exact ⟨hy, hn _⟩
          · split at h
            · cases h; exact ⟨hy, hn _⟩
            · split at h
              · cases h
              · split at h <;> (cases h; exact ⟨hy, hn _⟩)
      · cases h; exact ⟨MemOnly.rfl' _, fun _ h => h⟩

theorem dispatch_query {env : Env} {c c' : Commit} {cur cur' : ACur} {st : Status}
    (hq : ∀ o ∈ cur.ops, o.term = .query ∧ o.id ≠ NAME_UUID)
    (h : c.dispatch env cur = some (st, c', cur')) :
    MemOnly c c' ∧ ∀ o ∈ cur'.ops, o ∈ cur.ops := by
  have hn : ∀ o ∈ cur.next.2.ops, o ∈ cur.ops := by
    intro o ho
    unfold ACur.next at ho
    split at ho
    · exact ho
    · split at ho
      · exact ho
      · simp at ho
      · rename_i e; rw [e]; simp at ho ⊢; exact Or.inr ho
  unfold dispatch at h
  split at h
  · cases h
  · rename_i o os e
    obtain ⟨q1, q2⟩ := hq o (by rw [e]; simp)
    split at h
    · exact receiveQuery_keeps h
    · split at h
      · have hp : peekTerm cur.ops = .query := by
          rw [e]
          show (if o.term ≠ .reduced then o.term else _) = _
          rw [if_pos (by rw [q1]; decide), q1]
        rw [if_pos hp] at h
        unfold receiveMapQuery at h
        rw [e] at h
        simp only at h
        split at h
        · obtain ⟨r, hr, h⟩ := map_some h
          have hx := read_keeps (st := r.1) (f := r.2.1) (c' := r.2.2) hr
          split at h
          · cases h; exact ⟨hx, fun _ h => h⟩
          · cases h; exact ⟨hx, hn⟩
        · cases h; exact ⟨MemOnly.rfl' _, fun _ h => h⟩
      · split at h
        · split at h
          · cases h; exact ⟨MemOnly.rfl' _, hn⟩
          · cases h; exact ⟨MemOnly.rfl' _, fun _ h => h⟩
        · cases h; exact ⟨MemOnly.rfl' _, fun _ h => h⟩

theorem loop_query {env : Env} : ∀ (n : Nat) {c c' : Commit} {cur : ACur} {st : Status},
    (∀ o ∈ cur.ops, o.term = .query ∧ o.id ≠ NAME_UUID) →
    c.receiveLoop env n cur = some (st, c') → MemOnly c c' := by
  intro n
  induction n with
  | zero => intro c c' cur st _ h; cases h
  | succ n ih =>
    intro c c' cur st hq h
    unfold receiveLoop at h
    split at h
    · cases h; exact MemOnly.rfl' _
    · obtain ⟨r, hr, h⟩ := bind_some h
      obtain ⟨k1, k2⟩ := dispatch_query (st := r.1) (c' := r.2.1) (cur' := r.2.2) hq hr
      split at h
      · cases h; exact k1
      · split at h
        · exact MemOnly.trans k1 (ih (fun o ho => hq o (k2 o ho)) h)
        · cases h; exact k1

/-- C70: receiving queries changes nothing, in no store, neither the active store nor the clock,
whatever the outcome. Missing from the claim: ops with the id `name`, which assign a name even as
queries, as shown above. -/
theorem C70_partial (mg : Reducer) (hs : Hashing) (wall : Word) (h : Host) (yarn : Word) (cur : ACur)
    (st : Status) (h' : Host) (hq : ∀ o ∈ cur.ops, o.term = .query ∧ o.id ≠ NAME_UUID)
    (e : h.receive mg hs wall yarn cur = some (st, h')) :
    (∀ id, h'.find id = h.find id) ∧ h'.active = h.active ∧ h'.now = h.now := by
  unfold Host.receive at e
  split at e
  · cases e; exact ⟨fun _ => rfl, rfl, rfl⟩
  · split at e
    · cases e; exact ⟨fun _ => rfl, rfl, rfl⟩
    · rename_i s hs'
      obtain ⟨r, hr, e⟩ := map_some e
      have key : r.2.1 = s.data ∧ r.2.2 = h.now := by
        unfold Commit.receive at hr
        obtain ⟨q, hl, hr⟩ := map_some hr
        obtain ⟨m, hm, -⟩ := loop_query _ hq hl
        split at hr
        · rw [← hr, hm]; exact ⟨rfl, rfl⟩
        · rw [← hr]
          have : Commit.save q.2 = (Status.OK, q.2) := by
            unfold Commit.save
            rw [if_pos (by rw [hm]; rfl)]
          simp only [this]
          rw [hm]
          exact ⟨rfl, rfl⟩
      have hid : s.id = branchId yarn := by
        have := List.find?_some hs'
        simpa using this
      cases e
      refine ⟨fun id => ?_, rfl, key.2⟩
      show (h.setData s.id r.2.1).find id = h.find id
      by_cases hi : id = s.id
      · have hf : h.find s.id = some s := by rw [hid]; exact hs'
        rw [hi, find_setData_same hf, key.1, hf]
      · exact find_setData hi _

/-- Queries of three kinds: the state of an object, a log, something unknown. -/
example : (∀ o ∈ [op2 (evA 2000) (formUuid Form.LWW) [] .query, op2 (evA 2001) (formUuid Form.LOG) [] .query,
      op2 (evA 2000) (formUuid Form.MX) [] .query], o.term = .query ∧ o.id ≠ NAME_UUID) ∧
    (host5.receive mg6 tHash 3000#64 yA ⟨[op2 (evA 2000) (formUuid Form.LWW) [] .query,
      op2 (evA 2001) (formUuid Form.LOG) [] .query, op2 (evA 2000) (formUuid Form.MX) [] .query],
      Status.ENDOFFRAME, true⟩).map Prod.fst = some Status.OK := by
  refine ⟨by decide, by decide +kernel⟩

/-! ### C71 -/

/-- C71: a query for the log of an object is answered with the log. -/
def C71_claim : Prop := ∀ (v : Rdt.View) (hs : Hashing) (wall : Word) (h : Host) (s : OpenStore) (id : Uuid)
  (m : OpMeta) (c c' : Commit) (f log : Frame), Lived (Rdt.mergeCursors v) hs Careful h → s ∈ h.stores →
  let env := h.env (Rdt.mergeCursors v) hs wall
  let c0 := Commit.start s.data s.tip h.now
  findOpMeta env c0 id = some (Status.OK, m, c) → m.object = id →
  c0.read env (Key.mk' id Form.LOG) [] = some (Status.OK, log, c') →
  answerLog env c0 id = some (Status.OK, f) → f = log

/-- A text: two characters inserted in the same place. -/
def host11 : Host := act host2 (frameA [op2 (evA 2000) (formUuid Form.RGA),
  op2 (evA 2001) (evA 2000) [.int 5], op2 (evA 2002) (evA 2000) [.int 6]])

theorem lived11 : Lived mg6 tHash Careful host11 :=
  lived_act lived2 (by
    intro s hs
    left
    have : (host2.find (branchId yA)).map (fun s => decide (s.tip = Uuid.NIL)) = some false := by decide +kernel
    rw [hs] at this
    simpa using this) (by decide +kernel)

/-- C71 is violated: the answer is the state of the object, where the ops of a text are in the order of
the text. -/
theorem C71_violated : ¬ C71_claim := by
  intro hc
  have k : (match host11.find (branchId yA) with
    | none => false
    | some s =>
      let env := host11.env mg6 tHash 3000#64
      let c0 := Commit.start s.data s.tip host11.now
      match findOpMeta env c0 (evA 2000), c0.read env (Key.mk' (evA 2000) Form.LOG) [],
        answerLog env c0 (evA 2000) with
      | some (st, m, _), some (st', log, _), some (st'', f) =>
        decide (st = Status.OK) && decide (m.object = evA 2000) && decide (st' = Status.OK) &&
          decide (st'' = Status.OK) && !decide (f = log)
      | _, _, _ => false) = true := by decide +kernel
  split at k
  · simp at k
  · rename_i s hs
    simp only at k
    split at k
    · rename_i st m c st' log c' st'' f h1 h2 h3
      simp only [Bool.and_eq_true, decide_eq_true_eq, Bool.not_eq_true', decide_eq_false_iff_not] at k
      obtain ⟨⟨⟨⟨rfl, k1⟩, rfl⟩, rfl⟩, k2⟩ := k
      exact k2 (hc tView tHash 3000#64 host11 s (evA 2000) m c c' f log lived11 (List.mem_of_find?_eq_some hs)
        h1 k1 h2 h3)
    · simp at k

/-- C71, of versions: the log up to an op has no later ops of its yarn. -/
def C71_version_claim : Prop := ∀ (v : Rdt.View) (hs : Hashing) (wall : Word) (h : Host) (s : OpenStore) (id : Uuid)
  (f : Frame), Lived (Rdt.mergeCursors v) hs Careful h → s ∈ h.stores →
  answerLog (h.env (Rdt.mergeCursors v) hs wall) (Commit.start s.data s.tip h.now) id = some (Status.OK, f) →
  ∀ o ∈ f, o.id.origin = id.origin → Uuid.le o.id id = true

/-- C71 is violated for versions: the answer is what is before the op in the state. -/
theorem C71_version_violated : ¬ C71_version_claim := by
  intro hc
  have k : (match host11.find (branchId yA) with
    | none => false
    | some s =>
      match answerLog (host11.env mg6 tHash 3000#64) (Commit.start s.data s.tip host11.now) (evA 2001) with
      | some (st, f) => decide (st = Status.OK) && decide ((evA 2002) ∈ f.map (·.id))
      | none => false) = true := by decide +kernel
  split at k
  · simp at k
  · rename_i s hs
    split at k
    · rename_i st f h1
      simp only [Bool.and_eq_true, decide_eq_true_eq] at k
      obtain ⟨rfl, k1⟩ := k
      obtain ⟨o, ho, e⟩ := List.mem_map.1 k1
      have := hc tView tHash 3000#64 host11 s (evA 2001) f lived11 (List.mem_of_find?_eq_some hs) h1 o ho
        (by rw [e]; rfl)
      rw [e] at this
      exact absurd this (by decide)
    · simp at k

/-- The read of a transaction that has written nothing. -/
theorem read_start {env : Env} {main : MemStore} {tip : Uuid} {now : Word} {k : Key} {st : Status} {f : Frame}
    {c' : Commit} (h : (Commit.start main tip now).read env k [] = some (st, f, c')) :
    c' = Commit.start main tip now ∧
      (st.ok = true → Engine.read env.mg main k = some (Status.OK, f)) := by
  unfold Commit.read at h
  obtain ⟨a, ha, h⟩ := bind_some h
  have hok : ∀ {mg : Reducer} {s : MemStore} {k : Key} {a : Status × Frame}, Engine.read mg s k = some a →
      a.1.ok = true → a.1 = Status.OK := by
    intro mg s k a h h'
    unfold Engine.read at h
    split at h
    · cases h; rfl
    · split at h
      · cases h; rfl
      · obtain ⟨r, _, h⟩ := map_some h
        split at h
        · cases h; rfl
        · cases h; revert h'; decide
  have hr : MemStore.read env.mg (Commit.start main tip now).mem k [] = some (Status.OK, [], []) := rfl
  split at h
  · rename_i x
    cases h
    exact ⟨rfl, fun y => absurd y x⟩
  · rename_i x
    rw [hr] at h
    simp only [Option.bind_some] at h
    have e : a = (Status.OK, a.2) := Prod.ext (hok ha (by simpa using x)) rfl
    rw [if_neg (by decide)] at h
    split at h
    · rename_i y
      cases h
      refine ⟨rfl, fun _ => ?_⟩
      rw [show Engine.read env.mg main k = some a from ha, e, y]
    · rw [if_pos trivial] at h
      cases h
      exact ⟨rfl, fun _ => by rw [show Engine.read env.mg main k = some a from ha]; exact congrArg some e⟩

/-- C71, of states: the answer to a query for an object in a form has only ops that were recorded
for that object and form. -/
theorem C71_recorded_partial (env : Env) (hm : Honest env.mg) (main : MemStore) (tip : Uuid) (now : Word)
    (id form : Uuid) (st : Status) (f : Frame)
    (h : answerObject env (Commit.start main tip now) id form = some (st, f)) :
    ∀ o ∈ f, ∃ g ∈ stored (Key.ofUuids id form) main, ∃ x ∈ g, x.body = o.body := by
  unfold answerObject at h
  obtain ⟨r, hr, h⟩ := map_some h
  split at h
  · rename_i hk
    cases h
    have := (read_start (st := r.1) (f := r.2.1) (c' := r.2.2) hr).2 hk
    unfold Engine.read at this
    intro o ho
    split at this
    · injection this with this
      injection this with _ this
      rw [← this] at ho
      cases ho
    · split at this
      · injection this with this
        injection this with _ this
        rw [← this] at ho
        cases ho
      · obtain ⟨q, hq, this⟩ := map_some this
        split at this
        · rename_i hk'
          injection this with _ this
          rw [← this] at ho
          obtain ⟨i, hi, x, hx, e⟩ := hm.noNew (st := q.1) (out := q.2) hq hk' o ho
          exact ⟨i, (List.mem_filter.1 hi).1, x, hx, e⟩
        · injection this with this _
          exact absurd this (by decide)
  · cases h
    intro o ho
    cases ho

theorem findOpMeta_start {env : Env} {main : MemStore} {tip : Uuid} {now : Word} {id : Uuid} {st : Status}
    {m : OpMeta} {c : Commit} (h : findOpMeta env (Commit.start main tip now) id = some (st, m, c)) :
    c = Commit.start main tip now := by
  unfold findOpMeta at h
  obtain ⟨a, _, h⟩ := bind_some h
  split at h
  · cases h; rfl
  · split at h
    · cases h; rfl
    · obtain ⟨l, hl, h⟩ := bind_some h
      have hx := (read_start (st := l.1) (f := l.2.1) (c' := l.2.2) hl).1
      split at h
      · cases h; exact hx
      · split at h
        · cases h; exact hx
        · obtain ⟨r, hr, h⟩ := map_some h
          cases h; exact hx

/-- C71: what the query for the log of an object does answer: the state of the object, the same as the
query for the state. Missing from the claim: the log. -/
theorem C71_state_partial (env : Env) (main : MemStore) (tip : Uuid) (now : Word) (id : Uuid) (m : OpMeta)
    (c : Commit) (h : findOpMeta env (Commit.start main tip now) id = some (Status.OK, m, c)) (ho : m.object = id) :
    answerLog env (Commit.start main tip now) id = answerObject env (Commit.start main tip now) id m.rdt := by
  have hc := findOpMeta_start h
  unfold answerLog answerObject
  rw [h, Option.bind_some, if_neg (show ¬ ¬ Status.OK.ok = true by decide), hc, ho]
  cases hr : Commit.read env (Commit.start main tip now) (Key.ofUuids id m.rdt) [] with
  | none => rfl
  | some r =>
    rw [Option.bind_some, Option.map_some]
    by_cases hk : r.1.ok = true
    · rw [if_neg (by simpa using hk), if_pos rfl, if_pos hk]
    · rw [if_pos hk, if_neg hk]

/-- The hypotheses of `C71_state_partial` are met, and the answer has ops. -/
example : (match host11.find (branchId yA) with
    | none => false
    | some s =>
      let env := host11.env mg6 tHash 3000#64
      let c0 := Commit.start s.data s.tip host11.now
      match findOpMeta env c0 (evA 2000), answerObject env c0 (evA 2000) (formUuid Form.RGA) with
      | some (st, m, _), some (_, f) =>
        decide (st = Status.OK) && decide (m.object = evA 2000) && decide (m.rdt = formUuid Form.RGA) &&
          decide (f.map (·.id) = [evA 2000, evA 2002, evA 2001])
      | _, _ => false) = true := by decide +kernel

/-- C71, of versions: what the query for a version does answer: of the state of the object, what is before
the op. If the state is ordered by id these are the ops with lesser ids. Missing from the claim: the op
itself, and the order of the log. -/
theorem C71_version_partial (env : Env) (main : MemStore) (tip : Uuid) (now : Word) (id : Uuid) (m : OpMeta)
    (c : Commit) (h : findOpMeta env (Commit.start main tip now) id = some (Status.OK, m, c)) (hn : m.object ≠ id)
    (f : Frame) (hf : answerObject env (Commit.start main tip now) m.object m.rdt = some (Status.OK, f)) :
    (∀ a o b, f = a ++ o :: b → o.id = id → (∀ p ∈ a, p.id ≠ id) →
      answerLog env (Commit.start main tip now) id = some (Status.OK, a) ∧
      (IdSorted f → a = f.filter fun p => Uuid.lt p.id id)) ∧
    ((∀ p ∈ f, p.id ≠ id) → f ≠ [] →
      answerLog env (Commit.start main tip now) id = some (Status.NOT_FOUND, f)) := by
  have hc := findOpMeta_start h
  obtain ⟨r, hr, hrf⟩ : ∃ r, Commit.read env (Commit.start main tip now) (Key.ofUuids m.object m.rdt) [] = some r ∧
      (if r.1.ok then (Status.OK, r.2.1) else (r.1, [])) = (Status.OK, f) := by
    unfold answerObject at hf
    exact map_some hf
  have hk : r.1.ok = true := by
    cases hk : r.1.ok with
    | true => rfl
    | false =>
      rw [hk] at hrf
      have : r.1 = Status.OK := congrArg Prod.fst hrf
      rw [this] at hk
      exact absurd hk (by decide)
  rw [if_pos hk] at hrf
  have hrf : r.2.1 = f := congrArg Prod.snd hrf
  have key : answerLog env (Commit.start main tip now) id = if f = [] then none else
      some (if (f.takeWhile fun p => decide (p.id ≠ id)).length < f.length then Status.OK else Status.NOT_FOUND,
        f.takeWhile fun p => decide (p.id ≠ id)) := by
    unfold answerLog
    rw [h, Option.bind_some, if_neg (show ¬ ¬ Status.OK.ok = true by decide), hc, hr, Option.bind_some,
      if_neg (by simpa using hk), if_neg (fun e => hn e.symm), hrf]
  constructor
  · intro a o b e ho ha
    have ht : f.takeWhile (fun p => decide (p.id ≠ id)) = a := by
      rw [e, List.takeWhile_append_of_pos (fun p hp => decide_eq_true (ha p hp)),
        List.takeWhile_cons_of_neg (by simp [ho]), List.append_nil]
    refine ⟨?_, ?_⟩
    · rw [key, if_neg (by rw [e]; simp), ht, if_pos (by rw [e]; simp)]
    · intro hs
      unfold IdSorted at hs
      rw [e, List.pairwise_append, List.pairwise_cons] at hs
      obtain ⟨_, ⟨h1, _⟩, h2⟩ := hs
      rw [e, List.filter_append, List.filter_cons_of_neg (by rw [ho, Rdt.uuid_lin.irrefl]; simp),
        List.filter_eq_self.2 (fun p hp => ho ▸ h2 p hp o (List.mem_cons_self ..)),
        List.filter_eq_nil_iff.2 (fun p hp => by rw [← ho, Rdt.uuid_lin.asymm (h1 p hp)]; simp), List.append_nil]
  · intro ha hne
    have ht : f.takeWhile (fun p => decide (p.id ≠ id)) = f := by
      have := List.takeWhile_append_of_pos (p := fun p : AOp => decide (p.id ≠ id)) (l₁ := f) (l₂ := [])
        (fun p hp => decide_eq_true (ha p hp))
      simpa using this
    rw [key, if_neg hne, ht, if_neg (Nat.lt_irrefl _)]

/-- The answers are those of the commands of C70: the same status. -/
theorem C71_status (env : Env) (c : Commit) (o : AOp) (cur : ACur) :
    (queryObject env c o cur).map (·.1) = (answerObject env c o.id o.ref).map (·.1) ∧
      (queryObjectLog env c o cur).map (·.1) = (answerLog env c o.id).map (·.1) := by
  constructor
  · unfold queryObject answerObject
    cases Commit.read env c (Key.ofUuids o.id o.ref) [] with
    | none => rfl
    | some r =>
      simp only [Option.map_some, Option.some.injEq]
      by_cases h : r.1.ok = true <;> simp [h]
  · unfold queryObjectLog answerLog
    simp only
    cases findOpMeta env c o.id with
    | none => rfl
    | some m =>
      simp only [Option.bind_some]
      by_cases hm : m.1.ok = true
      · rw [if_neg (not_not_intro hm), if_neg (not_not_intro hm)]
        cases Commit.read env m.2.2 (Key.ofUuids m.2.1.object m.2.1.rdt) [] with
        | none => rfl
        | some r =>
          simp only [Option.bind_some]
          by_cases hr : r.1.ok = true
          · rw [if_neg (not_not_intro hr), if_neg (not_not_intro hr)]
            by_cases ho : o.id = m.2.1.object
            · rw [if_pos ho, if_pos ho]; rfl
            · rw [if_neg ho, if_neg ho]
              by_cases he : r.2.1 = []
              · rw [if_pos he, if_pos he]; rfl
              · rw [if_neg he, if_neg he]
                have : ∀ l : List AOp, (l.any fun p => decide (p.id = o.id)) =
                    decide ((l.takeWhile fun p => decide (p.id ≠ o.id)).length < l.length) := by
                  intro l
                  induction l with
                  | nil => simp
                  | cons p l ih =>
                    by_cases hp : p.id = o.id
                    · simp [hp]
                    · rw [List.any_cons, decide_eq_false hp, Bool.false_or, ih,
                        List.takeWhile_cons_of_pos (by simp [hp])]
                      simp
                rw [this]
                by_cases hl : (r.2.1.takeWhile fun p => decide (p.id ≠ o.id)).length < r.2.1.length
                · simp only [hl, decide_true, if_true, Option.map_some]
                · simp only [hl, decide_false, if_false, Option.map_some, Bool.false_eq_true]
          · rw [if_pos hr, if_pos hr]; rfl
      · rw [if_pos hm, if_pos hm]; rfl

/-- The hypotheses of `C71_version_partial` are met. -/
example : (match host11.find (branchId yA) with
    | none => false
    | some s =>
      let env := host11.env mg6 tHash 3000#64
      let c0 := Commit.start s.data s.tip host11.now
      match findOpMeta env c0 (evA 2001), answerObject env c0 (evA 2000) (formUuid Form.RGA) with
      | some (st, m, _), some (st', f) =>
        decide (st = Status.OK) && decide (m.object = evA 2000) && decide (m.rdt = formUuid Form.RGA) &&
          decide (st' = Status.OK) && decide (f.map (·.id) = [evA 2000, evA 2002, evA 2001])
      | _, _ => false) = true := by decide +kernel

end Ron.Props
