import Verif.Model.LwwWrite
import Verif.Model.Replica
import Verif.Props.Lww
/-!
C118: a write to a last-write-wins object.
-/
namespace Ron.Props
open Ron Rdt Spec

/-- C118: what an object writes is one op with the id, the key and the values it is told. It refers to an op of the object. -/
def C118_claim : Prop := ∀ (ops : List AOp) (id k : Uuid) (v : AVal) (more : List AVal), IdSorted ops → ops ≠ [] →
  (∀ o ∈ ops, Uuid.lt o.id id = true) →
  ∃ op, ((Lww.Obj.open ops).write id k (v :: more)).1 = [op] ∧ op.id = id ∧ op.vals = .uuid k :: v :: more ∧
    ∃ o ∈ ops, o.id = op.ref

/-- C118 fails for every object and every write: the op refers to itself. -/
theorem C118_self (s : Lww.Obj) (id k : Uuid) (vals : List AVal) :
    ∃ op, (s.write id k vals).1 = [op] ∧ op.id = id ∧ op.vals = .uuid k :: vals ∧ op.ref = id :=
  ⟨_, rfl, rfl, rfl, rfl⟩

/-- C118 is violated: a register with one key, written a second time. -/
theorem C118_violated : ¬ C118_claim := by
  intro h
  obtain ⟨op, h1, h2, -, o, ho, h3⟩ := h
    [⟨⟨1#64, 7#64⟩, ⟨5#64, 0#64⟩, [], .header⟩, ⟨⟨2#64, 7#64⟩, ⟨1#64, 7#64⟩, [.uuid ⟨9#64, 0#64⟩, .int 5], .raw⟩]
    ⟨3#64, 7#64⟩ ⟨9#64, 0#64⟩ (.int 6) [] (by unfold IdSorted; decide) (by decide) (by decide)
  obtain ⟨op', g1, g2, -, g3⟩ := C118_self (Lww.Obj.open [⟨⟨1#64, 7#64⟩, ⟨5#64, 0#64⟩, [], .header⟩,
    ⟨⟨2#64, 7#64⟩, ⟨1#64, 7#64⟩, [.uuid ⟨9#64, 0#64⟩, .int 5], .raw⟩]) ⟨3#64, 7#64⟩ ⟨9#64, 0#64⟩ [.int 6]
  rw [h1] at g1
  cases g1
  rw [g3] at h3
  simp only [List.mem_cons, List.not_mem_nil, or_false] at ho
  rcases ho with rfl | rfl <;> exact absurd h3 (by decide)

/-- C118: so no replica accepts it, whatever comes after it. The status is an error and nothing is changed. -/
theorem C118_refused (env : Env) (c : Commit) (s : Lww.Obj) (id k : Uuid) (vals : List AVal) (rest : List AOp)
    (fin : Status) (b : Bool) :
    ∃ st, c.saveChain env ⟨(s.write id k vals).1 ++ rest, fin, b⟩ = some (st, c, ⟨(s.write id k vals).1 ++ rest, fin, b⟩) ∧
      st.ok = false ∧ (id.version = Uuid.vTIME → st = Status.CAUSEBREAK) := by
  have key : ∀ {o : AOp} {os : List AOp} {st : Status}, Commit.checkEventSanity o = st → st.ok = false →
      c.saveChain env ⟨o :: os, fin, b⟩ = some (st, c, ⟨o :: os, fin, b⟩) := by
    intro o os st h1 h2
    unfold Commit.saveChain
    simp only [h1, h2, Bool.false_eq_true, not_false_eq_true, if_true]
  by_cases ht : id.version = Uuid.vTIME
  · refine ⟨Status.CAUSEBREAK, key ?_ (by decide), by decide, fun _ => rfl⟩
    unfold Commit.checkEventSanity
    have : Uuid.ge id id = true := by unfold Uuid.ge; rw [uuid_lin.irrefl]; rfl
    simp only [ht, this, ne_eq, not_true_eq_false, if_false, if_true]
  · refine ⟨Status.BAD_STATE, key ?_ (by decide), by decide, fun h => absurd h ht⟩
    unfold Commit.checkEventSanity
    simp only
    rw [if_pos ht]

/-- C118: the object itself takes the write: after `Update` with the frame the key has the value, the other keys are as they
were. Before `Update` nothing is changed. -/
theorem C118_update (s : Lww.Obj) (id k : Uuid) (v : AVal) (more : List AVal) :
    (∀ x, (s.write id k (v :: more)).2.vals x = s.vals x) ∧
    ∀ x, ((s.write id k (v :: more)).2.updateAll (s.write id k (v :: more)).1).vals x = if x = k then some v else s.vals x :=
  ⟨fun _ => rfl, fun _ => rfl⟩

/-- C118: and so does the state: merged with the frame it reads the value for the key, and for other keys what was written
last before. Missing from the claim: the reference. -/
theorem C118_partial (w : View) (s : Lww.Obj) (ops : List AOp) (id k : Uuid) (v : AVal) (more : List AVal) (hs : IdSorted ops)
    (hc : Consistent ops) (hn : ∀ o ∈ ops, Uuid.lt o.id id = true) :
    ∃ out, mergeCursors w Form.LWW [ops, (s.write id k (v :: more)).1] = some (Status.OK, out) ∧
      Lww.obj out k = some v ∧ ∀ x, x ≠ k → ∀ y, Lww.obj out x = some y ↔ LastWrite ops x y := by
  obtain ⟨op, e1, e2, e3, e4⟩ := C118_self s id k (v :: more)
  rw [e1]
  have hmem : ∀ o, o ∈ [ops, [op]].flatten ↔ o ∈ ops ∨ o = op := fun o => by
    simp only [List.flatten_cons, List.flatten_nil, List.append_nil, List.mem_append, List.mem_singleton]
  have hne : ∀ o ∈ ops, o.id ≠ op.id := fun o ho e => by
    have := hn o ho
    rw [e, e2, uuid_lin.irrefl] at this
    cases this
  obtain ⟨out, h1, h2⟩ := C29_last_write_partial w [ops, [op]]
    (by
      intro i hi
      simp only [List.mem_cons, List.not_mem_nil, or_false] at hi
      rcases hi with rfl | rfl
      · exact hs
      · exact List.pairwise_singleton _ _)
    (by
      intro p hp q hq e
      rcases (hmem p).1 hp with h1 | h1 <;> rcases (hmem q).1 hq with h2 | h2
      · exact hc p h1 q h2 e
      · exact absurd (h2 ▸ e) (hne p h1)
      · exact absurd (h1 ▸ e).symm (hne q h2)
      · rw [h1, h2])
  refine ⟨out, h1, ((h2 k).1 v).2 ⟨op, (hmem op).2 (.inr rfl), ⟨more, e3⟩, fun p hp _ _ => ?_⟩, fun x hx y => ?_⟩
  · rcases (hmem p).1 hp with hp | rfl
    · rw [e2]
      exact uuid_lin.asymm (hn p hp)
    · exact uuid_lin.irrefl _
  · have hno : ∀ z, ¬ Writes op x z := by
      rintro z ⟨m, hz⟩
      rw [e3] at hz
      injection hz with hz _
      injection hz with hz
      exact hx hz.symm
    rw [(h2 x).1 y]
    constructor
    · rintro ⟨o, ho, hw, hm⟩
      rcases (hmem o).1 ho with ho | rfl
      · exact ⟨o, ho, hw, fun p hp => hm p ((hmem p).2 (.inl hp))⟩
      · exact absurd hw (hno y)
    · rintro ⟨o, ho, hw, hm⟩
      refine ⟨o, (hmem o).2 (.inl ho), hw, fun p hp z hz => ?_⟩
      rcases (hmem p).1 hp with hp | rfl
      · exact hm p hp z hz
      · exact absurd hz (hno z)

/-- A register of two keys; one is written again. -/
example : ∃ (w : View) (ops : List AOp) (id k : Uuid), IdSorted ops ∧ Consistent ops ∧ ops.length = 3 ∧
    (∀ o ∈ ops, Uuid.lt o.id id = true) ∧ id.version = Uuid.vTIME ∧ Lww.obj ops k = some (.int 5) ∧
    (mergeCursors w Form.LWW [ops, ((Lww.Obj.open ops).write id k [.int 6]).1]).map
      (fun r => (r.1, Lww.obj r.2 k, Lww.obj r.2 ⟨8#64, 0#64⟩)) = some (Status.OK, some (.int 6), some (.int 4)) := by
  refine ⟨⟨fun _ _ => false, fun _ => ⟨Uuid.NIL, Uuid.NIL, [], .raw⟩⟩,
    [⟨⟨1#64, 0x2000000000000007#64⟩, ⟨5#64, 0#64⟩, [], .header⟩,
     ⟨⟨2#64, 0x2000000000000007#64⟩, ⟨1#64, 0x2000000000000007#64⟩, [.uuid ⟨9#64, 0#64⟩, .int 5], .raw⟩,
     ⟨⟨3#64, 0x2000000000000007#64⟩, ⟨2#64, 0x2000000000000007#64⟩, [.uuid ⟨8#64, 0#64⟩, .int 4], .raw⟩],
    ⟨4#64, 0x2000000000000007#64⟩, ⟨9#64, 0#64⟩, by unfold IdSorted; decide +kernel, ?_, rfl, by decide +kernel, by decide +kernel,
    by decide +kernel, by decide +kernel⟩
  unfold Consistent
  decide +kernel

end Ron.Props
