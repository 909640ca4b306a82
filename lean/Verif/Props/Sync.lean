import Verif.Lemmas.Sync
import Verif.Props.LineageFrames
/-!
C104: a replica can catch up with another one.

`sendEach` (C103) sends chains one after another; there is no branch, so chains of all yarns are welcome.
-/
namespace Ron.Props
open Ron Ron.Spec Ron.Commit

theorem eventsOf_flatten (H : List Chain) : (H.map Chain.ops).flatten = eventsOf H := by
  unfold eventsOf
  rw [List.flatMap]

theorem eventsOf_append (H G : List Chain) : eventsOf (H ++ G) = eventsOf H ++ eventsOf G := by
  unfold eventsOf
  rw [List.flatMap_append]

theorem eventsOf_parts (G : List Chain) : opsOf (G.map Chain.parts) = eventsOf G := by
  unfold opsOf eventsOf
  rw [List.flatMap_map]
  rfl

/-! ## C104 — a replica can catch up with another one -/

/-- One replica has events that another one has not, but not the other way round. Then there are chains to be sent to the
other that it accepts, and it has the same events afterwards. -/
def C104_claim : Prop :=
  ∀ (v : Rdt.View) (s t : MemStore) (acc acc' : List (List AOp)), Fed v s acc → Fed v t acc' →
    (∀ x ∈ acc'.flatten, ∃ y ∈ acc.flatten, y.body = x.body) →
    ∃ (env : Env) (now : Word) (l : List (AOp × List AOp)) (st : Status) (t' : MemStore), env.mg = Rdt.mergeCursors v ∧
      (∀ p ∈ l, Proper p.1 p.2) ∧ sendEach env t Uuid.NIL now l = some (st, t') ∧ st.ok = true ∧
      SameEvents (acc'.flatten ++ opsOf l) acc.flatten

/-- An event that was missed is never got: once a later event of the yarn is there, no chains that are accepted bring
it. -/
theorem C104_missed {wh : Bool} (v : Rdt.View) (H : List Chain) (note : Uuid → List Nat) (s : MemStore) (L : Lineage H)
    (K : Carries wh H note s) (i j : Uuid) (hj : Known H j) (hi : ¬ Known H i) (ho : i.origin = j.origin)
    (hlt : Uuid.lt i j = true) (env : Env) (hv : env.mg = Rdt.mergeCursors v) (now : Word) (l : List (AOp × List AOp))
    (hP : ∀ p ∈ l, Proper p.1 p.2) (st : Status) (s' : MemStore) (e : sendEach env s Uuid.NIL now l = some (st, s'))
    (hok : st.ok = true) : ∀ x ∈ opsOf l, x.id ≠ i := by
  obtain ⟨st', s'', e', h1, -⟩ := C103_each v env hv l hP H note s Uuid.NIL now L K (Or.inl rfl)
  rw [e] at e'
  cases e'
  obtain ⟨G, rfl, LG⟩ := h1.1 hok
  rintro x hx rfl
  rw [eventsOf_parts] at hx
  refine missed LG hj hi ho hlt (Lineage.known_iff.2 ⟨x, ?_, rfl⟩)
  rw [eventsOf_append]
  exact List.mem_append_right _ hx

/-! A yarn with two registers; another replica gets the beginning of the yarn and the second register. -/

def late104 : List AOp := [op2 (evA 15) (formUuid Form.LWW)]
def reg104 : List AOp := [op2 (evA 11) (formUuid Form.LWW)]

theorem proper104 : Proper (op2 (evA 15) (formUuid Form.LWW)) [] ∧ Proper (op2 (evA 11) (formUuid Form.LWW)) [] := by
  refine ⟨⟨?_, ?_, ?_, ?_, ?_, ?_, ?_⟩, ⟨?_, ?_, ?_, ?_, ?_, ?_, ?_⟩⟩ <;>
    (try unfold Stamp) <;> (try unfold ChainedTo) <;> (try unfold ChainedTo) <;> decide +kernel

theorem fed104 : ∃ s, Fed tView s [fed1, reg104, late104] := by
  have f1 := fed_run fed_st1 (tip := Uuid.NIL) proper104.2 (Or.inl rfl) (by decide +kernel)
  rw [if_pos (by decide +kernel)] at f1
  have f2 := fed_run f1 (tip := Uuid.NIL) proper104.1 (Or.inl rfl) (by decide +kernel)
  rw [if_pos (by decide +kernel)] at f2
  exact ⟨_, f2⟩

theorem fed104b : ∃ s, Fed tView s [fed1, late104] := by
  have f1 := fed_run fed_st1 (tip := Uuid.NIL) proper104.1 (Or.inl rfl) (by decide +kernel)
  rw [if_pos (by decide +kernel)] at f1
  exact ⟨_, f1⟩

/-- It fails: an event is accepted though the one before it in its yarn is missing, and then it is too late for that. -/
theorem C104_violated : ¬ C104_claim := by
  intro h
  obtain ⟨s, hs⟩ := fed104
  obtain ⟨t, ht⟩ := fed104b
  obtain ⟨env, now, l, st, t', hv, hP, e, hok, hsame⟩ := h tView s t _ _ hs ht (by
    intro x hx
    refine ⟨x, ?_, rfl⟩
    simp only [List.flatten_cons, List.flatten_nil, List.append_nil, List.mem_append] at hx ⊢
    rcases hx with hx | hx
    · exact Or.inl hx
    · exact Or.inr (Or.inr hx))
  obtain ⟨H, note, eH, L, K⟩ := C101_history _ _ _ ht
  have hkn : ∀ i, Known H i ↔ ∃ x ∈ [fed1, late104].flatten, x.id = i := by
    intro i
    rw [Lineage.known_iff, ← eventsOf_flatten, eH]
  obtain ⟨x, hx, hb⟩ := (hsame (op2 (evA 11) (formUuid Form.LWW)).body).2
    ⟨op2 (evA 11) (formUuid Form.LWW), by decide +kernel, rfl⟩
  have hid : x.id = evA 11 := Rdt.body_id hb
  have hun : ∀ y ∈ [fed1, late104].flatten, y.id ≠ evA 11 := by decide +kernel
  rcases List.mem_append.1 hx with hx | hx
  · exact hun x hx hid
  · exact C104_missed tView H note t L K (evA 11) (evA 15)
      ((hkn _).2 ⟨op2 (evA 15) (formUuid Form.LWW), by decide +kernel, rfl⟩)
      (fun h => by obtain ⟨y, hy, e⟩ := (hkn _).1 h; exact hun y hy e) rfl (by decide +kernel) env hv now l hP st t' e hok
      x hx hid

/-- What is missing can be sent: if neither of two replicas has a gap where the other has an event, one accepts all the
chains that it lacks, as far as it lacks them, in the order in which the other accepted them; it then has its own events and
those of the other. Missing for the full claim: replicas with gaps (`C104_missed`). -/
theorem C104_catch_up_partial {wh : Bool} (v : Rdt.View) (A B : List Chain) (note : Uuid → List Nat) (s : MemStore) (LA : Lineage A)
    (LB : Lineage B) (K : Carries wh B note s) (hA : Aligned (eventsOf A) (eventsOf B)) (hC : Concordant (eventsOf A) (eventsOf B))
    (env : Env) (hv : env.mg = Rdt.mergeCursors v) (now : Word) :
    ∃ st s' G note', sendEach env s Uuid.NIL now (missing (eventsOf B) (A.map Chain.ops)) = some (st, s') ∧ st.ok = true ∧
      Lineage (B ++ G) ∧ Carries wh (B ++ G) note' s' ∧ SameEvents (eventsOf (B ++ G)) (eventsOf A ++ eventsOf B) := by
  obtain ⟨G, h1, h2, h3⟩ := catch_up LA LB hA
  have hP : ∀ p ∈ missing (eventsOf B) (A.map Chain.ops), Proper p.1 p.2 := by
    intro p hp
    rw [← h1] at hp
    obtain ⟨c, hc, rfl⟩ := List.mem_map.1 hp
    exact h2.proper c (List.mem_append_right _ hc)
  obtain ⟨st, s', e, g1, g2⟩ := C103_each v env hv _ hP B note s Uuid.NIL now LB K (Or.inl rfl)
  obtain ⟨note', K'⟩ := g2 G h1 h2
  refine ⟨st, s', G, note', e, g1.2 ⟨G, h1, h2⟩, h2, K', fun b => ?_⟩
  rw [eventsOf_append]
  constructor
  · rintro ⟨x, hx, rfl⟩
    rcases List.mem_append.1 hx with hx | hx
    · exact ⟨x, List.mem_append_right _ hx, rfl⟩
    · obtain ⟨y, hy, e, -⟩ := (h3 x.body).1 ⟨x, hx, rfl⟩
      exact ⟨y, List.mem_append_left _ hy, e⟩
  · rintro ⟨x, hx, rfl⟩
    rcases List.mem_append.1 hx with hx | hx
    · by_cases hk : Known B x.id
      · obtain ⟨y, hy, e⟩ := Lineage.known_iff.1 hk
        exact ⟨y, List.mem_append_left _ hy, (hC x hx y hy e.symm).symm⟩
      · obtain ⟨y, hy, e⟩ := (h3 x.body).2 ⟨x, hx, rfl, hk⟩
        exact ⟨y, List.mem_append_right _ hy, e⟩
    · exact ⟨x, List.mem_append_left _ hx, rfl⟩

/-- The condition is exact: where one replica has all events of the other, the other can catch up if and only if it has no
gaps. -/
theorem C104_exact_partial {wh : Bool} (v : Rdt.View) (A B : List Chain) (note : Uuid → List Nat) (s : MemStore) (LA : Lineage A)
    (LB : Lineage B) (K : Carries wh B note s) (hsub : ∀ y ∈ eventsOf B, ∃ x ∈ eventsOf A, x.body = y.body) (env : Env)
    (hv : env.mg = Rdt.mergeCursors v) (now : Word) :
    (∃ l st s', (∀ p ∈ l, Proper p.1 p.2) ∧ sendEach env s Uuid.NIL now l = some (st, s') ∧ st.ok = true ∧
      SameEvents (eventsOf B ++ opsOf l) (eventsOf A)) ↔
    ∀ x ∈ eventsOf A, ∀ y ∈ eventsOf B, x.id.origin = y.id.origin → Uuid.lt x.id y.id = true → ∃ z ∈ eventsOf B, z.id = x.id := by
  constructor
  · rintro ⟨l, st, s', hP, e, hok, hsame⟩ x hx y hy ho hlt
    obtain ⟨z, hz, hb⟩ := (hsame x.body).2 ⟨x, hx, rfl⟩
    have hid : z.id = x.id := Rdt.body_id hb
    rcases List.mem_append.1 hz with hz | hz
    · exact ⟨z, hz, hid⟩
    · refine Classical.byContradiction fun hno => ?_
      exact C104_missed v B note s LB K x.id y.id (Lineage.known_iff.2 ⟨y, hy, rfl⟩)
        (fun h => hno (Lineage.known_iff.1 h)) ho hlt env hv now l hP st s' e hok z hz hid
  · intro hgap
    have hC : Concordant (eventsOf A) (eventsOf B) := by
      intro x hx y hy e
      obtain ⟨z, hz, hb⟩ := hsub y hy
      rw [← hb]
      exact LA.consistent x hx z hz (by rw [e, Rdt.body_id hb])
    obtain ⟨st, s', G, note', e, hok, L', K', hsame⟩ := C104_catch_up_partial v A B note s LA LB K (by
      intro x hx y hy ho
      refine ⟨hgap x hx y hy ho, fun _ => ?_⟩
      obtain ⟨z, hz, hb⟩ := hsub y hy
      exact ⟨z, hz, Rdt.body_id hb⟩) hC env hv now
    obtain ⟨G', h1, h2, h3⟩ := catch_up LA LB (by
      intro x hx y hy ho
      refine ⟨hgap x hx y hy ho, fun _ => ?_⟩
      obtain ⟨z, hz, hb⟩ := hsub y hy
      exact ⟨z, hz, Rdt.body_id hb⟩)
    refine ⟨_, st, s', ?_, e, hok, ?_⟩
    · intro p hp
      rw [← h1] at hp
      obtain ⟨c, hc, rfl⟩ := List.mem_map.1 hp
      exact h2.proper c (List.mem_append_right _ hc)
    · intro b
      rw [← h1, eventsOf_parts]
      constructor
      · rintro ⟨x, hx, rfl⟩
        rcases List.mem_append.1 hx with hx | hx
        · exact hsub x hx
        · obtain ⟨y, hy, e, -⟩ := (h3 x.body).1 ⟨x, hx, rfl⟩
          exact ⟨y, hy, e⟩
      · rintro ⟨x, hx, rfl⟩
        by_cases hk : Known B x.id
        · obtain ⟨y, hy, e⟩ := Lineage.known_iff.1 hk
          exact ⟨y, List.mem_append_left _ hy, (hC x hx y hy e.symm).symm⟩
        · obtain ⟨y, hy, e⟩ := (h3 x.body).2 ⟨x, hx, rfl, hk⟩
          exact ⟨y, List.mem_append_right _ hy, e⟩

theorem aligned_symm {a b : List AOp} (h : Aligned a b) : Aligned b a :=
  fun x hx y hy ho => ⟨(h y hy x hx ho.symm).2, (h y hy x hx ho.symm).1⟩

theorem concordant_symm {a b : List AOp} (h : Concordant a b) : Concordant b a :=
  fun x hx y hy e => (h y hy x hx e.symm).symm

/-- Two replicas that send each other what the other lacks: all is accepted, they have the same events afterwards, and
every register, set and yarn reads the same. Missing: as in `C104_catch_up_partial`; arrays are in C102. -/
theorem C104_exchange_partial {wh wh' : Bool} (v v' : Rdt.View) (A B : List Chain) (note note' : Uuid → List Nat) (s t : MemStore)
    (LA : Lineage A) (KA : Carries wh A note s) (LB : Lineage B) (KB : Carries wh' B note' t)
    (hA : Aligned (eventsOf A) (eventsOf B)) (hC : Concordant (eventsOf A) (eventsOf B)) (env env' : Env)
    (hv : env.mg = Rdt.mergeCursors v) (hv' : env'.mg = Rdt.mergeCursors v') (now now' : Word) :
    ∃ st st' s' t' GA GB k k',
      sendEach env s Uuid.NIL now (missing (eventsOf A) (B.map Chain.ops)) = some (st, s') ∧ st.ok = true ∧
      sendEach env' t Uuid.NIL now' (missing (eventsOf B) (A.map Chain.ops)) = some (st', t') ∧ st'.ok = true ∧
      Lineage (A ++ GA) ∧ Carries wh (A ++ GA) k s' ∧ Lineage (B ++ GB) ∧ Carries wh' (B ++ GB) k' t' ∧
      SameEvents (eventsOf (A ++ GA)) (eventsOf (B ++ GB)) ∧
      ∀ c ∈ A ++ B, IdForm (uuid2form c.rdt) →
        ∃ out out', Engine.read (Rdt.mergeCursors v) s' (Key.ofUuids c.object c.rdt) = some (Status.OK, out) ∧
          Engine.read (Rdt.mergeCursors v') t' (Key.ofUuids c.object c.rdt) = some (Status.OK, out') ∧
          out.map AOp.body = out'.map AOp.body := by
  obtain ⟨st, s', GA, k, e, h1, h2, h3, h4⟩ := C104_catch_up_partial v B A note s LB LA KA (aligned_symm hA) (concordant_symm hC) env hv now
  obtain ⟨st', t', GB, k', e', g1, g2, g3, g4⟩ := C104_catch_up_partial v' A B note' t LA LB KB hA hC env' hv' now'
  have hsame : SameEvents (eventsOf (A ++ GA)) (eventsOf (B ++ GB)) := by
    intro b
    rw [h4 b, g4 b]
    constructor <;> rintro ⟨x, hx, rfl⟩ <;> refine ⟨x, ?_, rfl⟩ <;> rw [List.mem_append] at hx ⊢ <;> exact hx.symm
  refine ⟨st, st', s', t', GA, GB, k, k', e, h1, e', g1, h2, h3, g2, g3, hsame, fun c hc hf => ?_⟩
  rcases List.mem_append.1 hc with hc | hc
  · exact C102_read v v' _ _ k k' s' t' h2 h3 g2 g3 hsame c (List.mem_append_left _ hc) hf
  · obtain ⟨out, out', q1, q2, q3⟩ := C102_read v' v _ _ k' k t' s' g2 g3 h2 h3 (fun b => (hsame b).symm) c
      (List.mem_append_left _ hc) hf
    exact ⟨out', out, q2, q1, q3.symm⟩

/-- Two replicas: one has a yarn and a register with two changes, the other has the yarn, the beginning of the chain of the
register and another yarn. What they send each other is the rest of the chain and the other yarn. -/
example : ∃ A B note note' s t, Lineage A ∧ Holds A note s ∧ Lineage B ∧ Holds B note' t ∧
    Aligned (eventsOf A) (eventsOf B) ∧ Concordant (eventsOf A) (eventsOf B) ∧
    opsOf (missing (eventsOf B) (A.map Chain.ops)) = [sent (op2 (evA 12) (evA 11) [.int 1]), sent (op2 (evA 15) (evA 11))] ∧
    opsOf (missing (eventsOf A) (B.map Chain.ops)) = [sent (op2 (evB 10) (formUuid Form.YARN))] := by
  obtain ⟨s, hs⟩ := fed_example
  have g1 := fed_run fed_st1 (tip := Uuid.NIL) proper_cut.2.2 (Or.inl rfl) (by decide +kernel)
  rw [if_pos (by decide +kernel)] at g1
  have g2 := fed_run g1 (tip := Uuid.NIL) proper_cut.1 (Or.inl rfl) (by decide +kernel)
  rw [if_pos (by decide +kernel)] at g2
  obtain ⟨A, note, eA, LA, KA⟩ := C101_history _ _ _ hs
  obtain ⟨B, note', eB, LB, KB⟩ := C101_history _ _ _ g2
  refine ⟨A, B, note, note', s, _, LA, KA, LB, KB, ?_, ?_, ?_, ?_⟩
  · rw [← eventsOf_flatten, ← eventsOf_flatten, eA, eB]
    unfold Aligned
    decide +kernel
  · rw [← eventsOf_flatten, ← eventsOf_flatten, eA, eB]
    unfold Concordant
    decide +kernel
  · rw [← eventsOf_flatten, eA, eB]
    decide +kernel
  · rw [← eventsOf_flatten, eA, eB]
    decide +kernel

end Ron.Props
