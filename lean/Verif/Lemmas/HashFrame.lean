import Verif.Model.HashFrame
import Verif.Spec.HashFrame
import Verif.Props.Hash
import Verif.Props.Merkle
import Verif.Lemmas.Lineage
/-!
The hashes of the events of a frame.
-/
namespace Ron.HashRun
open Ron Spec Props

/-- The text of a hash of which no bits are known. -/
theorem base64_new (b : List Byte) : ({ SHA2.new with bits := b } : SHA2).base64 = some [] := by
  simp [SHA2.base64, SHA2.new, encode, encodeLoop]

theorem lookup_cons {α β : Type _} [BEq α] [LawfulBEq α] [DecidableEq α] (a k : α) (b : β) (l : List (α × β)) :
    ((a, b) :: l).lookup k = if k = a then some b else l.lookup k := by
  rw [List.lookup_cons]
  split
  · rename_i h; rw [if_pos (by simpa using h)]
  · rename_i h; rw [if_neg (by simpa using h)]

/-! ### What is kept after some events -/

/-- The state after the events `A`. -/
structure After (hs : Hashing) (A : List AOp) (s : HashRun) : Prop where
  report : s.report.bodies = A.map fun o => (SHA2_ID, o.id, [.str []])
  known : ∀ i, (s.hashes.lookup i).isSome = true ↔ ∃ x ∈ A, x.id = i
  tips : ∀ y, s.tips.lookup y = (A.reverse.find? fun x => decide (x.id.origin = y)).map fun x => x.id.value

theorem after_nil (hs : Hashing) : After hs [] HashRun.empty :=
  ⟨rfl, fun i => by simp [HashRun.empty], fun y => by simp [HashRun.empty]⟩

theorem bodies_append (b : ABuilder) (o : AOp) : (b.append o).bodies = b.bodies ++ [o.body] := by
  obtain ⟨d, p⟩ := b
  cases p <;> simp [ABuilder.append, ABuilder.writeTerm, ABuilder.bodies, AOp.body]

theorem release_bodies (b : ABuilder) : b.release.map AOp.body = b.bodies := by
  obtain ⟨d, p⟩ := b
  cases p <;> simp [ABuilder.release, ABuilder.endChunk, ABuilder.writeTerm, ABuilder.bodies, AOp.body]

/-- One more event. -/
theorem event_after {hs : Hashing} {A : List AOp} {s : HashRun} (K : After hs A s) (o : AOp) :
    (o.ref.version = Uuid.vNAME ∨ o.ref.version = Uuid.vTIME ∧ ∃ x ∈ A, x.id = o.ref) ∧
      (∃ s' r, s.refHash hs o = (Status.OK, r) ∧ s.event hs o = some (Status.OK, s') ∧ After hs (A ++ [o]) s' ∧
        s'.hashes = (o.id, ⟨0, hs.op o (s.prevHash hs o).bits r.bits⟩) :: s.hashes) ∨
    ¬ (o.ref.version = Uuid.vNAME ∨ o.ref.version = Uuid.vTIME ∧ ∃ x ∈ A, x.id = o.ref) ∧
      ∃ st, s.event hs o = some (st, s) ∧ st.ok = false ∧
        (st = Status.TREEGAP ∧ o.ref.version = Uuid.vTIME ∨ st = Status.BAD_STATE ∧ o.ref.version ≠ Uuid.vTIME) := by
  have good : ∀ r : SHA2, s.refHash hs o = (Status.OK, r) →
      ∃ s' r, s.refHash hs o = (Status.OK, r) ∧ s.event hs o = some (Status.OK, s') ∧ After hs (A ++ [o]) s' ∧
        s'.hashes = (o.id, ⟨0, hs.op o (s.prevHash hs o).bits r.bits⟩) :: s.hashes := by
    intro r e
    have hk : ¬ ¬ Status.OK.ok = true := by decide
    refine ⟨⟨s.report.append ⟨SHA2_ID, o.id, [.str []], .raw⟩,
      (o.id, ⟨0, hs.op o (s.prevHash hs o).bits r.bits⟩) :: s.hashes, (o.id.origin, o.id.value) :: s.tips⟩, r, e, ?_,
      ⟨?_, ?_, ?_⟩, rfl⟩
    · unfold event
      simp only [e, if_neg hk, base64_new, Option.map_some]
      rfl
    · simp only
      rw [bodies_append, K.report]
      simp [AOp.body]
    · intro i
      simp only
      rw [lookup_cons]
      by_cases h : i = o.id
      · rw [if_pos h]
        exact ⟨fun _ => ⟨o, by simp, h.symm⟩, fun _ => rfl⟩
      · rw [if_neg h, K.known]
        constructor
        · rintro ⟨x, hx, e⟩
          exact ⟨x, List.mem_append_left _ hx, e⟩
        · rintro ⟨x, hx, e⟩
          rcases List.mem_append.1 hx with hx | hx
          · exact ⟨x, hx, e⟩
          · rw [List.mem_singleton.1 hx] at e
            exact absurd e.symm h
    · intro y
      simp only
      rw [lookup_cons, List.reverse_append]
      simp only [List.reverse_cons, List.reverse_nil, List.nil_append, List.singleton_append, List.find?_cons]
      by_cases h : y = o.id.origin
      · rw [if_pos h, h]
        simp
      · rw [if_neg h, K.tips, decide_eq_false (fun e => h e.symm)]
  have bad : ∀ st r, s.refHash hs o = (st, r) → st.ok = false → s.event hs o = some (st, s) := by
    intro st r e hb
    unfold event
    simp only [e]
    rw [hb]
    rfl
  by_cases ht : o.ref.version = Uuid.vTIME
  · have hn : o.ref.version ≠ Uuid.vNAME := by rw [ht]; decide
    cases hl : s.hashes.lookup o.ref with
    | none =>
      refine Or.inr ⟨?_, Status.TREEGAP, bad _ SHA2.new ?_ (by decide), by decide, Or.inl ⟨rfl, ht⟩⟩
      · rintro (h | ⟨-, h⟩)
        · exact hn h
        · have := (K.known o.ref).2 h
          rw [hl] at this
          cases this
      · unfold refHash; rw [if_pos ht, hl]
    | some g =>
      refine Or.inl ⟨Or.inr ⟨ht, (K.known o.ref).1 (by rw [hl]; rfl)⟩, good g ?_⟩
      unfold refHash; rw [if_pos ht, hl]
  · by_cases hn : o.ref.version = Uuid.vNAME
    · refine Or.inl ⟨Or.inl hn, good ⟨256, hs.form o.ref⟩ ?_⟩
      unfold refHash; rw [if_neg ht, if_pos hn]
    · refine Or.inr ⟨?_, Status.BAD_STATE, bad _ SHA2.new ?_ (by decide), by decide, Or.inr ⟨rfl, ht⟩⟩
      · rintro (h | ⟨h, -⟩)
        · exact hn h
        · exact ht h
      · unfold refHash; rw [if_neg ht, if_neg hn]

/-- The first event that does not refer to a name or an event before it. -/
theorem loop_after {hs : Hashing} : ∀ (os A : List AOp) (s : HashRun), After hs A s → (∀ o ∈ os, o.id.version = Uuid.vTIME) →
    ∃ st s', s.loop hs os = some (st, s') ∧ (st.ok = true ↔ Backed A os) ∧ (st.ok = true → st = Status.OK ∧ After hs (A ++ os) s') ∧
      (st.ok = false → st = Status.TREEGAP ∨ st = Status.BAD_STATE) := by
  intro os
  induction os with
  | nil =>
    intro A s K _
    exact ⟨Status.OK, s, rfl, ⟨fun _ => trivial, fun _ => by decide⟩, fun _ => ⟨rfl, by rw [List.append_nil]; exact K⟩,
      fun h => absurd h (by decide)⟩
  | cons o os ih =>
    intro A s K ht
    have hturn : s.turn hs o = s.event hs o := by
      unfold turn; rw [if_pos (ht o List.mem_cons_self)]
    unfold loop Backed
    rw [hturn]
    rcases event_after K o with ⟨h1, s', r, -, h2, K', -⟩ | ⟨h1, st, h2, h3, h4⟩
    · rw [h2]
      obtain ⟨st, s'', g1, g2, g3, g4⟩ := ih (A ++ [o]) s' K' (fun x hx => ht x (List.mem_cons_of_mem _ hx))
      have hk : ¬ ¬ Status.OK.ok = true := by decide
      refine ⟨st, s'', ?_, g2.trans ⟨fun h => ⟨h1, h⟩, fun h => h.2⟩, fun h => ?_, g4⟩
      · simp only [Option.bind_some, if_neg hk]
        exact g1
      · have := g3 h
        rw [List.append_assoc] at this
        exact this
    · rw [h2]
      refine ⟨st, s, ?_, ⟨fun h => ?_, fun h => absurd h.1 h1⟩, fun h => ?_, fun _ => ?_⟩
      · simp only [Option.bind_some, h3]
        rfl
      · rw [h3] at h; cases h
      · rw [h3] at h; cases h
      · rcases h4 with h | h
        · exact Or.inl h.1
        · exact Or.inr h.1

/-! ### The hashes -/

theorem precedes_mono {A B : List AOp} (T : Clocked (A ++ B)) {o : AOp} (ho : o ∈ A) {c : Cause} (h : Precedes A o c) :
    Precedes (A ++ B) o c := by
  have hb : ∀ x ∈ B, x.id.origin = o.id.origin → ¬ Uuid.lt x.id o.id = true := by
    intro x hx e hl
    have h1 := (List.pairwise_append.1 T.order).2.2 o ho x hx e.symm
    have h2 := (Uuid.lt_same e).1 hl
    have h3 := (Uuid.lt_same e.symm).1 h1
    omega
  cases c with
  | start y =>
    refine ⟨h.1, fun x hx e => ?_⟩
    rcases List.mem_append.1 hx with hx | hx
    · exact h.2 x hx e
    · exact hb x hx e
  | name u => exact h
  | event i =>
    obtain ⟨h1, h2, ⟨x, hx, e⟩, h4⟩ := h
    refine ⟨h1, h2, ⟨x, List.mem_append_left _ hx, e⟩, fun z hz ez hl => ?_⟩
    rcases List.mem_append.1 hz with hz | hz
    · exact h4 z hz ez hl
    · exact absurd hl (hb z hz ez)

theorem merkle_mono {hs : Hashing} {A B : List AOp} (T : Clocked (A ++ B)) {c : Cause} {d : Digest} (h : Merkle hs A c d) :
    Merkle hs (A ++ B) c d := by
  induction h with
  | start y => exact .start y
  | name u => exact .name u
  | event ho hp hr _ _ ih1 ih2 => exact .event (List.mem_append_left _ ho) (precedes_mono T ho hp) hr ih1 ih2

/-- The hashes that are kept are the Merkle hashes. -/
def Right (hs : Hashing) (A : List AOp) (s : HashRun) : Prop :=
  ∀ i g, s.hashes.lookup i = some g → Merkle hs A (.event i) g.bits

theorem timely_left {A B : List AOp} (T : Clocked (A ++ B)) : Clocked A :=
  ⟨fun o ho => T.events o (List.mem_append_left _ ho), (List.pairwise_append.1 T.order).1⟩

theorem event_right {hs : Hashing} {A : List AOp} {s s' : HashRun} {o : AOp} (K : After hs A s) (R : Right hs A s)
    (T : Clocked (A ++ [o])) {r : SHA2} (e : s.refHash hs o = (Status.OK, r))
    (e' : s'.hashes = (o.id, ⟨0, hs.op o (s.prevHash hs o).bits r.bits⟩) :: s.hashes) : Right hs (A ++ [o]) s' := by
  intro i g hg
  rw [e', lookup_cons] at hg
  split at hg
  · rename_i hi
    rw [hi]
    cases hg
    -- what it refers to
    have hr : ∃ c, Refers o c ∧ Merkle hs (A ++ [o]) c r.bits := by
      unfold refHash at e
      split at e
      · rename_i hv
        split at e
        · exact absurd (congrArg Prod.fst e) (show ¬ Status.TREEGAP = Status.OK by decide)
        · rename_i g hg
          cases e
          exact ⟨.event o.ref, ⟨hv, rfl⟩, merkle_mono T (R _ _ hg)⟩
      · split at e
        · rename_i hv
          cases e
          exact ⟨.name o.ref, ⟨hv, rfl⟩, .name _⟩
        · exact absurd (congrArg Prod.fst e) (show ¬ Status.BAD_STATE = Status.OK by decide)
    -- what comes before
    have hp : ∃ c, Precedes (A ++ [o]) o c ∧ Merkle hs (A ++ [o]) c (s.prevHash hs o).bits := by
      have hself : ∀ x ∈ [o], ¬ Uuid.lt x.id o.id = true := by
        intro x hx hl
        rw [List.mem_singleton.1 hx] at hl
        have := (Uuid.lt_same rfl).1 hl
        omega
      unfold prevHash
      rw [K.tips]
      cases hf : A.reverse.find? fun x => decide (x.id.origin = o.id.origin) with
      | none =>
        refine ⟨.start o.id.origin, ⟨rfl, fun x hx ex => ?_⟩, .start _⟩
        rcases List.mem_append.1 hx with hx | hx
        · have := List.find?_eq_none.1 hf x (List.mem_reverse.2 hx)
          exact absurd (decide_eq_true ex) this
        · exact hself x hx
      | some t =>
        have ht : t.id.origin = o.id.origin := by simpa using List.find?_some hf
        have htm : t ∈ A := List.mem_reverse.1 (List.mem_of_find?_eq_some hf)
        have hid : (⟨t.id.value, o.id.origin⟩ : Uuid) = t.id := by rw [← ht]
        simp only [Option.map_some]
        rw [hid]
        have hk := (K.known t.id).2 ⟨t, htm, rfl⟩
        match hl : s.hashes.lookup t.id, hk with
        | some g, _ =>
          refine ⟨.event t.id, ⟨ht, ?_, ⟨t, List.mem_append_left _ htm, rfl⟩, fun x hx ex hlo hl' => ?_⟩,
            merkle_mono T (R _ _ hl)⟩
          · exact (List.pairwise_append.1 T.order).2.2 t htm o (List.mem_singleton.2 rfl) ht
          · rcases List.mem_append.1 hx with hx | hx
            · obtain ⟨h1, as, bs, h2, h3⟩ := List.find?_eq_some_iff_append.1 hf
              have h2' : A = bs.reverse ++ (t :: as.reverse) := by
                have := congrArg List.reverse h2
                simpa using this
              have hto := (timely_left T).order
              rw [h2'] at hto hx
              rcases List.mem_append.1 hx with hx | hx
              · have := (List.pairwise_append.1 hto).2.2 x hx t List.mem_cons_self (ex.trans ht.symm)
                have h5 := (Uuid.lt_same (ex.trans ht.symm)).1 this
                have h6 := (Uuid.lt_same (ht.trans ex.symm)).1 hl'
                omega
              · rcases List.mem_cons.1 hx with hx | hx
                · rw [hx] at hl'
                  have := (Uuid.lt_same rfl).1 hl'
                  omega
                · have := h3 x (List.mem_reverse.1 hx)
                  rw [decide_eq_true ex] at this
                  cases this
            · exact absurd hlo (hself x hx)
    obtain ⟨c, hc1, hc2⟩ := hr
    obtain ⟨c', hc1', hc2'⟩ := hp
    exact .event (by simp) hc1' hc1 hc2' hc2
  · exact merkle_mono T (R i g hg)

theorem loop_right {hs : Hashing} : ∀ (os A : List AOp) (s : HashRun), After hs A s → Right hs A s → Clocked (A ++ os) →
    ∀ s', s.loop hs os = some (Status.OK, s') → After hs (A ++ os) s' ∧ Right hs (A ++ os) s' := by
  intro os
  induction os with
  | nil =>
    intro A s K R _ s' e
    cases e
    rw [List.append_nil]
    exact ⟨K, R⟩
  | cons o os ih =>
    intro A s K R T s' e
    have hturn : s.turn hs o = s.event hs o := by
      unfold turn; rw [if_pos (T.events o (by simp))]
    unfold loop at e
    rw [hturn] at e
    have T' : Clocked ((A ++ [o]) ++ os) := by rw [List.append_assoc]; exact T
    rcases event_after K o with ⟨h1, s1, r, h3, h2, K', h4⟩ | ⟨h1, st, h2, h3, h4⟩
    · rw [h2] at e
      have hk : ¬ ¬ Status.OK.ok = true := by decide
      simp only [Option.bind_some, if_neg hk] at e
      have := ih (A ++ [o]) s1 K' (event_right K R (timely_left T') h3 h4) T' s' e
      rw [List.append_assoc] at this
      exact this
    · rw [h2] at e
      simp only [Option.bind_some, h3] at e
      cases e
      exact absurd h3 (by decide)

end Ron.HashRun
