import Verif.Props.Sync
/-!
C105: replicas that send each other what the other lacks never refuse anything, and end up the same.

A network of replicas. The events of a yarn are made at one place: whoever takes in a chain that is new to the network has
all events of its yarn that anyone has. All other events come as what is `missing` (C104), all of it or some of it; frames
that are refused may come at any time.
-/
namespace Ron.Props
open Ron Ron.Spec Ron.Commit

/-- One of the replicas is changed. -/
def changed {α : Type} (f : Nat → α) (k : Nat) (x : α) : Nat → α := fun m => if m = k then x else f m

/-- What a replica has accepted. -/
abbrev Accepted := List (List AOp)

/-- A network of replicas: their stores and what each has accepted, as it came. -/
inductive Network (v : Rdt.View) : (Nat → MemStore) → (Nat → Accepted) → Prop where
  | new : Network v (fun _ => newStore) (fun _ => [])
  /-- New events are made. -/
  | write {S : Nat → MemStore} {F : Nat → Accepted} {k : Nat} {env : Env} {now now' : Word} {o : AOp} {os : List AOp}
      {st : Status} {s' : MemStore} : Network v S F → env.mg = Rdt.mergeCursors v → Proper o os →
      (∀ m, ∀ x ∈ (F m).flatten, x.id.origin = o.id.origin → ∃ y ∈ (F k).flatten, y.id = x.id) →
      receive env (S k) Uuid.NIL now ⟨o :: os, Status.ENDOFFRAME, true⟩ = some (st, s', now') → st.ok = true →
      Network v (changed S k s') (changed F k (F k ++ [o :: os]))
  /-- One replica sends another one what it lacks, or as much of it as comes through. -/
  | send {S : Nat → MemStore} {F : Nat → Accepted} {k m n : Nat} {env : Env} {now : Word} {st : Status} {s' : MemStore} :
      Network v S F → env.mg = Rdt.mergeCursors v →
      sendEach env (S m) Uuid.NIL now ((missing (F m).flatten (F k)).take n) = some (st, s') → st.ok = true →
      Network v (changed S m s') (changed F m (F m ++ ((missing (F m).flatten (F k)).take n).map fun p => p.1 :: p.2))
  /-- Something is refused. -/
  | refuse {S : Nat → MemStore} {F : Nat → Accepted} {k : Nat} {env : Env} {tip : Uuid} {now now' : Word} {o : AOp}
      {os : List AOp} {st : Status} {s' : MemStore} : Network v S F → env.mg = Rdt.mergeCursors v → Proper o os →
      (tip = Uuid.NIL ∨ ∃ x ∈ (F k).flatten, x.id = tip) →
      receive env (S k) tip now ⟨o :: os, Status.ENDOFFRAME, true⟩ = some (st, s', now') → st.ok = false →
      Network v (changed S k s') F

/-- What is true of a network at all times. -/
structure Orderly (S : Nat → MemStore) (F : Nat → Accepted) : Prop where
  history : ∀ k, ∃ H note, H.map Chain.ops = F k ∧ Lineage H ∧ Holds H note (S k)
  aligned : ∀ k m, Aligned (F k).flatten (F m).flatten
  concordant : ∀ k m, Concordant (F k).flatten (F m).flatten

theorem aligned_self (a : List AOp) : Aligned a a := fun x hx y hy _ => ⟨fun _ => ⟨x, hx, rfl⟩, fun _ => ⟨y, hy, rfl⟩⟩

/-- One replica takes in more; the others are as they were. -/
theorem orderly_change {S : Nat → MemStore} {F : Nat → Accepted} (h : Orderly S F) {k : Nat} {s' : MemStore} {f : Accepted}
    (hH : ∃ H note, H.map Chain.ops = f ∧ Lineage H ∧ Holds H note s')
    (ha : ∀ m, m ≠ k → Aligned f.flatten (F m).flatten) (hc : ∀ m, m ≠ k → Concordant f.flatten (F m).flatten) :
    Orderly (changed S k s') (changed F k f) := by
  refine ⟨fun m => ?_, fun a b => ?_, fun a b => ?_⟩
  · unfold changed
    by_cases hm : m = k
    · rw [if_pos hm, if_pos hm]; exact hH
    · rw [if_neg hm, if_neg hm]; exact h.history m
  · unfold changed
    by_cases ha' : a = k <;> by_cases hb' : b = k
    · rw [if_pos ha', if_pos hb']; exact aligned_self _
    · rw [if_pos ha', if_neg hb']; exact ha b hb'
    · rw [if_neg ha', if_pos hb']; exact aligned_symm (ha a ha')
    · rw [if_neg ha', if_neg hb']; exact h.aligned a b
  · unfold changed
    by_cases ha' : a = k <;> by_cases hb' : b = k
    · rw [if_pos ha', if_pos hb']
      obtain ⟨H, -, e, L, -⟩ := hH
      rw [← e, eventsOf_flatten]
      exact L.consistent
    · rw [if_pos ha', if_neg hb']; exact hc b hb'
    · rw [if_neg ha', if_pos hb']; exact concordant_symm (hc a ha')
    · rw [if_neg ha', if_neg hb']; exact h.concordant a b

/-- What comes through is accepted, and the network stays in order. -/
theorem send_orderly {v : Rdt.View} {S : Nat → MemStore} {F : Nat → Accepted} (h : Orderly S F) (k m n : Nat) {env : Env}
    (hv : env.mg = Rdt.mergeCursors v) (now : Word) : ∃ st s',
    sendEach env (S m) Uuid.NIL now ((missing (F m).flatten (F k)).take n) = some (st, s') ∧ st.ok = true ∧
    Orderly (changed S m s') (changed F m (F m ++ ((missing (F m).flatten (F k)).take n).map fun p => p.1 :: p.2)) ∧
    ((missing (F m).flatten (F k)).length ≤ n → SameEvents
      (F m ++ ((missing (F m).flatten (F k)).take n).map fun p => p.1 :: p.2).flatten ((F k).flatten ++ (F m).flatten)) := by
  obtain ⟨A, nA, eA, LA, KA⟩ := h.history k
  obtain ⟨B, nB, eB, LB, KB⟩ := h.history m
  have al := h.aligned k m
  have co := h.concordant k m
  rw [← eA, ← eB, eventsOf_flatten, eventsOf_flatten] at al co
  obtain ⟨G, g1, g2, g3⟩ := catch_up LA LB al
  have emiss : missing (F m).flatten (F k) = G.map Chain.parts := by rw [← eA, ← eB, eventsOf_flatten, g1]
  rw [emiss, ← List.map_take]
  have hfr : ∀ J : List Chain, (J.map Chain.parts).map (fun p => p.1 :: p.2) = J.map Chain.ops := by
    intro J
    rw [List.map_map]
    rfl
  rw [hfr]
  have L' : Lineage (B ++ G.take n) := by
    have : B ++ G = (B ++ G.take n) ++ G.drop n := by rw [List.append_assoc, List.take_append_drop]
    rw [this] at g2
    exact g2.front
  have hP : ∀ p ∈ (G.take n).map Chain.parts, Proper p.1 p.2 := by
    intro p hp
    obtain ⟨c, hc, rfl⟩ := List.mem_map.1 hp
    exact L'.proper c (List.mem_append_right _ hc)
  obtain ⟨st, s', e, q1, q2⟩ := C103_each v env hv _ hP B nB (S m) Uuid.NIL now LB KB (Or.inl rfl)
  obtain ⟨note', K'⟩ := q2 _ rfl L'
  have hflat : (F m ++ (G.take n).map Chain.ops).flatten = eventsOf (B ++ G.take n) := by
    rw [← eB, ← List.map_append, eventsOf_flatten]
  have idb : ∀ {x y : AOp}, x.body = y.body → x.id = y.id := fun h => congrArg (fun b : Body => b.1) h
  have htake : ∀ x ∈ eventsOf (G.take n), x ∈ eventsOf G := by
    intro x hx
    obtain ⟨c, hc, h⟩ := Lineage.mem_events.1 hx
    exact Lineage.mem_events.2 ⟨c, List.mem_of_mem_take hc, h⟩
  have hids := g2.ids
  have early : ∀ x ∈ eventsOf G, ∀ y ∈ eventsOf (G.take n), x.id.origin = y.id.origin → Uuid.lt x.id y.id = true →
      x ∈ eventsOf (G.take n) := by
    intro x hx y hy ho hlt
    have eG : eventsOf G = eventsOf (G.take n) ++ eventsOf (G.drop n) := by
      rw [← eventsOf_append, List.take_append_drop]
    rw [eG] at hx
    rcases List.mem_append.1 hx with hx | hx
    · exact hx
    · exfalso
      have eall : B ++ G = (B ++ G.take n) ++ G.drop n := by rw [List.append_assoc, List.take_append_drop]
      rw [eall, eventsOf_append, List.pairwise_append, eventsOf_append] at hids
      have := hids.2.2 y (List.mem_append_right _ hy) x hx ho.symm
      have := (Uuid.lt_same ho.symm).1 this
      have := (Uuid.lt_same ho).1 hlt
      omega
  refine ⟨st, s', e, q1.2 ⟨_, rfl, L'⟩, orderly_change h ⟨_, note', ?_, L', K'⟩ ?_ ?_, ?_⟩
  · rw [List.map_append, eB]
  · intro j hj
    rw [hflat, eventsOf_append]
    intro x hx y hy ho
    rcases List.mem_append.1 hx with hx | hx
    · have hx' : x ∈ (F m).flatten := by rw [← eB, eventsOf_flatten]; exact hx
      obtain ⟨p1, p2⟩ := h.aligned m j x hx' y hy ho
      refine ⟨p1, fun hlt => ?_⟩
      obtain ⟨z, hz, hzi⟩ := p2 hlt
      rw [← eB, eventsOf_flatten] at hz
      exact ⟨z, List.mem_append_left _ hz, hzi⟩
    · obtain ⟨x', hx', ex, -⟩ := (g3 x.body).1 ⟨x, htake x hx, rfl⟩
      have hid := idb ex
      have hxk : x' ∈ (F k).flatten := by rw [← eA, eventsOf_flatten]; exact hx'
      obtain ⟨p1, p2⟩ := h.aligned k j x' hxk y hy (by rw [hid]; exact ho)
      rw [hid] at p1 p2
      refine ⟨p1, fun hlt => ?_⟩
      obtain ⟨z, hz, hzi⟩ := p2 hlt
      rw [← eA, eventsOf_flatten] at hz
      by_cases hk : Known B z.id
      · obtain ⟨w, hw, hwi⟩ := Lineage.known_iff.1 hk
        exact ⟨w, List.mem_append_left _ hw, hwi.trans hzi⟩
      · obtain ⟨w, hw, hwb⟩ := (g3 z.body).2 ⟨z, hz, rfl, hk⟩
        have hwi := (idb hwb).trans hzi
        exact ⟨w, List.mem_append_right _ (early w hw x hx (by rw [hwi]; exact ho.symm) (by rw [hwi]; exact hlt)), hwi⟩
  · intro j hj
    rw [hflat, eventsOf_append]
    intro x hx y hy he
    rcases List.mem_append.1 hx with hx | hx
    · exact h.concordant m j x (by rw [← eB, eventsOf_flatten]; exact hx) y hy he
    · obtain ⟨x', hx', ex, -⟩ := (g3 x.body).1 ⟨x, htake x hx, rfl⟩
      rw [← ex]
      exact h.concordant k j x' (by rw [← eA, eventsOf_flatten]; exact hx') y hy ((idb ex).trans he)
  · intro hn
    rw [List.length_map] at hn
    rw [hflat, List.take_of_length_le hn, eventsOf_append, ← eA, ← eB, eventsOf_flatten, eventsOf_flatten]
    intro b
    constructor
    · rintro ⟨x, hx, rfl⟩
      rcases List.mem_append.1 hx with hx | hx
      · exact ⟨x, List.mem_append_right _ hx, rfl⟩
      · obtain ⟨y, hy, e, -⟩ := (g3 x.body).1 ⟨x, hx, rfl⟩
        exact ⟨y, List.mem_append_left _ hy, e⟩
    · rintro ⟨x, hx, rfl⟩
      rcases List.mem_append.1 hx with hx | hx
      · by_cases hk : Known B x.id
        · obtain ⟨y, hy, e⟩ := Lineage.known_iff.1 hk
          exact ⟨y, List.mem_append_left _ hy, (co x hx y hy e.symm).symm⟩
        · obtain ⟨y, hy, e⟩ := (g3 x.body).2 ⟨x, hx, rfl, hk⟩
          exact ⟨y, List.mem_append_right _ hy, e⟩
      · exact ⟨x, List.mem_append_left _ hx, rfl⟩

/-- New events are made. -/
theorem write_orderly {v : Rdt.View} {S : Nat → MemStore} {F : Nat → Accepted} (h : Orderly S F) {k : Nat} {env : Env}
    (hv : env.mg = Rdt.mergeCursors v) {now now' : Word} {o : AOp} {os : List AOp} {st : Status} {s' : MemStore}
    (P : Proper o os) (hhome : ∀ m, ∀ x ∈ (F m).flatten, x.id.origin = o.id.origin → ∃ y ∈ (F k).flatten, y.id = x.id)
    (e : receive env (S k) Uuid.NIL now ⟨o :: os, Status.ENDOFFRAME, true⟩ = some (st, s', now')) (hok : st.ok = true) :
    Orderly (changed S k s') (changed F k (F k ++ [o :: os])) := by
  obtain ⟨H, note, eH, L, K⟩ := h.history k
  obtain ⟨st', s'', n'', e', h1, -, h3⟩ := C101_accepts v H note (S k) L K env hv Uuid.NIL now o os P (Or.inl rfl)
  rw [e] at e'
  cases e'
  obtain ⟨c, g1, g2, g3, -⟩ := h1.1 hok
  obtain ⟨⟨note', K'⟩, L', -⟩ := h3 c g1 g2 g3 hok
  have eops : c.ops = o :: os := by
    show c.head :: c.rest = _
    rw [g1, g2]
  have hnew : ∀ m, ∀ y ∈ (F m).flatten, ∀ x ∈ o :: os, x.id.origin = y.id.origin →
      (∃ z ∈ (F k).flatten, z.id = y.id) ∧ Uuid.lt y.id x.id = true := by
    intro m y hy x hx ho
    have hxo := P.mem hx
    obtain ⟨z, hz, hzi⟩ := hhome m y hy (by rw [← ho]; exact hxo.1)
    have hk : Known H y.id := by
      rw [Lineage.known_iff, ← eventsOf_flatten, eH]
      exact ⟨z, hz, hzi⟩
    refine ⟨⟨z, hz, hzi⟩, ?_⟩
    have hyo : y.id.origin = c.head.id.origin := by rw [g1, ← ho]; exact hxo.1
    rcases g3.yarn with ⟨-, g⟩ | ⟨-, -, g⟩
    · exact absurd hyo (g _ hk)
    · have h5 := (Uuid.lt_same hyo).1 (g _ hk hyo)
      rw [g1] at h5
      exact (Uuid.lt_same ho.symm).2 (by omega)
  have hflat : (F k ++ [o :: os]).flatten = (F k).flatten ++ (o :: os) := by simp
  refine orderly_change h ⟨H ++ [c], note', ?_, L', K'⟩ ?_ ?_
  · rw [List.map_append, eH, List.map_cons, List.map_nil, eops]
  · intro m _
    rw [hflat]
    intro x hx y hy ho
    rcases List.mem_append.1 hx with hx | hx
    · obtain ⟨p1, p2⟩ := h.aligned k m x hx y hy ho
      refine ⟨p1, fun hlt => ?_⟩
      obtain ⟨z, hz, hzi⟩ := p2 hlt
      exact ⟨z, List.mem_append_left _ hz, hzi⟩
    · obtain ⟨⟨z, hz, hzi⟩, hlt⟩ := hnew m y hy x hx ho
      refine ⟨fun hlt' => ?_, fun _ => ⟨z, List.mem_append_left _ hz, hzi⟩⟩
      have := (Uuid.lt_same ho).1 hlt'
      have := (Uuid.lt_same ho.symm).1 hlt
      omega
  · intro m _
    rw [hflat]
    intro x hx y hy he
    rcases List.mem_append.1 hx with hx | hx
    · exact h.concordant k m x hx y hy he
    · obtain ⟨-, hlt⟩ := hnew m y hy x hx (by rw [he])
      rw [he] at hlt
      have := (Uuid.lt_same rfl).1 hlt
      omega

/-! ## C105 — replicas that send each other what the other lacks never refuse anything, and end up the same -/

/-- At all times the replicas are histories, aligned and concordant. -/
theorem C105_orderly (v : Rdt.View) (S : Nat → MemStore) (F : Nat → Accepted) (h : Network v S F) : Orderly S F := by
  induction h with
  | new =>
    refine ⟨fun _ => ⟨[], _, rfl, Lineage.nil, newStore_holds⟩, fun _ _ => aligned_self _, fun _ _ => ?_⟩
    intro x hx
    cases hx
  | write _ hv P hh e hok ih => exact write_orderly ih hv P hh e hok
  | @send S F k m n env now st s' _ hv e hok ih =>
    obtain ⟨st', s'', e', -, h, -⟩ := send_orderly ih k m n hv now
    rw [e] at e'
    cases e'
    exact h
  | @refuse S F k env tip now now' o os st s' _ hv P ht e hok ih =>
    obtain ⟨H, note, eH, L, K⟩ := ih.history k
    obtain ⟨st', s'', n'', e', -, h2, -⟩ := C101_accepts _ H note (S k) L K env hv tip now o os P (by
      rcases ht with h | h
      · exact Or.inl h
      · exact Or.inr (Lineage.known_iff.2 (by rw [← eventsOf_flatten, eH]; exact h)))
    rw [e] at e'
    cases e'
    have : changed S k s' = S := by
      funext m
      unfold changed
      by_cases hm : m = k
      · rw [if_pos hm, h2 hok, hm]
      · rw [if_neg hm]
    rw [this]
    exact ih

/-- Whatever any replica lacks of what another one has, it accepts: all of it or the first chains of it. -/
theorem C105_accepted (v : Rdt.View) (S : Nat → MemStore) (F : Nat → Accepted) (h : Network v S F) (k m n : Nat) (env : Env)
    (hv : env.mg = Rdt.mergeCursors v) (now : Word) : ∃ st s',
    sendEach env (S m) Uuid.NIL now ((missing (F m).flatten (F k)).take n) = some (st, s') ∧ st.ok = true := by
  obtain ⟨st, s', e, hok, -⟩ := send_orderly (C105_orderly v S F h) k m n hv now
  exact ⟨st, s', e, hok⟩

/-- When all of it came through, it has its events and those of the other. -/
theorem C105_union (v : Rdt.View) (S : Nat → MemStore) (F : Nat → Accepted) (h : Network v S F) (k m : Nat) (env : Env)
    (hv : env.mg = Rdt.mergeCursors v) (now : Word) : ∃ s' f, Network v (changed S m s') (changed F m f) ∧
    SameEvents f.flatten ((F k).flatten ++ (F m).flatten) := by
  obtain ⟨st, s', e, hok, -, hu⟩ := send_orderly (C105_orderly v S F h) k m (missing (F m).flatten (F k)).length hv now
  exact ⟨s', _, Network.send h hv e hok, hu (Nat.le_refl _)⟩

/-- Replicas with the same events read the same registers, sets and yarns. -/
theorem C105_read (v : Rdt.View) (S : Nat → MemStore) (F : Nat → Accepted) (h : Network v S F) (k m : Nat)
    (hs : SameEvents (F k).flatten (F m).flatten) (o : AOp) (ho : o ∈ (F k).flatten) (hf : IdForm (uuid2form o.ref))
    (hn : o.ref.version = Uuid.vNAME) :
    ∃ out out', Engine.read (Rdt.mergeCursors v) (S k) (Key.ofUuids o.id o.ref) = some (Status.OK, out) ∧
      Engine.read (Rdt.mergeCursors v) (S m) (Key.ofUuids o.id o.ref) = some (Status.OK, out') ∧
      out.map AOp.body = out'.map AOp.body ∧ ∃ x ∈ out, x.body = o.body := by
  have O := C105_orderly v S F h
  obtain ⟨H, note, eH, L, K⟩ := O.history k
  obtain ⟨G, note', eG, L', K'⟩ := O.history m
  rw [← eH, ← eG, eventsOf_flatten, eventsOf_flatten] at hs
  rw [← eH, eventsOf_flatten] at ho
  obtain ⟨c, hc, hx⟩ := Lineage.mem_events.1 ho
  rcases L.cause c hc o hx with ⟨-, h1, h2⟩ | ⟨h1, -⟩
  · rw [← h2] at hf
    rw [← h1, ← h2]
    obtain ⟨out, out', e1, e2, e3⟩ := C102_read v v H G note note' _ _ L K L' K' hs c hc hf
    refine ⟨out, out', e1, e2, e3, ?_⟩
    obtain ⟨out2, e4, -, e5⟩ := C102_object v H note _ L K c hc hf
    rw [e1] at e4
    cases e4
    exact (e5 o.body).2 ⟨o, Lineage.mem_in.2 ⟨c, hc, rfl, hx⟩, rfl⟩
  · rw [hn] at h1
    exact absurd h1 (by decide)

/-- All the first `n` replicas can be brought to the same events: the union of what they have. -/
theorem C105_converge (v : Rdt.View) (n : Nat) (S : Nat → MemStore) (F : Nat → Accepted) (h : Network v S F) (env : Env)
    (hv : env.mg = Rdt.mergeCursors v) (now : Word) : ∃ S' F', Network v S' F' ∧
    ∀ k < n, ∀ b, (∃ x ∈ (F' k).flatten, x.body = b) ↔ ∃ m < n, ∃ x ∈ (F m).flatten, x.body = b := by
  have other : ∀ {α : Type} (f : Nat → α) (k m : Nat) (x : α), m ≠ k → changed f k x m = f m := fun _ _ _ _ h => if_neg h
  have same : ∀ {α : Type} (f : Nat → α) (k : Nat) (x : α), changed f k x k = x := fun _ _ _ => if_pos rfl
  have gather : ∀ i, ∃ S' F', Network v S' F' ∧ (∀ m, m ≠ 0 → F' m = F m) ∧
      ∀ b, (∃ x ∈ (F' 0).flatten, x.body = b) ↔ ∃ m < i + 1, ∃ x ∈ (F m).flatten, x.body = b := by
    intro i
    induction i with
    | zero =>
      refine ⟨S, F, h, fun _ _ => rfl, fun b => ⟨fun h => ⟨0, by omega, h⟩, ?_⟩⟩
      rintro ⟨m, hm, h⟩
      have : m = 0 := by omega
      rw [this] at h
      exact h
    | succ i ih =>
      obtain ⟨S', F', h1, h2, h3⟩ := ih
      obtain ⟨s', f, g1, g2⟩ := C105_union v S' F' h1 (i + 1) 0 env hv now
      refine ⟨_, _, g1, fun m hm => ?_, fun b => ?_⟩
      · rw [other _ _ _ _ hm, h2 m hm]
      · rw [same, g2 b, h2 (i + 1) (by omega)]
        constructor
        · rintro ⟨x, hx, hb⟩
          rcases List.mem_append.1 hx with hx | hx
          · exact ⟨i + 1, by omega, x, hx, hb⟩
          · obtain ⟨m, hm, h⟩ := (h3 b).1 ⟨x, hx, hb⟩
            exact ⟨m, by omega, h⟩
        · rintro ⟨m, hm, x, hx, hb⟩
          by_cases hmi : m = i + 1
          · rw [hmi] at hx
            exact ⟨x, List.mem_append_left _ hx, hb⟩
          · obtain ⟨y, hy, hyb⟩ := (h3 b).2 ⟨m, by omega, x, hx, hb⟩
            exact ⟨y, List.mem_append_right _ hy, hyb⟩
  match n with
  | 0 => exact ⟨S, F, h, fun k hk => absurd hk (Nat.not_lt_zero _)⟩
  | n + 1 =>
  obtain ⟨S1, F1, h1, h2, h3⟩ := gather n
  have spread : ∀ i, i ≤ n → ∃ S' F', Network v S' F' ∧ (∀ m, i < m → F' m = F m) ∧
      ∀ k ≤ i, ∀ b, (∃ x ∈ (F' k).flatten, x.body = b) ↔ ∃ m < n + 1, ∃ x ∈ (F m).flatten, x.body = b := by
    intro i
    induction i with
    | zero =>
      intro _
      refine ⟨S1, F1, h1, fun m hm => h2 m (by omega), fun k hk => ?_⟩
      have : k = 0 := by omega
      rw [this]
      exact h3
    | succ i ih =>
      intro hi
      obtain ⟨S', F', k1, k2, k3⟩ := ih (by omega)
      obtain ⟨s', f, g1, g2⟩ := C105_union v S' F' k1 0 (i + 1) env hv now
      refine ⟨_, _, g1, fun m hm => ?_, fun k hk b => ?_⟩
      · rw [other _ _ _ _ (by omega), k2 m (by omega)]
      · by_cases hki : k = i + 1
        · rw [hki, same, g2 b, k2 (i + 1) (by omega)]
          constructor
          · rintro ⟨x, hx, hb⟩
            rcases List.mem_append.1 hx with hx | hx
            · exact (k3 0 (by omega) b).1 ⟨x, hx, hb⟩
            · exact ⟨i + 1, by omega, x, hx, hb⟩
          · intro hm
            obtain ⟨x, hx, hb⟩ := (k3 0 (by omega) b).2 hm
            exact ⟨x, List.mem_append_left _ hx, hb⟩
        · rw [other _ _ _ _ hki]
          exact k3 k (by omega) b
  obtain ⟨S', F', k1, -, k3⟩ := spread n (Nat.le_refl _)
  exact ⟨S', F', k1, fun k hk => k3 k (by omega)⟩

theorem net_write {S : Nat → MemStore} {F : Nat → Accepted} (h : Network tView S F) (k : Nat) {o : AOp} {os : List AOp}
    (P : Proper o os)
    (hh : ∀ m, ∀ x ∈ (F m).flatten, x.id.origin = o.id.origin → ∃ y ∈ (F k).flatten, y.id = x.id)
    (hs : (rcv (S k) Uuid.NIL (o :: os)).isSome = true) (hok : (statusOf (rcv (S k) Uuid.NIL (o :: os))).ok = true) :
    Network tView (changed S k (after (rcv (S k) Uuid.NIL (o :: os)))) (changed F k (F k ++ [o :: os])) := by
  obtain ⟨st, now, e⟩ := rcv_some hs
  have : statusOf (rcv (S k) Uuid.NIL (o :: os)) = st := by unfold statusOf; rw [e]; rfl
  rw [this] at hok
  exact Network.write h rfl P hh e hok

/-- Two replicas begin a yarn each; the first one makes a register, which the second one lacks. -/
example : ∃ S F, Network tView S F ∧ F 0 = [fed1, reg104] ∧ F 1 = [[op2 (evB 10) (formUuid Form.YARN)]] ∧
    opsOf (missing (F 1).flatten (F 0)) = [sent (op2 (evA 10) (formUuid Form.YARN)), sent (op2 (evA 11) (formUuid Form.LWW))] := by
  have w0 := net_write .new 0 fed_proper.1 (by intro m x hx; cases hx) (by decide +kernel) (by decide +kernel)
  have w1 := net_write w0 1 proper_cut.2.2 (by
    intro m x hx ho
    unfold changed at hx
    split at hx
    · have e : x = op2 (evA 10) (formUuid Form.YARN) := by simpa using hx
      rw [e] at ho
      exact absurd ho (by decide +kernel)
    · cases hx) (by decide +kernel) (by decide +kernel)
  have w2 := net_write w1 0 proper104.2 (by
    intro m x hx ho
    unfold changed at hx
    split at hx
    · have e : x = op2 (evB 10) (formUuid Form.YARN) := by simpa [changed] using hx
      rw [e] at ho
      exact absurd ho (by decide +kernel)
    · split at hx
      · exact ⟨x, by simpa [changed] using hx, rfl⟩
      · cases hx) (by decide +kernel) (by decide +kernel)
  exact ⟨_, _, w2, rfl, rfl, by decide +kernel⟩

end Ron.Props
