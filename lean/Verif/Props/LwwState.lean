import Verif.Props.LwwText
import Verif.Props.TextQueryLog
import Verif.Spec.Lww
/-!
C120: the strings of a register that is read from a store of texts.
-/
namespace Ron.Props
open Ron Spec Commit TextReplica TextParser

/-- C120: a register is read from a store of texts, and an object is made of it. The string of a key is the one the last
event of the register for this key writes, whatever the frames were and the order they came in. -/
def C120_claim : Prop := ∀ (R : Reading) (mx : MaxReducer) (H : List Chain) (note : Uuid → List Nat) (A : List Entry)
  (c : Chain), Lineage H → TellsAs true R H note A → Short mx (A.map Entry.bytes) → c ∈ H → uuid2form c.rdt = Form.LWW →
  ∃ state, ReadsText mx A (Key.ofUuids c.object c.rdt) state ∧
    ∀ k x, LastWrite (eventsIn H c.object) k (.str x) → ∃ t, R.text t = x ∧ SaysString state [] k t

/-! ### Lemmas -/

theorem writes_body {o p : AOp} {k : Uuid} {v : AVal} (e : o.body = p.body) (h : Writes o k v) : Writes p k v := by
  obtain ⟨more, h⟩ := h
  have : o.vals = p.vals := congrArg (fun b => b.2.2) e
  exact ⟨more, by rw [← this]; exact h⟩

theorem lastWrite_same {a b : List AOp} (h : SameEvents a b) {k : Uuid} {v : AVal} (hl : LastWrite a k v) :
    LastWrite b k v := by
  obtain ⟨o, ho, hw, hm⟩ := hl
  obtain ⟨o', ho', e⟩ := (h o.body).1 ⟨o, ho, rfl⟩
  refine ⟨o', ho', writes_body e.symm hw, fun p hp w hpw => ?_⟩
  obtain ⟨p', hp', e'⟩ := (h p.body).2 ⟨p, hp, rfl⟩
  have := hm p' hp' w (writes_body e'.symm hpw)
  rw [show o'.id = o.id from congrArg Prod.fst e, show p.id = p'.id from (congrArg Prod.fst e').symm]
  exact this

theorem val_uuid {R : Reading} {v : View} {u : Uuid} (h : R.val v = .uuid u) : v = .uuid u := by
  cases v <;> cases h
  rfl

theorem val_str {R : Reading} {v : View} {x : List Nat} (h : R.val v = .str x) : ∃ t, v = .text t ∧ R.text t = x := by
  cases v <;> cases h
  exact ⟨_, rfl, rfl⟩

/-- In a sorted frame the last write is the last op that writes. -/
theorem lastView_of {R : Reading} {ops : List OpView} {k : Uuid} {x : List Nat} (hs : IdSorted (ops.map R.op))
    (h : LastWrite (ops.map R.op) k (.str x)) : ∃ t, R.text t = x ∧ LastView ops k (.text t) := by
  obtain ⟨o', ho', ⟨more, hw⟩, hm⟩ := h
  obtain ⟨o, ho, rfl⟩ := List.mem_map.1 ho'
  have hw : o.vals.map R.val = .uuid k :: .str x :: more := hw
  cases hv : o.vals with
  | nil => rw [hv] at hw; cases hw
  | cons v vs =>
    rw [hv] at hw
    obtain ⟨e1, e2⟩ := List.cons.inj hw
    cases vs with
    | nil => cases e2
    | cons w vs =>
      obtain ⟨e2, e3⟩ := List.cons.inj e2
      obtain rfl := val_uuid e1
      obtain ⟨t, rfl, ht⟩ := val_str e2
      obtain ⟨a, b, rfl⟩ := List.append_of_mem ho
      refine ⟨t, ht, a, o, b, rfl, ⟨vs, hv⟩, fun p hp w hpw => ?_⟩
      rw [List.map_append, List.map_cons] at hs
      have h1 := (List.pairwise_cons.1 (List.pairwise_append.1 hs).2.1).1 (R.op p) (List.mem_map_of_mem hp)
      obtain ⟨m, hpv⟩ := hpw
      have h2 := hm (R.op p) (List.mem_map_of_mem (List.mem_append_right _ (List.mem_cons_of_mem _ hp))) (R.val w)
        ⟨m.map R.val, show p.vals.map R.val = _ by rw [hpv]; rfl⟩
      rw [h1] at h2
      cases h2

/-- C120: it is so if the state can be written (`Written`, see `C113`). -/
theorem C120_partial (R : Reading) (mx : MaxReducer) (H : List Chain) (note : Uuid → List Nat) (A : List Entry) (c : Chain)
    (L : Lineage H) (hT : TellsAs true R H note A) (hs : Short mx (A.map Entry.bytes)) (hc : c ∈ H)
    (hf : uuid2form c.rdt = Form.LWW) (hw : Written A c) :
    ∃ state, ReadsText mx A (Key.ofUuids c.object c.rdt) state ∧
      ∀ k x, LastWrite (eventsIn H c.object) k (.str x) → ∃ t, R.text t = x ∧ SaysString state [] k t := by
  obtain ⟨state, l, h1, h2, -, -, h3⟩ := object_state L hT hs hc (.inl (.inl hf)) hw
  obtain ⟨g1, g2⟩ := h3.2 (by rw [hf]; decide)
  refine ⟨state, h1, fun k x hx => ?_⟩
  obtain ⟨t, ht, hv⟩ := lastView_of g1 (lastWrite_same (fun b => (g2 b).symm) hx)
  exact ⟨t, ht, C119_partial state [] _ [] k t (C20_frames_partial state h2.size _ h2.text).1 .nil hv (fun _ h => nomatch h)⟩

/-- C120: two stores of texts that have the same events give objects with the same strings. -/
theorem C120_same_partial (R R' : Reading) (mx mx' : MaxReducer) (H G : List Chain) (note note' : Uuid → List Nat)
    (A B : List Entry) (c d : Chain) (L : Lineage H) (hT : TellsAs true R H note A) (L' : Lineage G)
    (hT' : TellsAs true R' G note' B) (h : SameEvents (eventsOf H) (eventsOf G)) (hs : Short mx (A.map Entry.bytes))
    (hs' : Short mx' (B.map Entry.bytes)) (hc : c ∈ H) (hd : d ∈ G) (e : (c.object, c.rdt) = (d.object, d.rdt))
    (hf : uuid2form c.rdt = Form.LWW) (hw : Written A c) (hw' : Written B d) :
    ∃ state state', ReadsText mx A (Key.ofUuids c.object c.rdt) state ∧ ReadsText mx' B (Key.ofUuids c.object c.rdt) state' ∧
      ∀ k x, LastWrite (eventsIn H c.object) k (.str x) →
        ∃ t t', SaysString state [] k t ∧ SaysString state' [] k t' ∧ R.text t = R'.text t' := by
  injection e with e1 e2
  obtain ⟨s, h1, h2⟩ := C120_partial R mx H note A c L hT hs hc hf hw
  obtain ⟨s', g1, g2⟩ := C120_partial R' mx' G note' B d L' hT' hs' hd (by rw [← e2]; exact hf) hw'
  refine ⟨s, s', h1, by rw [e1, e2]; exact g1, fun k x hx => ?_⟩
  obtain ⟨t, k1, k2⟩ := h2 k x hx
  obtain ⟨t', j1, j2⟩ := g2 k x (by rw [← e1]; exact lastWrite_same (L.objects_same L' h c.object) hx)
  exact ⟨t, t', k2, j2, by rw [k1, j1]⟩

/-! ### Concrete stores -/

theorem wrote_lit {l : List (AOp × List AOp)} {H : List Chain} (L : Lineage H)
    (e : H.map Chain.ops = l.map fun c => c.1 :: c.2) {y : AOp × List AOp} (hy : y ∈ l) (ht : y.1.ref.version = Uuid.vTIME)
    {c : Chain} (hc : c ∈ H) (hr : c.Has y.1.ref) : ∀ x ∈ y.1 :: y.2, x ∈ eventsIn H c.object := by
  have : y.1 :: y.2 ∈ H.map Chain.ops := by rw [e]; exact List.mem_map_of_mem hy
  obtain ⟨d, hd, hde⟩ := List.mem_map.1 this
  intro x hx
  rcases L.cause d hd y.1 (by rw [hde]; exact List.mem_cons_self) with ⟨h, -⟩ | ⟨-, -, f, hf, h1, h2, -⟩
  · rw [ht] at h
    exact absurd h (by decide)
  · have := (Lineage.agree L L (fun _ => Iff.rfl) _ y.1.ref (Nat.lt_succ_self _) f hf c hc h1 hr).1
    exact List.mem_flatMap.2 ⟨d, List.mem_filter.2 ⟨hd, decide_eq_true (h2.trans this)⟩, by rw [hde]; exact hx⟩

theorem last_lit {l : List (AOp × List AOp)} {H : List Chain} (e : H.map Chain.ops = l.map fun c => c.1 :: c.2)
    {obj k : Uuid} {v : AVal} {x : AOp} (hx : x ∈ eventsIn H obj) (hw : Writes x k v)
    (hm : ∀ p ∈ (l.map fun c => c.1 :: c.2).flatten, Uuid.lt x.id p.id = false) : LastWrite (eventsIn H obj) k v := by
  refine ⟨x, hx, hw, fun p hp _ _ => hm p ?_⟩
  rw [← events_lit e]
  exact (filter_events _ _).subset hp

/-- A key of a register is written twice, the second op has the next id and refers to the first op of the register. -/
def bad120 : List (AOp × List AOp) :=
  [(op2 (tA 1) (formUuid Form.YARN), []), (op2 (tA 2) (formUuid Form.LWW), []),
   (op2 (tA 3) (tA 2) [.uuid (formUuid Form.RGA), .str [97, 98]], []),
   (op2 (tA 4) (tA 2) [.uuid (formUuid Form.RGA), .str [99, 100]], [])]

theorem saysString_unique {state : List Byte} {ts : List (List Byte)} {k : Uuid} {a b : List Byte} (h : SaysString state ts k a)
    (h' : SaysString state ts k b) : a = b := by
  obtain ⟨N, h⟩ := h
  obtain ⟨N', h'⟩ := h'
  have := h (N + N') (by omega)
  rw [h' _ (by omega)] at this
  cases this
  rfl

theorem saysString_of {state : List Byte} {k : Uuid} {a : List Byte} (n : Nat)
    (h : LwwText.stringOf n state [] k = .ok (some a)) : SaysString state [] k a := by
  refine ⟨n, fun m hm => ?_⟩
  unfold LwwText.stringOf LwwText.updateFrames LwwText.updateFrame at h ⊢
  cases hi : Cursor.iterate n (Cursor.init state) with
  | ok x =>
    cases x with
    | none => rw [hi] at h; cases h
    | some x =>
      rw [iterate_more hi m hm, ← hi]
      exact h
  | abort => rw [hi] at h; cases h
  | ub => rw [hi] at h; cases h

/-- The state that is read, if its string is this one. -/
def says120 (l : List (AOp × List AOp)) (t : List Byte) : Option (List Byte) :=
  match TextReplica.read noMax 20 ((texts (fold111 newStore Uuid.NIL l)).map Entry.bytes)
    (Key.ofUuids (tA 2) (formUuid Form.LWW)) with
  | .ok (some (st, x)) =>
    if st = Status.OK ∧ LwwText.stringOf 20 x [] (formUuid Form.RGA) = .ok (some t) then some x else none
  | _ => none

theorem says120_reads {l : List (AOp × List AOp)} {t : List Byte} (h : (says120 l t).isSome = true) :
    ∃ x, ReadsText noMax (texts (fold111 newStore Uuid.NIL l)) (Key.ofUuids (tA 2) (formUuid Form.LWW)) x ∧
      SaysString x [] (formUuid Form.RGA) t := by
  unfold says120 at h
  split at h
  · rename_i st x hx
    split at h
    · rename_i hs
      exact ⟨x, readsText_of 20 (by rw [hx, hs.1]), saysString_of 20 hs.2⟩
    · cases h
  · cases h

/-- C120 is violated: the op that is written last is not read (see `C113_violated`), and the string is the old one. -/
theorem C120_violated : ¬ C120_claim := by
  intro hc
  obtain ⟨H, note, L, hT, e⟩ := tellsAs_lit bad120 (by
    refine fed111_proper fun x hx => ?_
    simp only [bad120, List.mem_cons, List.not_mem_nil, or_false] at hx
    unfold Stamp
    rcases hx with rfl | rfl | rfl | rfl <;> unfold ChainedTo <;> unfold op2 <;> decide +kernel)
    (by decide +kernel) (by decide +kernel)
  obtain ⟨c, h1, h2, h3, h4⟩ := made_has L e (x := bad120[1]) (by decide +kernel) (by decide +kernel)
  obtain ⟨state, g1, g2⟩ := hc ascii noMax H note _ c L hT (short_lit 20 (by decide +kernel)) h1 (by rw [h3]; decide +kernel)
  have hx := wrote_lit L e (y := bad120[3]) (by decide +kernel) (by decide +kernel) h1
    (h4 (op2 (tA 2) (formUuid Form.LWW)) (by decide +kernel)) _ List.mem_cons_self
  obtain ⟨t, k1, k2⟩ := g2 (formUuid Form.RGA) [99, 100] (last_lit e hx ⟨[], rfl⟩ (by decide +kernel))
  obtain ⟨x, j1, j2⟩ := says120_reads (l := bad120) (t := [97, 98]) (by decide +kernel)
  rw [h2, h3] at g1
  obtain rfl := readsText_unique g1 j1
  obtain rfl := saysString_unique k2 j2
  exact absurd k1 (by decide)

/-- The register in two chains; the second write follows the first. -/
def good120 : List (AOp × List AOp) :=
  [(op2 (tA 1) (formUuid Form.YARN), []),
   (op2 (tA 2) (formUuid Form.LWW), [op2 (tA 3) (tA 2) [.uuid (formUuid Form.RGA), .str [97, 98]]]),
   (op2 (tA 8) (tA 3) [.uuid (formUuid Form.RGA), .str [99, 100]], [])]

/-- The same events in other chains. -/
def good120' : List (AOp × List AOp) :=
  [(op2 (tA 1) (formUuid Form.YARN), []), (op2 (tA 2) (formUuid Form.LWW), []),
   (op2 (tA 3) (tA 2) [.uuid (formUuid Form.RGA), .str [97, 98]],
    [op2 (tA 8) (tA 3) [.uuid (formUuid Form.RGA), .str [99, 100]]])]

/-- Two stores that have the register; in both the string is the one that was written last. -/
example : ∃ H G note note' c d, Lineage H ∧ TellsAs true ascii H note (texts (fold111 newStore Uuid.NIL good120)) ∧
    Lineage G ∧ TellsAs true ascii G note' (texts (fold111 newStore Uuid.NIL good120')) ∧
    SameEvents (eventsOf H) (eventsOf G) ∧ Short noMax ((texts (fold111 newStore Uuid.NIL good120)).map Entry.bytes) ∧
    Short noMax ((texts (fold111 newStore Uuid.NIL good120')).map Entry.bytes) ∧ c ∈ H ∧ d ∈ G ∧
    (c.object, c.rdt) = (d.object, d.rdt) ∧ uuid2form c.rdt = Form.LWW ∧
    Written (texts (fold111 newStore Uuid.NIL good120)) c ∧ Written (texts (fold111 newStore Uuid.NIL good120')) d ∧
    LastWrite (eventsIn H c.object) (formUuid Form.RGA) (.str [99, 100]) ∧
    (says120 good120 [99, 100]).isSome = true ∧ (says120 good120' [99, 100]).isSome = true := by
  obtain ⟨H, note, L, hT, e⟩ := tellsAs_lit good120 (by
    refine fed111_proper fun x hx => ?_
    simp only [good120, List.mem_cons, List.not_mem_nil, or_false] at hx
    unfold Stamp
    rcases hx with rfl | rfl | rfl <;> (try unfold ChainedTo) <;> (try unfold ChainedTo) <;> unfold op2 <;> decide +kernel)
    (by decide +kernel) (by decide +kernel)
  obtain ⟨G, note', L', hT', e'⟩ := tellsAs_lit good120' (by
    refine fed111_proper fun x hx => ?_
    simp only [good120', List.mem_cons, List.not_mem_nil, or_false] at hx
    unfold Stamp
    rcases hx with rfl | rfl | rfl <;> (try unfold ChainedTo) <;> (try unfold ChainedTo) <;> unfold op2 <;> decide +kernel)
    (by decide +kernel) (by decide +kernel)
  obtain ⟨c, h1, h2, h3, h4⟩ := made_has L e (x := good120[1]) (by decide +kernel) (by decide +kernel)
  obtain ⟨d, g1, g2, g3, g4⟩ := made_has L' e' (x := good120'[1]) (by decide +kernel) (by decide +kernel)
  have hx := wrote_lit L e (y := good120[2]) (by decide +kernel) (by decide +kernel) h1
    (h4 (op2 (tA 3) (tA 2) [.uuid (formUuid Form.RGA), .str [97, 98]]) (by decide +kernel)) _ List.mem_cons_self
  refine ⟨H, G, note, note', c, d, L, hT, L', hT', same_of_bodies ?_, short_lit 20 (by decide +kernel),
    short_lit 20 (by decide +kernel), h1, g1, by rw [h2, h3, g2, g3]; rfl, by rw [h3]; decide +kernel,
    .inl ⟨by rw [h3]; unfold IdForm; decide +kernel, by rw [h2, h3]; exact ⟨by decide +kernel, by decide +kernel, by decide +kernel⟩⟩,
    .inl ⟨by rw [g3]; unfold IdForm; decide +kernel, by rw [g2, g3]; exact ⟨by decide +kernel, by decide +kernel, by decide +kernel⟩⟩,
    last_lit e hx ⟨[], rfl⟩ (by decide +kernel), by decide +kernel, by decide +kernel⟩
  rw [events_lit e, events_lit e']
  decide +kernel

end Ron.Props
