import Verif.Props.LineageSame
/-!
C103: a frame of many chains is worth its chains sent one after another.

`Fed` and `Proper` are from C101. The chains of a frame are given by `l`, each with its first event and the others;
`opsOf l` is the frame. `Parted` says that these are the chains the frame is made of: none goes on from the end of the chain
before it.
-/
namespace Ron.Props
open Ron Ron.Spec Ron.Commit

/-- The chains are sent one by one, each in a frame of its own, until one is refused; the branch, if there is one, goes on
to the end of each. -/
def sendEach (env : Env) : MemStore → Uuid → Word → List (AOp × List AOp) → Option (Status × MemStore)
  | s, _, _, [] => some (Status.OK, s)
  | s, tip, now, p :: l =>
    (receive env s tip now ⟨p.1 :: p.2, Status.ENDOFFRAME, true⟩).bind fun r =>
      if r.1.ok then sendEach env r.2.1 (if tip = Uuid.NIL then Uuid.NIL else lastOf p.1.id p.2) r.2.2 l
      else some (r.1, r.2.1)

/-! ## C103 — a frame of many chains is worth its chains sent one after another -/

/-- If the chains are accepted one by one, they are accepted in a frame. -/
def C103_claim : Prop :=
  ∀ (v : Rdt.View) (s : MemStore) (acc : List (List AOp)) (env : Env) (tip : Uuid) (now : Word)
    (l : List (AOp × List AOp)) (st st' : Status) (s' s'' : MemStore) (n : Word), Fed v s acc →
    env.mg = Rdt.mergeCursors v → l ≠ [] → (∀ p ∈ l, Proper p.1 p.2) → Parted l →
    (tip = Uuid.NIL ∨ ∃ f ∈ acc, ∃ x ∈ f, x.id = tip) →
    receive env s tip now ⟨opsOf l, Status.ENDOFFRAME, true⟩ = some (st, s', n) →
    sendEach env s tip now l = some (st', s'') → st'.ok = true → st.ok = true

/-- If they are accepted in a frame, they are accepted one by one. -/
def C103_back_claim : Prop :=
  ∀ (v : Rdt.View) (s : MemStore) (acc : List (List AOp)) (env : Env) (tip : Uuid) (now : Word)
    (l : List (AOp × List AOp)) (st st' : Status) (s' s'' : MemStore) (n : Word), Fed v s acc →
    env.mg = Rdt.mergeCursors v → l ≠ [] → (∀ p ∈ l, Proper p.1 p.2) → Parted l →
    (tip = Uuid.NIL ∨ ∃ f ∈ acc, ∃ x ∈ f, x.id = tip) →
    receive env s tip now ⟨opsOf l, Status.ENDOFFRAME, true⟩ = some (st, s', n) →
    sendEach env s tip now l = some (st', s'') → st.ok = true → st'.ok = true

/-! An array with one element; then a frame that adds one more at its beginning and creates a register. -/

def array103 : List AOp := [op2 (evA 11) (formUuid Form.RGA), op2 (evA 12) (evA 11) [.int 1]]
def st103 : MemStore := after (rcv st1 (evA 10) array103)
def chains103 : List (AOp × List AOp) := [(op2 (evA 14) (evA 11) [.int 2], []), (op2 (evA 16) (formUuid Form.LWW), [])]

theorem proper103 : Proper (op2 (evA 11) (formUuid Form.RGA)) [op2 (evA 12) (evA 11) [.int 1]] ∧
    Proper (op2 (evA 14) (evA 11) [.int 2]) [] ∧ Proper (op2 (evA 16) (formUuid Form.LWW)) [] := by
  refine ⟨⟨?_, ?_, ?_, ?_, ?_, ?_, ?_⟩, ⟨?_, ?_, ?_, ?_, ?_, ?_, ?_⟩, ⟨?_, ?_, ?_, ?_, ?_, ?_, ?_⟩⟩ <;>
    (try unfold Stamp) <;> (try unfold ChainedTo) <;> (try unfold ChainedTo) <;> decide +kernel

theorem fed103 : Fed tView st103 [[op2 (evA 10) (formUuid Form.YARN)], array103] := by
  have f1 := fed_run fed_st1 (tip := evA 10) proper103.1 (Or.inr ⟨_, List.mem_cons_self, _, List.mem_cons_self, rfl⟩)
    (by decide +kernel)
  rw [if_pos (by decide +kernel)] at f1
  exact f1

theorem each_isSome {r : Option (Status × MemStore)} (h : r.isSome = true) : ∃ st s, r = some (st, s) := by
  cases r with
  | none => cases h
  | some x => exact ⟨x.1, x.2, rfl⟩

/-- It fails: with the log of the array half in the store and half in the transaction, it is put together as an array, the
chain at the tip is not found any more, and the frame is refused with "not found". -/
theorem C103_violated : ¬ C103_claim := by
  intro h
  obtain ⟨st, n, e⟩ := rcv_some (s := st103) (tip := evA 12) (ops := opsOf chains103) (by decide +kernel)
  obtain ⟨st', s'', e'⟩ := each_isSome (r := sendEach tEnv st103 (evA 12) 0#64 chains103) (by decide +kernel)
  have k : (rcv st103 (evA 12) (opsOf chains103)).map (fun r => r.1.ok) = some false := by decide +kernel
  have k' : (sendEach tEnv st103 (evA 12) 0#64 chains103).map (fun r => r.1.ok) = some true := by decide +kernel
  rw [e] at k
  rw [e'] at k'
  simp only [Option.map_some, Option.some.injEq] at k k'
  have := h tView st103 _ tEnv (evA 12) 0#64 chains103 st st' _ s'' n fed103 rfl (by simp [chains103]) (by
      intro p hp
      simp only [chains103, List.mem_cons, List.not_mem_nil, or_false] at hp
      rcases hp with rfl | rfl
      · exact proper103.2.1
      · exact proper103.2.2)
    (by unfold chains103 Parted Parted; exact ⟨Or.inr (by decide +kernel), trivial⟩)
    (Or.inr ⟨array103, by simp, op2 (evA 12) (evA 11) [.int 1], by simp [array103], rfl⟩) e e' k'
  rw [k] at this
  cases this

/-! Two yarns; then a frame with a chain of each. -/

def st103b : MemStore := after (rcv st1 Uuid.NIL [op2 (evB 10) (formUuid Form.YARN)])
def chains103b : List (AOp × List AOp) := [(op2 (evB 12) (formUuid Form.LWW), []), (op2 (evA 16) (formUuid Form.LWW), [])]

theorem proper103b : Proper (op2 (evB 12) (formUuid Form.LWW)) [] := by
  refine ⟨?_, ?_, ?_, ?_, ?_, ?_, ?_⟩ <;>
    (try unfold Stamp) <;> (try unfold ChainedTo) <;> (try unfold ChainedTo) <;> decide +kernel

theorem fed103b : Fed tView st103b [[op2 (evA 10) (formUuid Form.YARN)], [op2 (evB 10) (formUuid Form.YARN)]] := by
  have f1 := fed_run fed_st1 (tip := Uuid.NIL) proper_cut.2.2 (Or.inl rfl) (by decide +kernel)
  rw [if_pos (by decide +kernel)] at f1
  exact f1

/-- It fails the other way, too: a chain of another yarn than the one of the branch is refused, but it gets in with a
chain of the branch after it. -/
theorem C103_back_violated : ¬ C103_back_claim := by
  intro h
  obtain ⟨st, n, e⟩ := rcv_some (s := st103b) (tip := evA 10) (ops := opsOf chains103b) (by decide +kernel)
  obtain ⟨st', s'', e'⟩ := each_isSome (r := sendEach tEnv st103b (evA 10) 0#64 chains103b) (by decide +kernel)
  have k : (rcv st103b (evA 10) (opsOf chains103b)).map (fun r => r.1.ok) = some true := by decide +kernel
  have k' : (sendEach tEnv st103b (evA 10) 0#64 chains103b).map (fun r => r.1.ok) = some false := by decide +kernel
  rw [e] at k
  rw [e'] at k'
  simp only [Option.map_some, Option.some.injEq] at k k'
  have := h tView st103b _ tEnv (evA 10) 0#64 chains103b st st' _ s'' n fed103b rfl (by simp [chains103b]) (by
      intro p hp
      simp only [chains103b, List.mem_cons, List.not_mem_nil, or_false] at hp
      rcases hp with rfl | rfl
      · exact proper103b
      · exact proper103.2.2)
    (by unfold chains103b Parted Parted; exact ⟨Or.inl (by decide +kernel), trivial⟩)
    (Or.inr ⟨_, List.mem_cons_self, _, List.mem_cons_self, rfl⟩) e e' k
  rw [k'] at this
  cases this

/-- Sent one by one, the chains are accepted if and only if each goes on from the history and the chains before it; the
store then holds the history with the chains. The chains are of the yarn of the branch, or there is no branch. -/
theorem C103_each {wh : Bool} (v : Rdt.View) (env : Env) (hv : env.mg = Rdt.mergeCursors v) (l : List (AOp × List AOp))
    (hP : ∀ p ∈ l, Proper p.1 p.2) : ∀ (H : List Chain) (note : Uuid → List Nat) (s : MemStore) (tip : Uuid) (now : Word),
    Lineage H → Carries wh H note s → (tip = Uuid.NIL ∨ Known H tip ∧ ∀ p ∈ l, p.1.id.origin = tip.origin) →
    ∃ st s', sendEach env s tip now l = some (st, s') ∧
      (st.ok = true ↔ ∃ G, G.map Chain.parts = l ∧ Lineage (H ++ G)) ∧
      ∀ G, G.map Chain.parts = l → Lineage (H ++ G) → ∃ note', Carries wh (H ++ G) note' s' := by
  induction l with
  | nil =>
    intro H note s tip now L K _
    refine ⟨Status.OK, s, rfl, ⟨fun _ => ⟨[], rfl, by rw [List.append_nil]; exact L⟩, fun _ => by decide⟩, ?_⟩
    intro G hG _
    rw [List.map_eq_nil_iff] at hG
    rw [hG, List.append_nil]
    exact ⟨note, K⟩
  | cons p l ih =>
    intro H note s tip now L K ht
    obtain ⟨st, s', n, e, h1, h2, h3⟩ := C101_accepts v H note s L K env hv tip now p.1 p.2 (hP p List.mem_cons_self)
      (ht.imp_right And.left)
    have hsplit : ∀ G, G.map Chain.parts = p :: l → Lineage (H ++ G) → ∃ d G', G = d :: G' ∧ d.head = p.1 ∧ d.rest = p.2 ∧
        G'.map Chain.parts = l ∧ Follows H d ∧ Lineage (H ++ [d] ++ G') := by
      intro G hG hL
      match G, hG with
      | d :: G', hG =>
        rw [List.map_cons] at hG
        obtain ⟨e1, e2⟩ := List.cons.inj hG
        have hL' : Lineage (H ++ [d] ++ G') := by simpa using hL
        exact ⟨d, G', rfl, congrArg Prod.fst e1, congrArg Prod.snd e1, e2, lineage_last hL'.front, hL'⟩
    unfold sendEach
    rw [e, Option.bind_some]
    simp only
    cases hok : st.ok with
    | false =>
      rw [if_neg (by decide)]
      have hno : ∀ G, G.map Chain.parts = p :: l → ¬ Lineage (H ++ G) := by
        intro G hG hL
        obtain ⟨d, G', -, g1, g2, -, g3, -⟩ := hsplit G hG hL
        have := h1.2 ⟨d, g1, g2, g3, ht.imp_right fun h => (h.2 p List.mem_cons_self).symm⟩
        rw [hok] at this
        cases this
      exact ⟨st, s', rfl, ⟨fun h => (by rw [hok] at h; cases h), fun ⟨G, g1, g2⟩ => absurd g2 (hno G g1)⟩,
        fun G g1 g2 => absurd g2 (hno G g1)⟩
    | true =>
      rw [if_pos rfl]
      obtain ⟨c, g1, g2, g3, -⟩ := h1.1 hok
      obtain ⟨⟨note', K'⟩, L', -⟩ := h3 c g1 g2 g3 hok
      obtain ⟨st', s'', e', k1, k2⟩ := ih (fun q hq => hP q (List.mem_cons_of_mem _ hq)) (H ++ [c]) note' s'
        (if tip = Uuid.NIL then Uuid.NIL else lastOf p.1.id p.2) n L' K' (by
          by_cases hn : tip = Uuid.NIL
          · rw [if_pos hn]; exact Or.inl rfl
          · rw [if_neg hn]
            obtain ⟨-, hk⟩ := ht.resolve_left hn
            refine Or.inr ⟨⟨c, by simp, ?_⟩, fun q hq => ?_⟩
            · rw [← g1, ← g2]; exact lastOf_mem c.head c.rest
            · rw [(chained_last p.2 p.1.id (hP p List.mem_cons_self).chained).1, hk q (List.mem_cons_of_mem _ hq),
                hk p List.mem_cons_self])
      have same : ∀ d : Chain, d.head = p.1 → d.rest = p.2 → Follows H d → d = c := by
        intro d q1 q2 q3
        have hu := L.follows_unique q3 g3 (q1.trans g1.symm)
        cases d; cases c
        simp only at q1 q2 g1 g2 hu
        rw [q1, q2, g1, g2, hu.1, hu.2]
      refine ⟨st', s'', e', ?_, ?_⟩
      · rw [k1]
        constructor
        · rintro ⟨G, q1, q2⟩
          refine ⟨c :: G, ?_, by simpa using q2⟩
          rw [List.map_cons, q1]
          unfold Chain.parts
          rw [g1, g2]
        · rintro ⟨G, q1, q2⟩
          obtain ⟨d, G', -, r1, r2, r3, r4, r5⟩ := hsplit G q1 q2
          have := same d r1 r2 r4
          subst this
          exact ⟨G', r3, r5⟩
      · intro G q1 q2
        obtain ⟨d, G', rfl, r1, r2, r3, r4, r5⟩ := hsplit G q1 q2
        have := same d r1 r2 r4
        subst this
        obtain ⟨n2, hn2⟩ := k2 G' r3 r5
        exact ⟨n2, by simpa using hn2⟩

/-- In a frame the chains are accepted under the same condition, the store then holds the history with the chains, and the
tip is the last event; otherwise the store is as it was. Missing for the full claim: chains of other yarns than the one of
the branch (`C103_back_violated`) and objects that are partly in the store and partly in the frame and can not be put
together (`C103_violated`): `Cleared` says that none of these is read on the way. -/
theorem C103_frame_partial {wh : Bool} (v : Rdt.View) (H : List Chain) (note : Uuid → List Nat) (s : MemStore) (L : Lineage H)
    (K : Carries wh H note s) (env : Env) (hv : env.mg = Rdt.mergeCursors v) (tip : Uuid) (now : Word)
    (l : List (AOp × List AOp)) (hl : l ≠ []) (hP : ∀ p ∈ l, Proper p.1 p.2) (hA : Parted l)
    (ht : tip = Uuid.NIL ∨ Known H tip ∧ ∀ p ∈ l, p.1.id.origin = tip.origin) (hC : Cleared H l) :
    ∃ st s' now', receive env s tip now ⟨opsOf l, Status.ENDOFFRAME, true⟩ = some (st, s', now') ∧
      (st.ok = true ↔ ∃ G, G.map Chain.parts = l ∧ Lineage (H ++ G)) ∧ (st.ok = false → s' = s) ∧
      ∀ G, G.map Chain.parts = l → Lineage (H ++ G) →
        (∃ note', Carries wh (H ++ G) note' s') ∧ tipOf s' = some (endOf l) := by
  obtain ⟨st, s', n, e, h⟩ := receive_frames (tip := tip) (now := now) L K hv hl hP hA ht hC
  refine ⟨st, s', n, e, ?_⟩
  rcases h with ⟨G, note', h1, h2, rfl, h3, h4⟩ | ⟨h1, h2, h3⟩
  · refine ⟨⟨fun _ => ⟨G, h1, h2⟩, fun _ => by decide⟩, fun h => absurd h (by decide), fun G' g1 g2 => ?_⟩
    have ops : ∀ J : List Chain, J.map Chain.ops = (J.map Chain.parts).map fun p => p.1 :: p.2 := by
      intro J
      rw [List.map_map]
      rfl
    have : H ++ G' = H ++ G := C101_determined _ _ g2 h2 (by
      rw [List.map_append, List.map_append, ops G', ops G, g1, h1])
    rw [this]
    exact ⟨⟨note', h3⟩, h4⟩
  · exact ⟨⟨fun h => (by rw [h1] at h; cases h), fun ⟨G, g1, g2⟩ => absurd g2 (h3 G g1)⟩, fun _ => h2,
      fun G g1 g2 => absurd g2 (h3 G g1)⟩

/-- A frame of chains is accepted if and only if the chains are accepted one by one, and then the stores hold the same
history. Missing: as in `C103_frame_partial`. -/
theorem C103_same_partial {wh : Bool} (v : Rdt.View) (H : List Chain) (note : Uuid → List Nat) (s : MemStore) (L : Lineage H)
    (K : Carries wh H note s) (env : Env) (hv : env.mg = Rdt.mergeCursors v) (tip : Uuid) (now : Word)
    (l : List (AOp × List AOp)) (hl : l ≠ []) (hP : ∀ p ∈ l, Proper p.1 p.2) (hA : Parted l)
    (ht : tip = Uuid.NIL ∨ Known H tip ∧ ∀ p ∈ l, p.1.id.origin = tip.origin) (hC : Cleared H l) :
    ∃ st st' s' s'' now', receive env s tip now ⟨opsOf l, Status.ENDOFFRAME, true⟩ = some (st, s', now') ∧
      sendEach env s tip now l = some (st', s'') ∧ (st.ok = true ↔ st'.ok = true) ∧
      (st.ok = true → ∃ G k k', G.map Chain.parts = l ∧ Lineage (H ++ G) ∧ Carries wh (H ++ G) k s' ∧ Carries wh (H ++ G) k' s'') := by
  obtain ⟨st, s', n, e, h1, -, h3⟩ := C103_frame_partial v H note s L K env hv tip now l hl hP hA ht hC
  obtain ⟨st', s'', e', g1, g2⟩ := C103_each v env hv l hP H note s tip now L K ht
  refine ⟨st, st', s', s'', n, e, e', by rw [h1, g1], fun hok => ?_⟩
  obtain ⟨G, q1, q2⟩ := h1.1 hok
  obtain ⟨⟨k, hk⟩, -⟩ := h3 G q1 q2
  obtain ⟨k', hk'⟩ := g2 G q1 q2
  exact ⟨G, k, k', q1, q2, hk, hk'⟩

/-- Frames that can be taken in: every chain but the last creates an object. -/
theorem C103_creates (H : List Chain) (l : List (AOp × List AOp)) (h : ∀ p ∈ l.dropLast, p.1.ref.version = Uuid.vNAME) :
    Cleared H l := by
  intro A p B e L
  have hj : ∀ obj, Joint H A obj := by
    intro obj
    by_cases hH : ∃ c ∈ H, c.object = obj
    · right; left
      intro a ha hao
      obtain ⟨c, hc, hco⟩ := hH
      have hn : a.head.ref.version = Uuid.vNAME := by
        refine h a.parts ?_
        rw [e, List.dropLast_append_of_ne_nil (by simp)]
        exact List.mem_append_left _ (List.mem_map.2 ⟨a, ha, rfl⟩)
      rcases L.made a (List.mem_append_right _ ha) with ⟨-, h1, -⟩ | h1
      · obtain ⟨r, hr, hrc⟩ := (L.front).root c hc
        have hid : r.head.id = a.head.id := by rw [hrc, hco, ← hao, h1]
        have := (List.pairwise_append.1 L.order).2.2 r hr a ha (by rw [hid]) r.head List.mem_cons_self
        rw [hid] at this
        omega
      · rw [hn] at h1
        exact absurd h1 (by decide)
    · left
      intro c hc hco
      exact hH ⟨c, hc, hco⟩
  exact ⟨Clear.of_joint hj _, fun _ => Clear.of_joint hj _⟩

/-- Frames that can be taken in: there are yarns, registers and sets only, and the events came in the order of their
stamps, those before the frame and those in the frame. -/
theorem C103_ordered (H : List Chain) (l : List (AOp × List AOp))
    (ht : ∀ c ∈ H, uuid2form c.rdt ∈ [Form.YARN, Form.LWW, Form.MX]) (h1 : IdSorted (eventsOf H)) (h2 : IdSorted (opsOf l)) :
    Cleared H l := by
  intro A p B e L
  have hA : IdSorted (eventsOf A) := by
    have : opsOf l = eventsOf A ++ opsOf (p :: B) := by
      rw [e]
      unfold opsOf eventsOf
      rw [List.flatMap_append, List.flatMap_map]
      rfl
    rw [this] at h2
    exact (List.pairwise_append.1 h2).1
  have hj : ∀ obj, Joint H A obj := by
    intro obj
    by_cases hH : ∃ c ∈ H, c.object = obj
    · right; right
      obtain ⟨c, hc, hco⟩ := hH
      exact ⟨⟨c, hc, hco, ht c hc⟩, List.Pairwise.sublist (filter_events _ H) h1,
        List.Pairwise.sublist (filter_events _ A) hA⟩
    · left
      intro c hc hco
      exact hH ⟨c, hc, hco⟩
  exact ⟨Clear.of_joint hj _, fun _ => Clear.of_joint hj _⟩

/-! A yarn and a register; then a frame that changes the register, creates another one and changes that. -/

def frame103 : List (AOp × List AOp) := [(op2 (evA 16) (evA 11) [.int 2], []),
  (op2 (evA 17) (formUuid Form.LWW), [op2 (evA 18) (evA 17) [.int 3]]), (op2 (evA 20) (evA 17) [.int 4], [])]

theorem proper_frame103 : ∀ p ∈ frame103, Proper p.1 p.2 := by
  intro p hp
  simp only [frame103, List.mem_cons, List.not_mem_nil, or_false] at hp
  rcases hp with rfl | rfl | rfl <;> refine ⟨?_, ?_, ?_, ?_, ?_, ?_, ?_⟩ <;>
    (try unfold Stamp) <;> (try unfold ChainedTo) <;> (try unfold ChainedTo) <;> decide +kernel

/-- The hypotheses of `C103_same_partial` are met by the frame, and it is accepted. -/
example : ∃ H note s, Lineage H ∧ Holds H note s ∧ H.map Chain.ops = [fed1, fed2, fed4] ∧ Known H (evA 15) ∧
    (∀ p ∈ frame103, p.1.id.origin = (evA 15).origin) ∧ Parted frame103 ∧ Cleared H frame103 ∧
    (rcv s (evA 15) (opsOf frame103)).map (fun r => r.1.ok) = some true := by
  have f1 := fed_run Fed.new fed_proper.1 (Or.inl rfl) (by decide +kernel)
  rw [if_pos (by decide +kernel)] at f1
  have f2 := fed_run f1 (tip := evA 10) fed_proper.2.1 (Or.inr ⟨_, List.mem_cons_self, _, List.mem_cons_self, rfl⟩)
    (by decide +kernel)
  rw [if_pos (by decide +kernel)] at f2
  have f4 := fed_run f2 (tip := evA 12) fed_proper.2.2.2
    (Or.inr ⟨fed2, by simp [fed2], op2 (evA 12) (evA 11) [.int 1], by simp [fed2], rfl⟩) (by decide +kernel)
  rw [if_pos (by decide +kernel)] at f4
  obtain ⟨H, note, e, L, K⟩ := C101_history _ _ _ f4
  have e : H.map Chain.ops = [fed1, fed2, fed4] := e
  refine ⟨H, note, _, L, K, e, ?_, ?_, ?_, ?_, ?_⟩
  · have : fed4 ∈ H.map Chain.ops := by rw [e]; simp
    obtain ⟨c, hc, hce⟩ := List.mem_map.1 this
    exact ⟨c, hc, op2 (evA 15) (evA 11), by rw [hce]; simp [fed4], rfl⟩
  · intro p hp
    simp only [frame103, List.mem_cons, List.not_mem_nil, or_false] at hp
    rcases hp with rfl | rfl | rfl <;> rfl
  · unfold frame103 Parted Parted Parted
    exact ⟨Or.inr (by decide +kernel), Or.inr (by decide +kernel), trivial⟩
  · refine C103_ordered H frame103 ?_ ?_ ?_
    · intro c hc
      obtain ⟨⟨r, hr, -, h2⟩, -⟩ := C101_type H L c hc
      have : r.ops ∈ [fed1, fed2, fed4] := by rw [← e]; exact List.mem_map.2 ⟨r, hr, rfl⟩
      have hh : r.head = op2 (evA 10) (formUuid Form.YARN) ∨ r.head = op2 (evA 11) (formUuid Form.LWW) ∨
          r.head = op2 (evA 15) (evA 11) := by
        simp only [List.mem_cons, List.not_mem_nil, or_false] at this
        rcases this with h | h | h
        · exact Or.inl (List.cons.inj h).1
        · exact Or.inr (Or.inl (List.cons.inj h).1)
        · exact Or.inr (Or.inr (List.cons.inj h).1)
      have hty := (L.object c hc).2
      rw [← h2] at hty ⊢
      rcases hh with h | h | h <;> rw [h] at hty ⊢
      · decide +kernel
      · decide +kernel
      · exact absurd hty (by decide +kernel)
    · have : eventsOf H = [fed1, fed2, fed4].flatten := by rw [← e]; rfl
      rw [this]
      unfold IdSorted
      decide +kernel
    · unfold IdSorted
      decide +kernel
  · decide +kernel

/-- A frame that creates two registers and then adds to an array meets the hypothesis of `C103_creates`. -/
example : ∀ p ∈ ([(op2 (evA 16) (formUuid Form.LWW), []), (op2 (evA 17) (formUuid Form.LWW), []),
    (op2 (evA 18) (evA 11) [.int 2], [])] : List (AOp × List AOp)).dropLast, p.1.ref.version = Uuid.vNAME := by
  decide +kernel

end Ron.Props
