import Verif.Lemmas.LineageRun
import Verif.Props.Lifecycle
/-!
C101: a replica is the history of the chains it has accepted.

Frames of one chain each come to a new store, some are accepted, some are not. What is accepted is said by `Follows`, what
is then in the store is said by `Holds`; neither knows how the code looks for an event.
-/
namespace Ron.Props
open Ron Ron.Spec Ron.Commit

/-- Frames of one chain each have come to a new store; `acc` are those accepted, as they came. The branch is either none
at all or has one of the accepted events for its tip. -/
inductive Fed (v : Rdt.View) : MemStore → List (List AOp) → Prop where
  | new : Fed v newStore []
  | frame {s s' : MemStore} {acc : List (List AOp)} {env : Env} {tip : Uuid} {now now' : Word} {o : AOp} {os : List AOp}
      {st : Status} : Fed v s acc → env.mg = Rdt.mergeCursors v → Proper o os →
      (tip = Uuid.NIL ∨ ∃ f ∈ acc, ∃ x ∈ f, x.id = tip) →
      receive env s tip now ⟨o :: os, Status.ENDOFFRAME, true⟩ = some (st, s', now') →
      Fed v s' (if st.ok then acc ++ [o :: os] else acc)

/-! ## C101 — a replica is the history of the chains it has accepted -/

/-- The frame is accepted if and only if it goes on from the history and belongs to the yarn of the branch. Then the
store holds the history with the chain and the tip is the last event; otherwise the store is as it was. -/
theorem C101_accepts {wh : Bool} (v : Rdt.View) (H : List Chain) (note : Uuid → List Nat) (s : MemStore) (L : Lineage H)
    (K : Carries wh H note s) (env : Env) (hv : env.mg = Rdt.mergeCursors v) (tip : Uuid) (now : Word) (o : AOp)
    (os : List AOp) (P : Proper o os) (ht : tip = Uuid.NIL ∨ Known H tip) :
    ∃ st s' now', receive env s tip now ⟨o :: os, Status.ENDOFFRAME, true⟩ = some (st, s', now') ∧
      (st.ok = true ↔ ∃ c : Chain, c.head = o ∧ c.rest = os ∧ Follows H c ∧ (tip = Uuid.NIL ∨ tip.origin = o.id.origin)) ∧
      (st.ok = false → s' = s) ∧
      (∀ c : Chain, c.head = o → c.rest = os → Follows H c → st.ok = true →
        (∃ note', Carries wh (H ++ [c]) note' s') ∧ Lineage (H ++ [c]) ∧ tipOf s' = some (lastOf o.id os)) := by
  have hone : ∀ (G : List Chain), G.map Chain.parts = [(o, os)] → ∃ c : Chain, G = [c] ∧ c.head = o ∧ c.rest = os := by
    intro G h
    match G, h with
    | [c], h =>
      have h := (List.cons.inj h).1
      exact ⟨c, rfl, congrArg Prod.fst h, congrArg Prod.snd h⟩
  by_cases hb : tip = Uuid.NIL ∨ tip.origin = o.id.origin
  · obtain ⟨st, s', now', e, h⟩ := receive_frames (tip := tip) (now := now) L K hv (l := [(o, os)]) (by simp)
      (by simpa using P) trivial (by
        rcases hb with h | h
        · exact Or.inl h
        · rcases ht with g | g
          · exact Or.inl g
          · exact Or.inr ⟨g, by simpa using h.symm⟩) (by
        intro A p B hAB _
        match A, hAB with
        | [], _ => exact ⟨Clear.nil _, fun _ => Clear.nil _⟩
        | a :: A, hAB => simp at hAB)
    rw [show opsOf [(o, os)] = o :: os by simp [opsOf]] at e
    refine ⟨st, s', now', e, ?_⟩
    rcases h with ⟨G, note', h1, h2, rfl, h3, h4⟩ | ⟨h1, h2, h3⟩
    · obtain ⟨c, rfl, g1, g2⟩ := hone G h1
      have hf := lineage_last h2
      refine ⟨⟨fun _ => ⟨c, g1, g2, hf, hb⟩, fun _ => by decide⟩, fun h => absurd h (by decide), ?_⟩
      intro d k1 k2 k3 _
      have hu := L.follows_unique k3 hf (k1.trans g1.symm)
      have : d = c := by
        cases d; cases c
        simp only at k1 k2 g1 g2 hu
        rw [k1, k2, g1, g2, hu.1, hu.2]
      subst this
      exact ⟨⟨note', h3⟩, h2, h4⟩
    · refine ⟨⟨fun g => (by rw [h1] at g; cases g), fun ⟨c, g1, g2, g3, _⟩ => ?_⟩, fun _ => h2,
        fun c g1 g2 g3 h => (by rw [h1] at h; cases h)⟩
      exact absurd (Lineage.add L (by rw [g1, g2]; exact P) g3) (h3 [c] (by
        unfold Chain.parts
        rw [List.map_cons, List.map_nil, g1, g2]))
  · have hk : Known H tip := ht.resolve_left fun h => hb (Or.inl h)
    have hno : ¬ ∃ c : Chain, c.head = o ∧ c.rest = os ∧ Follows H c ∧ (tip = Uuid.NIL ∨ tip.origin = o.id.origin) :=
      fun ⟨_, _, _, _, h⟩ => hb h
    by_cases hf : ∃ c : Chain, c.head = o ∧ c.rest = os ∧ Follows H c
    · obtain ⟨c, rfl, rfl, hf⟩ := hf
      obtain ⟨now', e⟩ := receive_elsewhere (now := now) L K hv P hf (fun h => hb (Or.inl h)) hk (fun h => hb (Or.inr h))
      refine ⟨_, s, now', e, ⟨fun h => absurd h (by decide), fun h => absurd h hno⟩, fun _ => rfl, ?_⟩
      exact fun _ _ _ _ h => absurd h (by decide)
    · obtain ⟨st, e, h⟩ := receive_refuses (tip := tip) (now := now) L K hv P fun c h1 h2 h3 => hf ⟨c, h1, h2, h3⟩
      refine ⟨st, s, now, e, ⟨fun g => (by rw [h] at g; cases g), fun h => absurd h hno⟩, fun _ => rfl, ?_⟩
      exact fun c h1 h2 h3 => absurd ⟨c, h1, h2, h3⟩ hf

theorem newStore_holds : Holds [] (fun _ => []) newStore := by
  have e : ∀ k : Key, k.form ≠ Form.ZERO → stored k newStore = [] := by
    intro k hk
    have : stored k newStore = if k = Key.ZERO then [_] else [] := MemStore.insert_recs List.Pairwise.nil Key.ZERO k _
    rw [this, if_neg]
    intro e
    rw [e] at hk
    exact hk (by decide)
  refine ⟨⟨List.pairwise_singleton _ _, fun k hk => ?_, fun k hk => ?_, fun k hk => ?_, fun k _ _ hk => by rw [e k hk]; exact Stands.nil, ?_⟩,
    ⟨_, List.mem_cons_self⟩⟩
  · rw [e k (by rw [hk]; decide)]; rfl
  · rw [e k (by rw [hk]; decide)]; exact List.not_mem_nil
  · exact e k (by rw [hk]; decide)
  · intro r hr _
    rw [List.mem_singleton.1 hr]
    exact ⟨rfl, _, rfl⟩

/-- Whatever frames came, the store is a history, and the history is made of the accepted frames as they came. -/
theorem C101_history (v : Rdt.View) (s : MemStore) (acc : List (List AOp)) (h : Fed v s acc) :
    ∃ H note, H.map Chain.ops = acc ∧ Lineage H ∧ Holds H note s := by
  induction h with
  | new => exact ⟨[], _, rfl, Lineage.nil, newStore_holds⟩
  | @frame s s' acc env tip now now' o os st _ hv P ht e ih =>
    obtain ⟨H, note, rfl, L, K⟩ := ih
    have ht' : tip = Uuid.NIL ∨ Known H tip := by
      rcases ht with h | ⟨f, hf, x, hx, hxt⟩
      · exact Or.inl h
      · obtain ⟨c, hc, rfl⟩ := List.mem_map.1 hf
        exact Or.inr ⟨c, hc, x, hx, hxt⟩
    obtain ⟨st', s'', now'', e', h1, h2, h3⟩ := C101_accepts v H note s L K env hv tip now o os P ht'
    rw [e] at e'
    cases e'
    cases hok : st.ok with
    | false =>
      rw [h2 hok]
      exact ⟨H, note, rfl, L, K⟩
    | true =>
      obtain ⟨c, g1, g2, g3, -⟩ := h1.1 hok
      obtain ⟨⟨note', K'⟩, L', -⟩ := h3 c g1 g2 g3 hok
      refine ⟨H ++ [c], note', ?_, L', K'⟩
      subst g1 g2
      simp [Chain.ops]

theorem lineage_snoc {H : List Chain} {c : Chain} (h : Lineage (H ++ [c])) : Lineage H ∧ Follows H c := by
  generalize e : H ++ [c] = G at h
  cases h with
  | nil => simp at e
  | add h1 _ h3 =>
    obtain ⟨rfl, e2⟩ := List.append_inj' e rfl
    cases e2
    exact ⟨h1, h3⟩

/-- The accepted frames say which object every chain belongs to. -/
theorem C101_determined (H G : List Chain) (hH : Lineage H) (hG : Lineage G) (e : H.map Chain.ops = G.map Chain.ops) :
    H = G := by
  induction hH generalizing G with
  | nil =>
    cases G with
    | nil => rfl
    | cons => simp at e
  | @add H c h1 _ h2 ih =>
    rcases List.eq_nil_or_concat G with rfl | ⟨G', d, rfl⟩
    · simp at e
    · rw [List.concat_eq_append] at *
      rw [List.map_append, List.map_append] at e
      obtain ⟨e1, e2⟩ := List.append_inj' e rfl
      obtain ⟨g1, g2⟩ := lineage_snoc hG
      have := ih G' g1 e1
      subst this
      simp only [List.map_cons, List.map_nil, List.cons.injEq, and_true] at e2
      unfold Chain.ops at e2
      simp only [List.cons.injEq] at e2
      have hu := h1.follows_unique h2 g2 e2.1
      have : c = d := by
        cases c; cases d
        simp only at e2 hu
        rw [e2.1, e2.2, hu.1, hu.2]
      rw [this]

/-- An event is found if and only if it is in the history, with the object and the type of its chain. -/
theorem C101_found {wh : Bool} (v : Rdt.View) (H : List Chain) (note : Uuid → List Nat) (s : MemStore) (L : Lineage H)
    (K : Carries wh H note s) (env : Env) (hv : env.mg = Rdt.mergeCursors v) (tip : Uuid) (now : Word) (id : Uuid)
    (hi : Stamp id) :
    ∃ st m, findOpMeta env (start s tip now) id = some (st, m, start s tip now) ∧
      (st.ok = true ↔ Known H id) ∧ (st.ok = false → st = Status.NOT_FOUND) ∧
      ∀ c ∈ H, c.Has id → m.id = id ∧ m.object = c.object ∧ m.rdt = c.rdt := by
  by_cases hk : Known H id
  · have hk' := hk
    obtain ⟨c, hc, hh⟩ := hk'
    obtain ⟨m, c', e, M, h1, h2, h3⟩ := findOpMeta_has (F := []) (by rw [List.append_nil]; exact L)
      (mid_start K tip now) hv (by rw [List.append_nil]; exact hc) hh (Clear.nil _)
    rw [start_same (findOpMeta_keeps e) M] at e
    refine ⟨_, m, e, ⟨fun _ => hk, fun _ => by decide⟩, fun h => absurd h (by decide), fun d hd hdh => ?_⟩
    have := L.unique hc hd hh hdh
    subst this
    exact ⟨h1, h2, h3⟩
  · obtain ⟨m, c', e, M⟩ := findOpMeta_not (F := []) (by rw [List.append_nil]; exact L) (mid_start K tip now) hv hi
      (by rw [List.append_nil]; exact hk) (Clear.nil _)
    rw [start_same (findOpMeta_keeps e) M] at e
    exact ⟨_, m, e, ⟨fun h => absurd h (by decide), fun h => absurd h hk⟩, fun _ => rfl,
      fun c hc hh => absurd ⟨c, hc, hh⟩ hk⟩

/-- The tip of a yarn is its greatest event; a yarn without events is not found. -/
theorem C101_tip {wh : Bool} (v : Rdt.View) (H : List Chain) (note : Uuid → List Nat) (s : MemStore) (L : Lineage H)
    (K : Carries wh H note s) (env : Env) (hv : env.mg = Rdt.mergeCursors v) (tip : Uuid) (now : Word) (y : Word)
    (hy : y.toNat / 2 ^ 60 = 2) :
    ∃ st m, findYarnTipMeta env (start s tip now) y = some (st, m, start s tip now) ∧
      (st.ok = true ↔ ∃ i, Known H i ∧ i.origin = y) ∧ (st.ok = false → st = Status.NOT_FOUND) ∧
      (st.ok = true → Known H m.id ∧ m.id.origin = y ∧
        ∀ j, Known H j → j.origin = y → j = m.id ∨ Uuid.lt j m.id = true) := by
  by_cases hk : ∃ i, Known H i ∧ i.origin = y
  · obtain ⟨i, h1, h2⟩ := id hk
    obtain ⟨m, c, c', hc, e, M, g1, g2, g3, -, -⟩ := yarn_known (F := []) (by rw [List.append_nil]; exact L)
      (mid_start K tip now) hv (by rw [List.append_nil]; exact h1) h2 (Clear.nil _)
    rw [start_same (findOpMeta_keeps e) M] at e
    rw [List.append_nil] at hc g3
    refine ⟨_, m, e, ⟨fun _ => hk, fun _ => by decide⟩, fun h => absurd h (by decide), fun _ => ⟨⟨c, hc, g1⟩, g2, ?_⟩⟩
    intro j hj hjy
    have ho : j.origin = m.id.origin := hjy.trans g2.symm
    rcases Nat.lt_or_eq_of_le (g3 j hj hjy) with h | h
    · exact Or.inr ((Uuid.lt_same ho).2 h)
    · exact Or.inl (Uuid.ext_same ho h)
  · have e := yarn_unknown (F := []) (by rw [List.append_nil]; exact L) (mid_start K tip now) hv hy
      (fun i h1 h2 => hk ⟨i, by rwa [List.append_nil] at h1, h2⟩) (Clear.nil _)
    exact ⟨_, _, e, ⟨fun h => absurd h (by decide), fun h => absurd h hk⟩, fun _ => rfl, fun h => absurd h (by decide)⟩

/-- The log of an object is the chains of the object, in the order they were accepted. -/
theorem C101_log {wh : Bool} (v : Rdt.View) (H : List Chain) (note : Uuid → List Nat) (s : MemStore) (L : Lineage H)
    (K : Carries wh H note s) (obj : Uuid) (ho : Stamp obj) :
    ∃ l, Engine.read (Rdt.mergeCursors v) s (Key.mk' obj Form.LOG) = some (Status.OK, l) ∧
      l.map AOp.body = ((H.filter fun c => decide (c.object = obj)).flatMap Chain.ops).map AOp.body := by
  obtain ⟨l, e, h⟩ := read_log (v := v) K.toRetains (k := Key.mk' obj Form.LOG) (form_mk _ _)
  refine ⟨l, e, h.trans ?_⟩
  congr 2
  apply List.filter_congr
  intro c hc
  have hs := (L.object c hc).1
  rw [decide_eq_decide]
  exact ⟨fun e => (C08_key_injective _ _ _ _ hs.event ho.event e).1, fun e => by rw [e]⟩

/-- The events of a yarn were accepted in the order of their time, each once. -/
theorem C101_order (H : List Chain) (L : Lineage H) :
    (H.flatMap Chain.ops).Pairwise fun a b => a.id.origin = b.id.origin → Uuid.lt a.id b.id = true := by
  rw [List.flatMap, List.pairwise_flatten]
  constructor
  · intro l hl
    obtain ⟨c, hc, rfl⟩ := List.mem_map.1 hl
    refine List.Pairwise.imp (fun h _ => ?_) (chain_sorted (L.proper c hc).chained)
    exact h
  · rw [List.pairwise_map]
    refine List.Pairwise.imp_of_mem (fun {c d} hc hd hb a ha b hb' e => ?_) L.order
    have h1 := (L.proper c hc).mem ha
    have h2 := (L.proper d hd).mem hb'
    have h3 := hb (h1.1.symm.trans (e.trans h2.1)) a ha
    exact (Uuid.lt_same e).2 (by omega)

theorem chain_causal : ∀ (os : List AOp) (o : AOp), ChainedTo o.id os → ∀ n (h : n < os.length),
    ∃ x ∈ (o :: os).take (n + 1), x.id = os[n].ref
  | q :: os, o, hc, 0, _ => ⟨o, List.mem_cons_self, hc.2.2.2.1.symm⟩
  | q :: os, o, hc, n + 1, h => by
    obtain ⟨x, hx, e⟩ := chain_causal os q hc.2.2.2.2 n (by simpa using h)
    exact ⟨x, List.mem_cons_of_mem _ hx, e⟩

/-- Every event creates an object or refers to an event accepted before it. -/
theorem C101_causal (H : List Chain) (L : Lineage H) (n : Nat) (h : n < (H.flatMap Chain.ops).length) :
    (H.flatMap Chain.ops)[n].ref.version = Uuid.vNAME ∨
      ∃ x ∈ (H.flatMap Chain.ops).take n, x.id = (H.flatMap Chain.ops)[n].ref := by
  induction L generalizing n with
  | nil => simp at h
  | @add H c L P F ih =>
    have e : (H ++ [c]).flatMap Chain.ops = H.flatMap Chain.ops ++ c.ops := by simp
    simp only [e] at h ⊢
    by_cases hn : n < (H.flatMap Chain.ops).length
    · rw [List.getElem_append_left hn, List.take_append_of_le_length (by omega)]
      exact ih n hn
    · rw [List.getElem_append_right (by omega), List.take_append, List.take_of_length_le (by omega)]
      rw [List.length_append] at h
      have key : ∀ m (hm : m < c.ops.length), c.ops[m].ref.version = Uuid.vNAME ∨
          ∃ x ∈ H.flatMap Chain.ops ++ c.ops.take m, x.id = c.ops[m].ref := by
        intro m hm
        match m, hm with
        | 0, _ =>
          rcases F.cause with ⟨h1, -⟩ | ⟨-, -, d, hd, ⟨x, hx, hxe⟩, -⟩
          · exact Or.inl h1
          · exact Or.inr ⟨x, List.mem_append_left _ (List.mem_flatMap.2 ⟨d, hd, hx⟩), hxe⟩
        | m + 1, hm =>
          obtain ⟨x, hx, hxe⟩ := chain_causal c.rest c.head P.chained m (by simpa [Chain.ops] using hm)
          exact Or.inr ⟨x, List.mem_append_right _ hx, hxe⟩
      exact key _ (by omega)

theorem object_root {H : List Chain} (L : Lineage H) :
    ∀ c ∈ H, ∃ r ∈ H, r.head.id = c.object ∧ r.head.ref = c.rdt ∧ r.rdt = c.rdt := by
  induction L with
  | nil => intro c hc; cases hc
  | @add H c L P F ih =>
    intro d hd
    rcases List.mem_append.1 hd with hd | hd
    · obtain ⟨r, hr, h⟩ := ih d hd
      exact ⟨r, List.mem_append_left _ hr, h⟩
    · rw [List.mem_singleton.1 hd]
      rcases F.cause with ⟨-, -, h1, h2⟩ | ⟨-, -, e, he, -, h1, h2⟩
      · exact ⟨c, by simp, h1.symm, h2.symm, rfl⟩
      · obtain ⟨r, hr, g1, g2, g3⟩ := ih e he
        exact ⟨r, List.mem_append_left _ hr, by rw [g1, h1], by rw [g2, h2], by rw [g3, h2]⟩

/-- An object has one type: the one its first event names. -/
theorem C101_type (H : List Chain) (L : Lineage H) (c : Chain) (hc : c ∈ H) :
    (∃ r ∈ H, r.head.id = c.object ∧ r.head.ref = c.rdt) ∧ ∀ d ∈ H, d.object = c.object → d.rdt = c.rdt := by
  obtain ⟨r, hr, h1, h2, h3⟩ := object_root L c hc
  refine ⟨⟨r, hr, h1, h2⟩, fun d hd e => ?_⟩
  obtain ⟨q, hq, g1, g2, g3⟩ := object_root L d hd
  have : q = r := L.unique hq hr (i := c.object) ⟨q.head, List.mem_cons_self, by rw [g1, e]⟩ ⟨r.head, List.mem_cons_self, h1⟩
  rw [← g3, this, h3]

theorem filter_state {H : List Chain} (L : Lineage H) {c : Chain} (hc : c ∈ H) :
    (H.filter fun d => decide (Key.ofUuids d.object d.rdt = Key.ofUuids c.object c.rdt)) =
      H.filter fun d => decide (d.object = c.object) := by
  apply List.filter_congr
  intro d hd
  rw [decide_eq_decide]
  constructor
  · intro e
    exact (C08_key_injective _ _ _ _ (L.object d hd).1.event (L.object c hc).1.event e).1
  · intro e
    rw [e, (C101_type H L c hc).2 d hd e]

/-- What the state of an object is made of. -/
theorem state_stands {wh : Bool} {H : List Chain} {note : Uuid → List Nat} {s : MemStore} (L : Lineage H)
    (K : Carries wh H note s) {c : Chain} (hc : c ∈ H) :
    Stands wh (uuid2form c.rdt) (H.filter fun d => decide (d.object = c.object))
      (stored (Key.ofUuids c.object c.rdt) s) := by
  have hty := types_form (L.object c hc).2
  have hkf : (Key.ofUuids c.object c.rdt).form = uuid2form c.rdt := by unfold Key.ofUuids; exact form_mk _ _
  have h := K.state _ (by rw [hkf]; exact hty.2.1) (by rw [hkf]; exact hty.2.2.1) (by rw [hkf]; exact hty.1)
  rwa [hkf, filter_state L hc] at h

/-- The state of an object is made of the chains of the object and of nothing else. -/
theorem C101_state (H : List Chain) (note : Uuid → List Nat) (s : MemStore) (L : Lineage H) (K : Holds H note s)
    (c : Chain) (hc : c ∈ H) :
    stored (Key.ofUuids c.object c.rdt) s =
      (H.filter fun d => decide (d.object = c.object)).map fun d => punctuate d.ops := (state_stands L K hc).exact rfl

/-! A yarn, then an object with two events, then an event that refers to one nobody has seen. -/

def fed1 : List AOp := [op2 (evA 10) (formUuid Form.YARN)]
def fed2 : List AOp := [op2 (evA 11) (formUuid Form.LWW), op2 (evA 12) (evA 11) [.int 1]]
def fed3 : List AOp := [op2 (evA 14) (evA 13)]
def fed4 : List AOp := [op2 (evA 15) (evA 11)]

theorem fed_proper : Proper (op2 (evA 10) (formUuid Form.YARN)) [] ∧
    Proper (op2 (evA 11) (formUuid Form.LWW)) [op2 (evA 12) (evA 11) [.int 1]] ∧
    Proper (op2 (evA 14) (evA 13)) [] ∧ Proper (op2 (evA 15) (evA 11)) [] := by
  refine ⟨⟨?_, ?_, ?_, ?_, ?_, ?_, ?_⟩, ⟨?_, ?_, ?_, ?_, ?_, ?_, ?_⟩, ⟨?_, ?_, ?_, ?_, ?_, ?_, ?_⟩, ⟨?_, ?_, ?_, ?_, ?_, ?_, ?_⟩⟩ <;>
    (try unfold Stamp) <;> (try unfold ChainedTo) <;> (try unfold ChainedTo) <;> decide +kernel

theorem fed_run {s : MemStore} {acc : List (List AOp)} (h : Fed tView s acc) {tip : Uuid} {o : AOp} {os : List AOp}
    (P : Proper o os) (ht : tip = Uuid.NIL ∨ ∃ f ∈ acc, ∃ x ∈ f, x.id = tip) (hs : (rcv s tip (o :: os)).isSome = true) :
    Fed tView (after (rcv s tip (o :: os))) (if (statusOf (rcv s tip (o :: os))).ok then acc ++ [o :: os] else acc) := by
  obtain ⟨st, now, e⟩ := rcv_some hs
  have : statusOf (rcv s tip (o :: os)) = st := by unfold statusOf; rw [e]; rfl
  rw [this]
  exact Fed.frame h rfl P ht e

/-- The third frame is refused, the others are accepted. -/
theorem fed_example : ∃ s, Fed tView s [fed1, fed2, fed4] := by
  have f1 := fed_run Fed.new fed_proper.1 (Or.inl rfl) (by decide +kernel)
  rw [if_pos (by decide +kernel)] at f1
  have f2 := fed_run f1 (tip := evA 10) fed_proper.2.1 (Or.inr ⟨_, List.mem_cons_self, _, List.mem_cons_self, rfl⟩)
    (by decide +kernel)
  rw [if_pos (by decide +kernel)] at f2
  have f3 := fed_run f2 (tip := evA 12) fed_proper.2.2.1
    (Or.inr ⟨fed2, by simp [fed2], op2 (evA 12) (evA 11) [.int 1], by simp [fed2], rfl⟩) (by decide +kernel)
  rw [if_neg (by decide +kernel)] at f3
  have f4 := fed_run f3 (tip := evA 12) fed_proper.2.2.2
    (Or.inr ⟨fed2, by simp [fed2], op2 (evA 12) (evA 11) [.int 1], by simp [fed2], rfl⟩) (by decide +kernel)
  rw [if_pos (by decide +kernel)] at f4
  exact ⟨_, f4⟩

/-- A store that holds a history of three chains, the last of which belongs to the object of the second. -/
example : ∃ H note s, Lineage H ∧ Holds H note s ∧ H.map Chain.ops = [fed1, fed2, fed4] ∧ Known H (evA 12) ∧
    ¬ Known H (evA 13) := by
  obtain ⟨s, h⟩ := fed_example
  obtain ⟨H, note, e, L, K⟩ := C101_history _ _ _ h
  have key : ∀ i, Known H i ↔ ∃ f ∈ [fed1, fed2, fed4], ∃ x ∈ f, x.id = i := by
    intro i
    rw [← e]
    constructor
    · rintro ⟨c, hc, x, hx, rfl⟩
      exact ⟨_, List.mem_map.2 ⟨c, hc, rfl⟩, x, hx, rfl⟩
    · rintro ⟨f, hf, x, hx, rfl⟩
      obtain ⟨c, hc, rfl⟩ := List.mem_map.1 hf
      exact ⟨c, hc, x, hx, rfl⟩
  exact ⟨H, note, s, L, K, e, (key _).2 (by decide +kernel), fun h => absurd ((key _).1 h) (by decide +kernel)⟩

end Ron.Props
