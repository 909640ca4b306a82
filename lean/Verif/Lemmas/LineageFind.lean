import Verif.Lemmas.LineageJoin
/-!
What is found in the middle of a frame: the beginning of a chain, an event, the tip of a yarn.
-/
namespace Ron
open Spec

namespace Spec.Lineage
/-- An event belongs to one chain. -/
theorem unique {H : List Chain} (L : Lineage H) {c d : Chain} (hc : c ∈ H) (hd : d ∈ H) {i : Uuid} (h1 : c.Has i)
    (h2 : d.Has i) : c = d := by
  obtain ⟨x, hx, ex⟩ := id h1
  obtain ⟨y, hy, ey⟩ := id h2
  have mc := (L.proper c hc).mem hx
  have md := (L.proper d hd).mem hy
  rw [ex] at mc
  rw [ey] at md
  have ho : c.head.id.origin = d.head.id.origin := mc.1.symm.trans md.1
  rcases Nat.le_total c.head.id.value.toNat d.head.id.value.toNat with h | h
  · exact (L.only hd hc ho.symm h1 h md.2.1).symm
  · exact L.only hc hd ho h2 h mc.2.1

/-- The object of a chain is determined. -/
theorem follows_unique {H : List Chain} (L : Lineage H) {c d : Chain} (hc : Spec.Follows H c) (hd : Spec.Follows H d)
    (e : c.head = d.head) : c.object = d.object ∧ c.rdt = d.rdt := by
  rcases hc.cause with ⟨h1, -, h2, h3⟩ | ⟨h1, -, a, ha, h2, h3, h4⟩ <;>
    rcases hd.cause with ⟨g1, -, g2, g3⟩ | ⟨g1, -, b, hb, g2, g3, g4⟩
  · rw [h2, h3, g2, g3, e]; exact ⟨rfl, rfl⟩
  · rw [e, g1] at h1; exact absurd h1 (by decide)
  · rw [e, g1] at h1; exact absurd h1 (by decide)
  · rw [e] at h2
    have := L.unique ha hb h2 g2
    subst this
    rw [h3, h4, g3, g4]; exact ⟨rfl, rfl⟩
end Spec.Lineage

namespace Spec.At
variable {H : List Chain} {i : Uuid} {c d : Chain}

theorem unique (L : Lineage H) (a : At H i c) (b : At H i d) : c = d := by
  have h1 := a.last d b.mem b.yarn b.le
  have h2 := b.last c a.mem a.yarn a.le
  have ho : c.head.id.origin = d.head.id.origin := a.yarn.trans b.yarn.symm
  have hval : c.head.id.value = d.head.id.value := BitVec.toNat_inj.1 (Nat.le_antisymm h2 h1)
  have : c.head.id = d.head.id := by
    cases hc : c.head.id
    cases hd : d.head.id
    rw [hc, hd] at hval ho
    simp only at hval ho
    rw [hval, ho]
  exact L.unique a.mem b.mem ⟨c.head, List.mem_cons_self, rfl⟩ ⟨d.head, List.mem_cons_self, this.symm⟩

/-- The chain of an event is the one at which it is looked for. -/
theorem has (L : Lineage H) (hd : d ∈ H) (hi : d.Has i) (a : At H i c) : c = d := by
  have hm : d.head.id.origin = i.origin ∧ d.head.id.value.toNat ≤ i.value.toNat := by
    obtain ⟨o, ho, rfl⟩ := hi
    have := (L.proper d hd).mem ho
    exact ⟨this.1.symm, this.2.1⟩
  exact L.only a.mem hd (a.yarn.trans hm.1.symm) hi (a.last d hd hm.1 hm.2) a.le

end Spec.At

namespace Commit

variable {wh : Bool} {H F : List Chain} {note : Uuid → List Nat} {v : Rdt.View} {env : Env} {c : Commit}

/-- The beginning of the chain of an event. -/
theorem head_spec (L : Lineage (H ++ F)) (M : Mid wh H F note c) (hv : env.mg = Rdt.mergeCursors v) {id : Uuid}
    (hi : Props.IsEvent id) :
    (∃ d, At (H ++ F) id d ∧ findChainHeadMeta env c id = some (Status.OK, headOf d)) ∨
    ((∀ d, ¬ At (H ++ F) id d) ∧
      ((∀ obj, Joint H F obj) → findChainHeadMeta env c id = some (Status.NOT_FOUND, OpMeta.nil))) := by
  have S := L.sound
  have hfind : ∀ {o : AOp} {f : Frame}, seekPrev env c (Key.mk' id Form.META) = some (Status.OK, o :: f) →
      findChainHeadMeta env c id =
        some (if o.id.origin ≠ id.origin ∨ o.ref ≠ formUuid Form.META then (Status.NOT_FOUND, OpMeta.nil)
          else OpMeta.nil.load o) := by
    intro o f h
    unfold findChainHeadMeta
    rw [h, Option.map_some]
    simp only
    rw [if_neg (by decide)]
  rcases seek_mid L M hv (form_mk id Form.META) with ⟨d, hd, o, f, e, hb, hle, hmax⟩ | ⟨hno, hj⟩
  · have hde := (S.proper d hd).stamp.event
    have hoid : o.id = d.head.id := congrArg (fun b : Uuid × Uuid × List AVal => b.1) hb
    have horef : o.ref = formUuid Form.META := congrArg (fun b : Uuid × Uuid × List AVal => b.2.1) hb
    have hovals : o.vals = _ := congrArg (fun b : Uuid × Uuid × List AVal => b.2.2) hb
    have hfind := hfind e
    by_cases ho : d.head.id.origin = id.origin
    · left
      refine ⟨d, ⟨hd, ho, ?_, ?_⟩, ?_⟩
      · have := (not_congr (key_lt_same (f := Form.META) hi hde ho.symm)).1 (by rw [hle]; decide)
        omega
      · intro x hx hxo hxv
        have hxe := (S.proper x hx).stamp.event
        have := hmax x hx (by
          have := (not_congr (key_lt_same (f := Form.META) hi hxe hxo.symm)).2 (by omega)
          simpa using this)
        have := (not_congr (key_lt_same (f := Form.META) hde hxe (ho.trans hxo.symm))).1 (by rw [this]; decide)
        omega
      · rw [hfind, if_neg (by rw [hoid, horef]; simp [ho])]
        unfold OpMeta.load
        rw [if_neg (by simp [horef]), hovals]
        simp only [Chain.entry, AOp.body, hoid]
        rfl
    · right
      refine ⟨?_, fun _ => by rw [hfind, if_pos (Or.inl (by rw [hoid]; exact ho))]⟩
      intro x hx
      have hxe := (S.proper x hx.mem).stamp.event
      have h1 := hmax x hx.mem (by
        have := (not_congr (key_lt_same (f := Form.META) hi hxe hx.yarn.symm)).2 (by have := hx.le; omega)
        simpa using this)
      have h2 := hle
      have h1 := (not_congr (Props.C09_key_order _ _ _ _)).1 (by rw [h1]; decide)
      have h2 := (not_congr (Props.C09_key_order _ _ _ _)).1 (by rw [h2]; decide)
      simp only [lexNat, Nat.lt_irrefl, true_and, false_or, and_false, or_false] at h1 h2
      rw [hx.yarn] at h1
      apply ho
      apply BitVec.toNat_inj.1
      have q1 := hde.origin
      have q2 := hi.origin
      omega
  · right
    refine ⟨fun x hx => ?_, fun h => ?_⟩
    · have hxe := (S.proper x hx.mem).stamp.event
      have := (key_lt_same (f := Form.META) hi hxe hx.yarn.symm).1 (hno x hx.mem)
      have := hx.le
      omega
    · obtain ⟨o, f, e, href⟩ := hj h
      rw [hfind e, if_pos (Or.inr href)]

/-! ### Walking a log -/

theorem next_some {hs : Hashing} {m : OpMeta} {o : AOp} (h1 : o.id.origin = m.id.origin)
    (h2 : m.id.value.toNat < o.id.value.toNat) : ∃ m', m.next hs o m = some m' ∧ m'.id = o.id ∧ m'.rdt = m.rdt ∧
      m'.object = m.object := by
  unfold OpMeta.next
  rw [if_pos ⟨h1, (Uuid.lt_same h1.symm).2 h2⟩]
  exact ⟨_, rfl, rfl, rfl, rfl⟩

/-- An event of the chain is found. -/
theorem walk_found {hs : Hashing} {id : Uuid} : ∀ (os : List AOp) (m : OpMeta) (l : List AOp) (T : List AOp),
    l.map AOp.body = (os ++ T).map AOp.body → ChainedTo m.id os → m.id.origin = id.origin →
    (∃ o ∈ os, o.id = id) → ∃ m', walkChain hs id m l = some (Status.OK, m') ∧ m'.id = id ∧ m'.rdt = m.rdt ∧
      m'.object = m.object := by
  intro os
  induction os with
  | nil => intro m l T _ _ _ h; obtain ⟨o, ho, -⟩ := h; cases ho
  | cons o os ih =>
    intro m l T hl hc ho hx
    obtain ⟨-, h2, h3, h4, h5⟩ := hc
    match l, hl with
    | p :: l, hl =>
      rw [List.cons_append, List.map_cons, List.map_cons] at hl
      obtain ⟨hp, hl⟩ := List.cons.inj hl
      have hpid : p.id = o.id := Rdt.body_id hp
      have hpref : p.ref = o.ref := congrArg (fun b : Uuid × Uuid × List AVal => b.2.1) hp
      obtain ⟨m', e, e1, e2, e3⟩ := next_some (hs := hs) (m := m) (o := p) (by rw [hpid, h2])
        (by rw [hpid]; exact (Uuid.lt_same h2.symm).1 h3)
      unfold walkChain
      rw [if_neg (by rw [hpid, h2, ho]; simp), if_neg (by rw [hpref, h4]; simp), e, Option.bind_some]
      split
      · rename_i hid
        exact ⟨m', rfl, hid, e2, e3⟩
      · rename_i hid
        have hx : ∃ q ∈ os, q.id = id := by
          obtain ⟨q, hq, hqi⟩ := hx
          rcases List.mem_cons.1 hq with rfl | hq
          · exact absurd (e1.trans (hpid.trans hqi)) hid
          · exact ⟨q, hq, hqi⟩
        obtain ⟨m2, f, f1, f2, f3⟩ := ih m' l T hl (by rw [e1, hpid]; exact h5) (by rw [e1, hpid, h2, ho]) hx
        exact ⟨m2, f, f1, f2.trans e2, f3.trans e3⟩

/-- With no more events of the yarn after the chain, its last one is the tip. -/
theorem walk_end {hs : Hashing} {id : Uuid} (hn : id.value = NEVER) : ∀ (os : List AOp) (m : OpMeta) (l : List AOp)
    (T : List AOp), l.map AOp.body = (os ++ T).map AOp.body → ChainedTo m.id os → m.id.origin = id.origin →
    (∀ o ∈ os ++ T, o.id ≠ id) → (∀ t ∈ T, t.id.origin ≠ id.origin) →
    ∃ m', walkChain hs id m l = some (Status.OK, m') ∧ m'.id = lastOf m.id os ∧ m'.rdt = m.rdt ∧
      m'.object = m.object := by
  intro os
  induction os with
  | nil =>
    intro m l T hl _ _ hx hT
    clear hx
    rw [List.nil_append] at hl
    refine ⟨m, ?_, rfl, rfl, rfl⟩
    induction l generalizing T with
    | nil => unfold walkChain; rw [if_pos hn]
    | cons p l ih =>
      match T, hl with
      | t :: T, hl =>
        rw [List.map_cons, List.map_cons] at hl
        obtain ⟨hp, hl⟩ := List.cons.inj hl
        unfold walkChain
        rw [if_pos (by rw [Rdt.body_id hp]; exact hT t List.mem_cons_self)]
        exact ih T hl (fun t ht => hT t (List.mem_cons_of_mem _ ht))
  | cons o os ih =>
    intro m l T hl hc ho hx hT
    obtain ⟨-, h2, h3, h4, h5⟩ := hc
    match l, hl with
    | p :: l, hl =>
      rw [List.cons_append, List.map_cons, List.map_cons] at hl
      obtain ⟨hp, hl⟩ := List.cons.inj hl
      have hpid : p.id = o.id := Rdt.body_id hp
      have hpref : p.ref = o.ref := congrArg (fun b : Uuid × Uuid × List AVal => b.2.1) hp
      obtain ⟨m', e, e1, e2, e3⟩ := next_some (hs := hs) (m := m) (o := p) (by rw [hpid, h2])
        (by rw [hpid]; exact (Uuid.lt_same h2.symm).1 h3)
      unfold walkChain
      rw [if_neg (by rw [hpid, h2, ho]; simp), if_neg (by rw [hpref, h4]; simp), e, Option.bind_some, if_neg (by
        rw [e1, hpid]; exact hx o (by simp))]
      obtain ⟨m2, f, f1, f2, f3⟩ := ih m' l T hl (by rw [e1, hpid]; exact h5) (by rw [e1, hpid, h2, ho])
        (fun q hq => hx q (by simp at hq ⊢; exact Or.inr hq)) hT
      exact ⟨m2, f, by rw [f1, e1, hpid]; exact lastOf_cons, f2.trans e2, f3.trans e3⟩

/-- An event that is not in the log is not found. -/
theorem walk_none {hs : Hashing} {id : Uuid} (hn : id.value ≠ NEVER) : ∀ (l : List AOp) (m : OpMeta),
    m.id.origin = id.origin → (∀ o ∈ l, o.id.origin = id.origin → m.id.value.toNat < o.id.value.toNat) →
    l.Pairwise (fun a b => a.id.origin = id.origin → b.id.origin = id.origin → a.id.value.toNat < b.id.value.toNat) →
    (∀ o ∈ l, o.id ≠ id) → ∃ m', walkChain hs id m l = some (Status.NOT_FOUND, m') := by
  intro l
  induction l with
  | nil => intro m _ _ _ _; exact ⟨m, by unfold walkChain; rw [if_neg hn]⟩
  | cons o l ih =>
    intro m ho h1 h2 h3
    obtain ⟨h2a, h2⟩ := List.pairwise_cons.1 h2
    unfold walkChain
    split
    · exact ih m ho (fun q hq => h1 q (List.mem_cons_of_mem _ hq)) h2 (fun q hq => h3 q (List.mem_cons_of_mem _ hq))
    · rename_i hoo
      have hoo : o.id.origin = id.origin := by simpa using hoo
      split
      · exact ⟨m, rfl⟩
      · obtain ⟨m', e, e1, -, -⟩ := next_some (hs := hs) (m := m) (o := o) (by rw [hoo, ho])
          (h1 o List.mem_cons_self hoo)
        rw [e, Option.bind_some, if_neg (by rw [e1]; exact h3 o List.mem_cons_self)]
        exact ih m' (by rw [e1]; exact hoo) (fun q hq hq' => by rw [e1]; exact h2a q hq hoo hq') h2
          (fun q hq => h3 q (List.mem_cons_of_mem _ hq))

/-- Other yarns do not matter. -/
theorem walk_filter {hs : Hashing} {id : Uuid} : ∀ (l : List AOp) (m : OpMeta),
    walkChain hs id m l = walkChain hs id m (l.filter fun o => decide (o.id.origin = id.origin)) := by
  intro l
  induction l with
  | nil => intro m; rfl
  | cons o l ih =>
    intro m
    by_cases h : o.id.origin = id.origin
    · rw [List.filter_cons_of_pos (by simp [h])]
      unfold walkChain
      simp only [h, ne_eq, not_true_eq_false, if_false]
      split
      · rfl
      · congr 1
        funext m'
        rw [ih]
    · rw [List.filter_cons_of_neg (by simp [h]), ← ih]
      conv => lhs; unfold walkChain
      rw [if_pos h]

theorem drop_to {x : AOp} {Q : List AOp} {y : Word} (hy : x.id.origin = y) : ∀ {l P : List AOp},
    (l.filter fun o => decide (o.id.origin = y)).map AOp.body = (P ++ x :: Q).map AOp.body →
    (∀ p ∈ P, p.id ≠ x.id) → ∃ o l2, (l.dropWhile fun o => decide (o.id ≠ x.id)) = o :: l2 ∧
      (l2.filter fun o => decide (o.id.origin = y)).map AOp.body = Q.map AOp.body := by
  intro l
  induction l with
  | nil => intro P hl _; simp at hl
  | cons o l ih =>
    intro P hl hP
    by_cases ho : o.id.origin = y
    · rw [List.filter_cons_of_pos (by simp [ho])] at hl
      match P, hP, hl with
      | [], _, hl =>
        rw [List.nil_append, List.map_cons, List.map_cons] at hl
        obtain ⟨h1, h2⟩ := List.cons.inj hl
        exact ⟨o, l, by rw [List.dropWhile_cons_of_neg (by simp [Rdt.body_id h1])], h2⟩
      | p :: P, hP, hl =>
        rw [List.cons_append, List.map_cons, List.map_cons] at hl
        obtain ⟨h1, h2⟩ := List.cons.inj hl
        rw [List.dropWhile_cons_of_pos (by
          have := hP p List.mem_cons_self
          rw [Rdt.body_id h1]
          simp [this])]
        exact ih h2 fun q hq => hP q (List.mem_cons_of_mem _ hq)
    · rw [List.filter_cons_of_neg (by simp [ho])] at hl
      rw [List.dropWhile_cons_of_pos (by
        simp only [decide_eq_true_eq]
        intro e
        exact ho (by rw [e, hy]))]
      exact ih hl hP

/-- The log of an object, from a chain of it on: the events of the yarn. -/
theorem log_after (L : Lineage (H ++ F)) (M : Mid wh H F note c) (hv : env.mg = Rdt.mergeCursors v) {d : Chain}
    (hd : d ∈ H ++ F) (hj : Joint H F d.object) :
    ∃ A B l c' o l2 T, H ++ F = A ++ d :: B ∧
      read env c (Key.mk' d.object Form.LOG) [] = some (Status.OK, l, c') ∧ Mid wh H F note c' ∧
      (l.dropWhile fun o => decide (o.id ≠ d.head.id)) = o :: l2 ∧
      (l2.filter fun o => decide (o.id.origin = d.head.id.origin)).map AOp.body = (d.rest ++ T).map AOp.body ∧
      T = ((B.filter fun e => decide (e.object = d.object)).flatMap Chain.ops).filter
        (fun o => decide (o.id.origin = d.head.id.origin)) := by
  have S := L.sound
  obtain ⟨A, B, e⟩ := List.append_of_mem hd
  obtain ⟨l, c', hl, M', hb⟩ := log_read L M hv hd hj
  have hb := hb d.head.id.origin
  have hself : (d.rest.filter fun o => decide (o.id.origin = d.head.id.origin)) = d.rest := by
    rw [List.filter_eq_self]
    intro o ho
    simp only [decide_eq_true_eq]
    exact ((S.proper d hd).mem (List.mem_cons_of_mem _ ho)).1
  rw [e] at hb
  unfold logOf at hb
  rw [List.filter_append, List.filter_cons_of_pos (by simp), List.flatMap_append, List.flatMap_cons, List.filter_append] at hb
  unfold Chain.ops at hb
  rw [List.cons_append, List.filter_cons_of_pos (by simp), List.filter_append, hself] at hb
  obtain ⟨o, l2, h1, h2⟩ := drop_to rfl hb (by
    intro p hp e'
    obtain ⟨hp, -⟩ := List.mem_filter.1 hp
    obtain ⟨x, hx, hp⟩ := List.mem_flatMap.1 hp
    have hxA := (List.mem_filter.1 hx).1
    have ho := L.order
    rw [e] at ho
    have hbef := (List.pairwise_append.1 ho).2.2 x hxA d List.mem_cons_self
    have hm := (S.proper x (by rw [e]; exact List.mem_append_left _ hxA)).mem hp
    have := hbef (by rw [← hm.1, e']) p hp
    rw [e'] at this
    omega)
  exact ⟨A, B, l, c', o, l2, _, e, hl, M', h1, h2, rfl⟩

/-! ### Finding -/

theorem findOpMeta_has (L : Lineage (H ++ F)) (M : Mid wh H F note c) (hv : env.mg = Rdt.mergeCursors v) {d : Chain}
    (hd : d ∈ H ++ F) {id : Uuid} (hi : d.Has id) (hc : Clear H F id) :
    ∃ m c', findOpMeta env c id = some (Status.OK, m, c') ∧ Mid wh H F note c' ∧ m.id = id ∧ m.object = d.object ∧
      m.rdt = d.rdt := by
  have S := L.sound
  have hst : Stamp id := L.known ⟨d, hd, hi⟩
  have hm : d.head.id.origin = id.origin ∧ d.head.id.value.toNat ≤ id.value.toNat := by
    obtain ⟨o, ho, rfl⟩ := hi
    have := (S.proper d hd).mem ho
    exact ⟨this.1.symm, this.2.1⟩
  have hat : At (H ++ F) id d := by
    refine ⟨hd, hm.1, hm.2, fun e he heo hev => ?_⟩
    apply Nat.le_of_not_lt
    intro hlt
    have := S.only he hd (heo.trans hm.1.symm) hi (Nat.le_of_lt hlt) hev
    rw [this] at hlt
    omega
  rcases head_spec L M hv hst.event with ⟨d', ha, h4⟩ | ⟨h1, -⟩
  · have := ha.unique L hat
    subst this
    unfold findOpMeta
    rw [h4, Option.bind_some]
    simp only
    rw [if_neg (by decide)]
    by_cases hid : d'.head.id = id
    · rw [if_pos (show (headOf d').id = id from hid)]
      exact ⟨_, c, rfl, M, hid, rfl, rfl⟩
    · rw [if_neg (show ¬ (headOf d').id = id from hid)]
      have hj : Joint H F d'.object := by
        rcases hc with ⟨x, hx, h⟩ | ⟨h, -⟩
        · have := hx.unique L hat
          subst this
          exact h.resolve_left hid
        · exact absurd hat (h _)
      obtain ⟨A, B, l, c', o, l2, T, -, hread, M', h5, h6, -⟩ := log_after L M hv hd hj
      rw [show (headOf d').object = d'.object from rfl, hread, Option.bind_some]
      simp only
      rw [if_neg (by decide), show (headOf d').id = d'.head.id from rfl, h5]
      simp only
      have hx : ∃ x ∈ d'.rest, x.id = id := by
        obtain ⟨x, hx, hxi⟩ := hi
        rcases List.mem_cons.1 hx with rfl | hx
        · exact absurd hxi hid
        · exact ⟨x, hx, hxi⟩
      rw [walk_filter, ← hm.1]
      obtain ⟨m, e, e1, e2, e3⟩ := walk_found (hs := env.hs) d'.rest (headOf d') _ T h6 (S.proper d' hd).chained hm.1 hx
      rw [e]
      exact ⟨m, c', rfl, M', e1, e3, e2⟩
  · exact absurd hat (h1 _)

theorem findOpMeta_not (L : Lineage (H ++ F)) (M : Mid wh H F note c) (hv : env.mg = Rdt.mergeCursors v) {id : Uuid}
    (hst : Stamp id) (hk : ¬ Spec.Known (H ++ F) id) (hc : Clear H F id) :
    ∃ m c', findOpMeta env c id = some (Status.NOT_FOUND, m, c') ∧ Mid wh H F note c' := by
  have S := L.sound
  have hnot : ∀ c ∈ H ++ F, ∀ o ∈ c.ops, o.id ≠ id := fun c hc o ho e => hk ⟨c, hc, o, ho, e⟩
  rcases head_spec L M hv hst.event with ⟨d, ha, h4⟩ | ⟨h1, h2⟩
  · have hd := ha.mem
    have hyo := ha.yarn
    unfold findOpMeta
    rw [h4, Option.bind_some]
    simp only
    rw [if_neg (by decide)]
    rw [if_neg (show ¬ (headOf d).id = id from hnot d hd d.head List.mem_cons_self)]
    have hj : Joint H F d.object := by
      rcases hc with ⟨x, hx, h⟩ | ⟨h, -⟩
      · have := hx.unique L ha
        subst this
        exact h.resolve_left (hnot x hd x.head List.mem_cons_self)
      · exact absurd ha (h _)
    obtain ⟨A, B, l, c', o, l2, T, e, hread, M', h5, h6, hT⟩ := log_after L M hv hd hj
    rw [show (headOf d).object = d.object from rfl, hread, Option.bind_some]
    simp only
    rw [if_neg (by decide), show (headOf d).id = d.head.id from rfl, h5]
    simp only
    have hBH : ∀ c ∈ B, c ∈ H ++ F := fun c hc => by rw [e]; simp [hc]
    have hord : (d :: B).Pairwise Lineage.Before := by
      have := L.order
      rw [e] at this
      exact (List.pairwise_append.1 this).2.1
    generalize hG : (B.filter fun d' => decide (d'.object = d.object)) = G at hT
    have hGB : ∀ c ∈ G, c ∈ B := fun c hc => by rw [← hG] at hc; exact (List.mem_filter.1 hc).1
    have hGp : G.Pairwise Lineage.Before := by
      rw [← hG]
      exact List.Pairwise.filter _ (List.pairwise_cons.1 hord).2
    have hdG : ∀ c ∈ G, Lineage.Before d c := fun c hc => (List.pairwise_cons.1 hord).1 c (hGB c hc)
    have hpd := S.proper d hd
    have hTm : ∀ t ∈ T, ∃ c ∈ G, t ∈ c.ops := by
      intro t ht
      rw [hT] at ht
      exact List.mem_flatMap.1 (List.mem_filter.1 ht).1
    rw [walk_filter, ← hyo]
    generalize (l2.filter fun o => decide (o.id.origin = d.head.id.origin)) = l3 at h6
    obtain ⟨m, e⟩ := walk_none (hs := env.hs) (id := id) (by intro e; have := hst.1; rw [e] at this; omega) l3 (headOf d) hyo
      (by
        intro x hx hxo
        obtain ⟨y, hy, hyb⟩ := Rdt.mem_body h6 hx
        rw [← Rdt.body_id hyb] at hxo ⊢
        show d.head.id.value.toNat < _
        rcases List.mem_append.1 hy with hy | hy
        · exact (chained_mem hpd.chained y hy).2.1
        · obtain ⟨c, hc, hy⟩ := hTm y hy
          have hm := (S.proper c (hBH c (hGB c hc))).mem hy
          have := hdG c hc (by rw [hyo, ← hxo, hm.1]) d.head List.mem_cons_self
          omega)
      (by
        have hids : l3.map AOp.id = (d.rest ++ T).map AOp.id := by
          have := congrArg (List.map fun b : Uuid × Uuid × List AVal => b.1) h6
          rw [List.map_map, List.map_map] at this
          exact this
        suffices h : (d.rest ++ T).Pairwise fun a b => a.id.origin = id.origin →
            b.id.origin = id.origin → a.id.value.toNat < b.id.value.toNat by
          have h' : ((d.rest ++ T).map AOp.id).Pairwise fun a b => a.origin = id.origin →
            b.origin = id.origin → a.value.toNat < b.value.toNat := List.pairwise_map.2 h
          rw [← hids] at h'
          exact List.pairwise_map.1 h'
        refine List.pairwise_append.2 ⟨?_, ?_, ?_⟩
        · have := (List.pairwise_cons.1 (chain_sorted hpd.chained)).2
          exact this.imp fun {a b} hab h1 h2 => (Uuid.lt_same (h1.trans h2.symm)).1 hab
        · rw [hT]
          refine List.Pairwise.filter _ ?_
          rw [List.pairwise_flatMap]
          refine ⟨fun c hc => ?_, ?_⟩
          · have := chain_sorted (S.proper c (hBH c (hGB c hc))).chained
            exact this.imp fun {a b} hab h1 h2 => (Uuid.lt_same (h1.trans h2.symm)).1 hab
          · refine List.Pairwise.imp_of_mem ?_ hGp
            intro a b ha hb hab x hx y hy hxo hyo
            have ma := (S.proper a (hBH a (hGB a ha))).mem hx
            have mb := (S.proper b (hBH b (hGB b hb))).mem hy
            have := hab (by rw [← ma.1, ← mb.1, hxo, hyo]) x hx
            omega
        · intro x hx y hy hxo hyo
          obtain ⟨c, hc, hy⟩ := hTm y hy
          have ma := hpd.mem (List.mem_cons_of_mem _ hx)
          have mb := (S.proper c (hBH c (hGB c hc))).mem hy
          have := hdG c hc (by rw [← ma.1, ← mb.1, hxo, hyo]) x (List.mem_cons_of_mem _ hx)
          omega)
      (by
        intro x hx
        obtain ⟨y, hy, hyb⟩ := Rdt.mem_body h6 hx
        rw [← Rdt.body_id hyb]
        rcases List.mem_append.1 hy with hy | hy
        · exact hnot d hd y (List.mem_cons_of_mem _ hy)
        · obtain ⟨c, hc, hy⟩ := hTm y hy
          exact hnot c (hBH c (hGB c hc)) y hy)
    rw [e]
    exact ⟨m, c', rfl, M'⟩
  · have hj : ∀ obj, Joint H F obj := by
      rcases hc with ⟨x, hx, -⟩ | ⟨-, h⟩
      · exact absurd hx (h1 x)
      · exact h
    unfold findOpMeta
    rw [h2 hj, Option.bind_some]
    exact ⟨_, c, rfl, M⟩

theorem yarn_unknown (L : Lineage (H ++ F)) (M : Mid wh H F note c) (hv : env.mg = Rdt.mergeCursors v) {y : Word}
    (hy : y.toNat / 2 ^ 60 = 2) (hk : ∀ i, Spec.Known (H ++ F) i → i.origin ≠ y) (hc : Clear H F ⟨NEVER, y⟩) :
    findYarnTipMeta env c y = some (Status.NOT_FOUND, OpMeta.nil, c) := by
  unfold findYarnTipMeta
  rcases head_spec L M hv (event_never hy) with ⟨d, ha, -⟩ | ⟨h1, h2⟩
  · exact absurd ha.yarn (hk _ ⟨d, ha.mem, d.head, List.mem_cons_self, rfl⟩)
  · have hj : ∀ obj, Joint H F obj := by
      rcases hc with ⟨x, hx, -⟩ | ⟨-, h⟩
      · exact absurd hx (h1 x)
      · exact h
    unfold findOpMeta
    rw [h2 hj, Option.bind_some]
    rfl

/-- Of a known yarn there is a last chain. -/
theorem yarn_at (L : Lineage H) {y : Word} {i : Uuid} (hi : Spec.Known H i) (hy : i.origin = y) :
    ∃ d, At H ⟨NEVER, y⟩ d := by
  obtain ⟨c, hc, x, hx, rfl⟩ := hi
  have hco : c.head.id.origin = y := by rw [← ((L.proper c hc).mem hx).1]; exact hy
  have hle : ∀ e ∈ H, e.head.id.value.toNat ≤ (⟨NEVER, y⟩ : Uuid).value.toNat := fun e he => Nat.le_of_lt (L.proper e he).stamp.1
  have gen : ∀ (G : List Chain), (∀ e ∈ G, e ∈ H) → c ∈ G → ∃ d ∈ G, d.head.id.origin = y ∧
      ∀ e ∈ G, e.head.id.origin = y → e.head.id.value.toNat ≤ d.head.id.value.toNat := by
    intro G
    have all : ∀ G : List Chain, (∃ d ∈ G, d.head.id.origin = y ∧
        ∀ e ∈ G, e.head.id.origin = y → e.head.id.value.toNat ≤ d.head.id.value.toNat) ∨ ∀ d ∈ G, d.head.id.origin ≠ y := by
      intro G
      induction G with
      | nil => exact Or.inr fun d hd => by cases hd
      | cons g G ih =>
        by_cases hg : g.head.id.origin = y
        · left
          rcases ih with ⟨d, hd, h1, h2⟩ | h
          · by_cases hgd : g.head.id.value.toNat ≤ d.head.id.value.toNat
            · refine ⟨d, List.mem_cons_of_mem _ hd, h1, fun e he heo => ?_⟩
              rcases List.mem_cons.1 he with rfl | he
              · exact hgd
              · exact h2 e he heo
            · refine ⟨g, List.mem_cons_self, hg, fun e he heo => ?_⟩
              rcases List.mem_cons.1 he with rfl | he
              · exact Nat.le_refl _
              · have := h2 e he heo
                omega
          · refine ⟨g, List.mem_cons_self, hg, fun e he heo => ?_⟩
            rcases List.mem_cons.1 he with rfl | he
            · exact Nat.le_refl _
            · exact absurd heo (h e he)
        · rcases ih with ⟨d, hd, h1, h2⟩ | h
          · left
            refine ⟨d, List.mem_cons_of_mem _ hd, h1, fun e he heo => ?_⟩
            rcases List.mem_cons.1 he with rfl | he
            · exact absurd heo hg
            · exact h2 e he heo
          · right
            intro d hd
            rcases List.mem_cons.1 hd with rfl | hd
            · exact hg
            · exact h d hd
    intro _ hcG
    rcases all G with h | h
    · exact h
    · exact absurd hco (h c hcG)
  obtain ⟨d, hd, h1, h2⟩ := gen H (fun _ h => h) hc
  exact ⟨d, hd, h1, hle d hd, fun e he heo _ => h2 e he heo⟩

theorem yarn_known (L : Lineage (H ++ F)) (M : Mid wh H F note c) (hv : env.mg = Rdt.mergeCursors v) {y : Word}
    {i : Uuid} (hi : Spec.Known (H ++ F) i) (hy : i.origin = y) (hc : Clear H F ⟨NEVER, y⟩) :
    ∃ m d c', d ∈ H ++ F ∧ findYarnTipMeta env c y = some (Status.OK, m, c') ∧ Mid wh H F note c' ∧ d.Has m.id ∧
      m.id.origin = y ∧ (∀ j, Spec.Known (H ++ F) j → j.origin = y → j.value.toNat ≤ m.id.value.toNat) ∧
      m.object = d.object ∧ m.rdt = d.rdt := by
  have S := L.sound
  have hyf : y.toNat / 2 ^ 60 = 2 := by rw [← hy]; exact (L.known hi).2
  obtain ⟨d0, hd0⟩ := yarn_at L hi hy
  unfold findYarnTipMeta
  rcases head_spec L M hv (event_never hyf) with ⟨d, ha, h4⟩ | ⟨h1, -⟩
  · have hd := ha.mem
    have h1 : d.head.id.origin = y := ha.yarn
    have h3 := ha.last
    have hpd := S.proper d hd
    have hlast := lastOf_mem d.head d.rest
    have hgreat : ∀ j, Spec.Known (H ++ F) j → j.origin = y → j.value.toNat ≤ (lastOf d.head.id d.rest).value.toNat := by
      rintro j ⟨c, hc, x, hx, rfl⟩ hj
      have hm := (S.proper c hc).mem hx
      have hcd : c.head.id.value.toNat ≤ d.head.id.value.toNat :=
        h3 c hc (by rw [← hm.1]; exact hj) (Nat.le_of_lt (S.proper c hc).stamp.1)
      by_cases hle : d.head.id.value.toNat ≤ x.id.value.toNat
      · have : d = c := S.only hd hc (h1.trans (by rw [← hm.1]; exact hj.symm)) ⟨x, hx, rfl⟩ hcd hle
        subst this
        exact hm.2.2.1
      · have := (hpd.mem (List.mem_cons_self (a := d.head) (l := d.rest))).2.2.1
        omega
    have hnever : ∀ c ∈ H ++ F, ∀ x ∈ c.ops, x.id ≠ ⟨NEVER, y⟩ := by
      intro c hc x hx e
      have := ((S.proper c hc).mem hx).2.2.2.1
      rw [e] at this
      simp only at this
      omega
    have hj : Joint H F d.object := by
      rcases hc with ⟨x, hx, h⟩ | ⟨h, -⟩
      · have := hx.unique L ha
        subst this
        exact h.resolve_left (hnever x hd x.head List.mem_cons_self)
      · exact absurd ha (h _)
    unfold findOpMeta
    rw [h4, Option.bind_some]
    simp only
    rw [if_neg (by decide), if_neg (show ¬ (headOf d).id = ⟨NEVER, y⟩ from hnever d hd d.head List.mem_cons_self)]
    obtain ⟨A, B, l, c', o, l2, T, e, hread, M', h5, h6, hT⟩ := log_after L M hv hd hj
    rw [show (headOf d).object = d.object from rfl, hread, Option.bind_some]
    simp only
    rw [if_neg (by decide), show (headOf d).id = d.head.id from rfl, h5]
    simp only
    have hBH : ∀ c ∈ B, c ∈ H ++ F := fun c hc => by rw [e]; simp [hc]
    have hord : (d :: B).Pairwise Lineage.Before := by
      have := L.order
      rw [e] at this
      exact (List.pairwise_append.1 this).2.1
    have hTm : ∀ t ∈ T, ∃ c ∈ B, t ∈ c.ops := by
      intro t ht
      rw [hT] at ht
      obtain ⟨c, hc, ht⟩ := List.mem_flatMap.1 (List.mem_filter.1 ht).1
      exact ⟨c, (List.mem_filter.1 hc).1, ht⟩
    rw [walk_filter]
    rw [h1] at h6
    obtain ⟨m, e, e1, e2, e3⟩ := walk_end (hs := env.hs) (id := ⟨NEVER, y⟩) rfl d.rest (headOf d) _ T h6 hpd.chained h1
      (by
        intro x hx
        rcases List.mem_append.1 hx with hx | hx
        · exact hnever d hd x (List.mem_cons_of_mem _ hx)
        · obtain ⟨c, hc, hx⟩ := hTm x hx
          exact hnever c (hBH c hc) x hx)
      (by
        intro x hx hxo
        obtain ⟨c, hc, hx⟩ := hTm x hx
        have hm := (S.proper c (hBH c hc)).mem hx
        have hco : c.head.id.origin = y := by rw [← hm.1]; exact hxo
        have h7 := (List.pairwise_cons.1 hord).1 c hc (h1.trans hco.symm) d.head List.mem_cons_self
        have h8 := h3 c (hBH c hc) hco (Nat.le_of_lt (S.proper c (hBH c hc)).stamp.1)
        omega)
    rw [e]
    have e1 : m.id = lastOf d.head.id d.rest := e1
    refine ⟨m, d, c', hd, rfl, M', ?_, ?_, ?_, e3, e2⟩
    · rw [e1]; exact hlast
    · rw [e1, (chained_last d.rest d.head.id hpd.chained).1]; exact h1
    · rw [e1]; exact hgreat
  · exact absurd hd0 (h1 _)

end Commit
end Ron
