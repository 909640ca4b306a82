import Verif.Lemmas.LineageRun
import Verif.Lemmas.Converge
/-!
Histories that have the same events.
-/
namespace Ron
open Spec

namespace Spec

/-- The events of a history as they came. -/
def eventsOf (H : List Chain) : List AOp := H.flatMap Chain.ops

theorem filter_events (p : Chain → Bool) : ∀ H : List Chain, (eventsOf (H.filter p)).Sublist (eventsOf H)
  | [] => List.Sublist.refl _
  | c :: H => by
    have ih := filter_events p H
    unfold eventsOf at *
    rw [List.filter_cons]
    split
    · rw [List.flatMap_cons, List.flatMap_cons]
      exact List.Sublist.append (List.Sublist.refl _) ih
    · rw [List.flatMap_cons]
      exact ih.trans (List.sublist_append_right _ _)

namespace Lineage
variable {H G : List Chain}

theorem ids (L : Lineage H) : (eventsOf H).Pairwise fun a b => a.id.origin = b.id.origin → Uuid.lt a.id b.id = true := by
  unfold eventsOf
  rw [List.flatMap, List.pairwise_flatten]
  constructor
  · intro l hl
    obtain ⟨c, hc, rfl⟩ := List.mem_map.1 hl
    refine List.Pairwise.imp (fun h _ => ?_) (chain_sorted (L.proper c hc).chained)
    exact h
  · rw [List.pairwise_map]
    refine List.Pairwise.imp_of_mem (fun {c d} hc hd hb a ha b hb' e => ?_) L.order
    have h1 := (L.proper c hc).mem ha
    have h2 := (L.proper d hd).mem hb'
    have h3 := hb (h1.1.symm.trans (e.trans h2.1)) a ha
    exact (Uuid.lt_same e).2 (by omega)

theorem nodup (L : Lineage H) : ((eventsOf H).map AOp.id).Nodup := by
  unfold List.Nodup
  rw [List.pairwise_map]
  refine List.Pairwise.imp (fun {a b} h e => ?_) L.ids
  have := (Uuid.lt_same (by rw [e])).1 (h (by rw [e]))
  rw [e] at this
  omega

theorem consistent (L : Lineage H) : Consistent (eventsOf H) := by
  intro a ha b hb e
  rw [ids_inj L.nodup a ha b hb e]

theorem mem_events {x : AOp} : x ∈ eventsOf H ↔ ∃ c ∈ H, x ∈ c.ops := List.mem_flatMap

theorem known_iff {i : Uuid} : Known H i ↔ ∃ x ∈ eventsOf H, x.id = i := by
  constructor
  · rintro ⟨c, hc, x, hx, e⟩
    exact ⟨x, mem_events.2 ⟨c, hc, hx⟩, e⟩
  · rintro ⟨x, hx, e⟩
    obtain ⟨c, hc, hx⟩ := mem_events.1 hx
    exact ⟨c, hc, x, hx, e⟩

theorem chained_refs : ∀ {os : List AOp} {o : AOp}, ChainedTo o.id os → ∀ x ∈ os,
    (∃ p ∈ o :: os, p.id = x.ref) ∧ Uuid.lt x.ref x.id = true := by
  intro os
  induction os with
  | nil => intro o _ x hx; cases hx
  | cons q os ih =>
    intro o h x hx
    rcases List.mem_cons.1 hx with rfl | hx
    · exact ⟨⟨o, List.mem_cons_self, h.2.2.2.1.symm⟩, by rw [h.2.2.2.1]; exact h.2.2.1⟩
    · obtain ⟨⟨p, hp, e⟩, h2⟩ := ih h.2.2.2.2 x hx
      exact ⟨⟨p, List.mem_cons_of_mem _ hp, e⟩, h2⟩

/-- Where an event gets its object from. -/
theorem cause (L : Lineage H) : ∀ c ∈ H, ∀ x ∈ c.ops,
    x.ref.version = Uuid.vNAME ∧ c.object = x.id ∧ c.rdt = x.ref ∨
    x.ref.version = Uuid.vTIME ∧ Uuid.lt x.ref x.id = true ∧ ∃ d ∈ H, d.Has x.ref ∧ c.object = d.object ∧ c.rdt = d.rdt := by
  induction L with
  | nil => intro c hc; cases hc
  | @add H c L P F ih =>
    intro d hd x hx
    rcases List.mem_append.1 hd with hd | hd
    · rcases ih d hd x hx with h | ⟨h1, h2, e, he, h3⟩
      · exact Or.inl h
      · exact Or.inr ⟨h1, h2, e, List.mem_append_left _ he, h3⟩
    · rw [List.mem_singleton.1 hd] at hx ⊢
      rcases List.mem_cons.1 hx with rfl | hx
      · rcases F.cause with ⟨h1, -, h2, h3⟩ | ⟨h1, h2, e, he, h3⟩
        · exact Or.inl ⟨h1, h2, h3⟩
        · exact Or.inr ⟨h1, h2, e, List.mem_append_left _ he, h3⟩
      · obtain ⟨⟨p, hp, e⟩, h2⟩ := chained_refs P.chained x hx
        refine Or.inr ⟨?_, h2, c, by simp, ⟨p, hp, e⟩, rfl, rfl⟩
        rw [← e]
        exact (P.mem hp).2.2.2.time

/-- The same events belong to the same objects. -/
theorem agree (L : Lineage H) (L' : Lineage G) (h : SameEvents (eventsOf H) (eventsOf G)) :
    ∀ (n : Nat) (i : Uuid), i.rank < n → ∀ c ∈ H, ∀ d ∈ G, c.Has i → d.Has i → c.object = d.object ∧ c.rdt = d.rdt := by
  intro n
  induction n with
  | zero => intro i hi; exact absurd hi (Nat.not_lt_zero _)
  | succ n ih =>
    intro i hi c hc d hd hci hdi
    obtain ⟨x, hx, ex⟩ := id hci
    obtain ⟨y, hy, ey⟩ := id hdi
    obtain ⟨y', hy', eb⟩ := (h x.body).1 ⟨x, mem_events.2 ⟨c, hc, hx⟩, rfl⟩
    have hid : y'.id = x.id := congrArg (fun b : Body => b.1) eb
    have hyy : y = y' := ids_inj L'.nodup y (mem_events.2 ⟨d, hd, hy⟩) y' hy' (by rw [ey, hid, ex])
    have href : y.ref = x.ref := by rw [hyy]; exact congrArg (fun b : Body => b.2.1) eb
    rcases L.cause c hc x hx with ⟨h1, h2, h3⟩ | ⟨h1, h2, e, he, h3, h4, h5⟩ <;>
      rcases L'.cause d hd y hy with ⟨g1, g2, g3⟩ | ⟨g1, g2, f, hf, g3, g4, g5⟩
    · rw [h2, h3, g2, g3, ex, ey, href]; exact ⟨rfl, rfl⟩
    · rw [href, h1] at g1; exact absurd g1 (by decide)
    · rw [href, h1] at g1; exact absurd g1 (by decide)
    · rw [h4, h5, g4, g5]
      rw [href] at g3
      have := Uuid.rank_lt h2
      rw [ex] at this
      exact ih x.ref (by omega) e he f hf h3 g3

theorem known_same (h : SameEvents (eventsOf H) (eventsOf G)) {i : Uuid} : Known H i ↔ Known G i := by
  rw [known_iff, known_iff]
  constructor
  · rintro ⟨x, hx, rfl⟩
    obtain ⟨y, hy, e⟩ := (h x.body).1 ⟨x, hx, rfl⟩
    exact ⟨y, hy, congrArg (fun b : Body => b.1) e⟩
  · rintro ⟨x, hx, rfl⟩
    obtain ⟨y, hy, e⟩ := (h x.body).2 ⟨x, hx, rfl⟩
    exact ⟨y, hy, congrArg (fun b : Body => b.1) e⟩

/-- What goes on from one goes on from the other. -/
theorem follows_same (L : Lineage H) (L' : Lineage G) (h : SameEvents (eventsOf H) (eventsOf G)) {c : Chain}
    (F : Follows H c) : Follows G c := by
  refine ⟨?_, ?_⟩
  · rcases F.yarn with ⟨h1, h2⟩ | ⟨h1, ⟨i, hi, ho⟩, h2⟩
    · exact Or.inl ⟨h1, fun i hi => h2 i ((known_same h).2 hi)⟩
    · exact Or.inr ⟨h1, ⟨i, (known_same h).1 hi, ho⟩, fun j hj => h2 j ((known_same h).2 hj)⟩
  · rcases F.cause with h1 | ⟨h1, h2, d, hd, h3, h4, h5⟩
    · exact Or.inl h1
    · obtain ⟨e, he, h6⟩ := (known_same h).1 ⟨d, hd, h3⟩
      obtain ⟨g1, g2⟩ := L.agree L' h _ _ (Nat.lt_succ_self _) d hd e he h3 h6
      exact Or.inr ⟨h1, h2, e, he, h6, h4.trans g1, h5.trans g2⟩

/-- The events of an object. -/
def _root_.Ron.Spec.eventsIn (H : List Chain) (obj : Uuid) : List AOp := eventsOf (H.filter fun c => decide (c.object = obj))

theorem mem_in {obj : Uuid} {x : AOp} : x ∈ eventsIn H obj ↔ ∃ c ∈ H, c.object = obj ∧ x ∈ c.ops := by
  unfold eventsIn
  rw [mem_events]
  constructor
  · rintro ⟨c, hc, hx⟩
    obtain ⟨h1, h2⟩ := List.mem_filter.1 hc
    exact ⟨c, h1, of_decide_eq_true h2, hx⟩
  · rintro ⟨c, hc, e, hx⟩
    exact ⟨c, List.mem_filter.2 ⟨hc, decide_eq_true e⟩, hx⟩

theorem in_same (L : Lineage H) (L' : Lineage G) (h : SameEvents (eventsOf H) (eventsOf G)) (obj : Uuid) (b : Body) :
    (∃ x ∈ eventsIn H obj, x.body = b) → ∃ x ∈ eventsIn G obj, x.body = b := by
  rintro ⟨x, hx, rfl⟩
  obtain ⟨c, hc, ho, hx⟩ := mem_in.1 hx
  obtain ⟨y, hy, e⟩ := (h x.body).1 ⟨x, mem_events.2 ⟨c, hc, hx⟩, rfl⟩
  obtain ⟨d, hd, hy⟩ := mem_events.1 hy
  refine ⟨y, mem_in.2 ⟨d, hd, ?_, hy⟩, e⟩
  have hid : y.id = x.id := congrArg (fun b : Body => b.1) e
  rw [← ho]
  exact (L.agree L' h _ _ (Nat.lt_succ_self _) c hc d hd ⟨x, hx, rfl⟩ ⟨y, hy, hid⟩).1.symm

/-- The events of an object are the same. -/
theorem objects_same (L : Lineage H) (L' : Lineage G) (h : SameEvents (eventsOf H) (eventsOf G)) (obj : Uuid) :
    SameEvents (eventsIn H obj) (eventsIn G obj) := fun b =>
  ⟨in_same L L' h obj b, in_same L' L (fun b => (h b).symm) obj b⟩

theorem in_nodup (L : Lineage H) (obj : Uuid) : ((eventsIn H obj).map AOp.id).Nodup := by
  refine List.Sublist.nodup ?_ L.nodup
  exact List.Sublist.map _ (filter_events _ H)

end Lineage
end Spec
end Ron
