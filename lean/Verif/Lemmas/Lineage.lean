import Verif.Lemmas.ChainReceive
import Verif.Spec.Lineage
import Verif.Props.Store
import Verif.Props.Key
/-!
What is found in a store that holds a history of chains.
-/
namespace Ron
open Spec

/-! ### Ids -/

theorem never_nat : NEVER.toNat = 63 * 2 ^ 54 := by decide

theorem Spec.Stamp.event {i : Uuid} (h : Stamp i) : Props.IsEvent i := by
  have := h.1
  rw [never_nat] at this
  exact ⟨by omega, h.2⟩

theorem Spec.Stamp.time {i : Uuid} (h : Stamp i) : i.version = Uuid.vTIME := by
  unfold Uuid.version Word.flags
  rw [h.2]
  rfl

theorem Uuid.lt_same {a b : Uuid} (h : a.origin = b.origin) : Uuid.lt a b = true ↔ a.value.toNat < b.value.toNat := by
  unfold Uuid.lt
  simp only [h, Bool.or_eq_true, decide_eq_true_eq, Bool.and_eq_true, ← BitVec.toNat_inj]
  omega

theorem Uuid.ext_same {a b : Uuid} (h : a.origin = b.origin) (hv : a.value.toNat = b.value.toNat) : a = b := by
  cases a; cases b
  rw [BitVec.toNat_inj] at hv
  simp only at h hv
  rw [h, hv]

theorem event_never {y : Word} (h : y.toNat / 2 ^ 60 = 2) : Props.IsEvent ⟨NEVER, y⟩ :=
  ⟨by simp only [never_nat]; decide, h⟩

/-- Keys of events of a yarn are in the order of the events. -/
theorem key_lt_same {a b : Uuid} {f : Form} (ha : Props.IsEvent a) (hb : Props.IsEvent b) (h : a.origin = b.origin) :
    (Key.mk' a f).lt (Key.mk' b f) = true ↔ a.value.toNat < b.value.toNat := by
  rw [Props.C09_key_order]
  have := ha.value
  have := hb.value
  rw [h, Nat.mod_eq_of_lt ha.value, Nat.mod_eq_of_lt hb.value]
  simp [lexNat]

/-! ### Chains -/

theorem chained_mem : ∀ {os : List AOp} {p : Uuid}, ChainedTo p os → ∀ o ∈ os,
    o.id.origin = p.origin ∧ p.value.toNat < o.id.value.toNat ∧ o.id.value.toNat ≤ (lastOf p os).value.toNat := by
  intro os
  induction os with
  | nil => intro p _ o ho; cases ho
  | cons q os ih =>
    intro p h o ho
    obtain ⟨-, h2, h3, -, h5⟩ := h
    have h3 := (Uuid.lt_same h2.symm).1 h3
    rw [← Commit.lastOf_cons]
    have hl := Commit.chained_last os q.id h5
    have hle : q.id.value.toNat ≤ (lastOf q.id os).value.toNat := by
      have := (not_congr (Uuid.lt_same hl.1)).1 (by rw [hl.2]; decide)
      omega
    rcases List.mem_cons.1 ho with rfl | ho
    · exact ⟨h2, h3, hle⟩
    · obtain ⟨i1, i2, i3⟩ := ih h5 o ho
      exact ⟨i1.trans h2, by omega, i3⟩

theorem lastOf_mem (o : AOp) (os : List AOp) : ∃ x ∈ o :: os, x.id = lastOf o.id os := by
  unfold lastOf
  cases h : os.getLast? with
  | none => exact ⟨o, List.mem_cons_self, rfl⟩
  | some x => exact ⟨x, List.mem_cons_of_mem _ (List.mem_of_getLast? h), rfl⟩

namespace Spec.Proper
variable {o : AOp} {os : List AOp}

theorem mem (h : Proper o os) {x : AOp} (hx : x ∈ o :: os) : x.id.origin = o.id.origin ∧
    o.id.value.toNat ≤ x.id.value.toNat ∧ x.id.value.toNat ≤ (lastOf o.id os).value.toNat ∧ Stamp x.id := by
  have hl := Commit.chained_last os o.id h.chained
  have hle : o.id.value.toNat ≤ (lastOf o.id os).value.toNat := by
    have := (not_congr (Uuid.lt_same hl.1)).1 (by rw [hl.2]; decide)
    omega
  rcases List.mem_cons.1 hx with rfl | hx
  · exact ⟨rfl, Nat.le_refl _, hle, h.stamp⟩
  · obtain ⟨i1, i2, i3⟩ := chained_mem h.chained x hx
    have := h.last.1
    exact ⟨i1, by omega, i3, by omega, by rw [i1]; exact h.stamp.2⟩
end Spec.Proper

theorem types_form {f : Form} (h : f ∈ types) : f ≠ Form.ZERO ∧ f ≠ Form.LOG ∧ f ≠ Form.META ∧ f ≠ Form.ERROR := by
  have : ∀ f ∈ types, f ≠ Form.ZERO ∧ f ≠ Form.LOG ∧ f ≠ Form.META ∧ f ≠ Form.ERROR := by decide
  exact this f h

theorem types_low {f : Form} (h : f ∈ types) (hl : f.toNat < Form.META.toNat) : f = Form.YARN := by
  have : ∀ f ∈ types, f.toNat < Form.META.toNat → f = Form.YARN := by decide
  exact this f h hl

theorem ref_not_meta {o : AOp} {os : List AOp} (h : Proper o os) : o.ref ≠ formUuid Form.META := by
  intro e
  have h1 : uuid2form (formUuid Form.META) = Form.META := by decide +kernel
  have := h.type (by rw [e]; decide +kernel)
  rw [e, h1] at this
  revert this
  decide

theorem ops_not_meta {o : AOp} {os : List AOp} (h : Proper o os) : ∀ x ∈ o :: os, x.ref ≠ formUuid Form.META := by
  have key : ∀ (os : List AOp) (p : Uuid), Stamp p → ChainedTo p os → Stamp (lastOf p os) →
      ∀ x ∈ os, x.ref.version = Uuid.vTIME := by
    intro os
    induction os with
    | nil => intro p _ _ _ x hx; cases hx
    | cons q os ih =>
      intro p hp hc hl x hx
      have hm := chained_mem hc q List.mem_cons_self
      obtain ⟨-, h2, h3, h4, h5⟩ := hc
      rcases List.mem_cons.1 hx with rfl | hx
      · rw [h4]; exact hp.time
      · have hq : Stamp q.id := ⟨by have := hl.1; omega, by rw [h2]; exact hp.2⟩
        exact ih q.id hq h5 (by rw [Commit.lastOf_cons (p := p)]; exact hl) x hx
  intro x hx
  rcases List.mem_cons.1 hx with rfl | hx
  · exact ref_not_meta h
  · intro e
    have := key os o.id h.stamp h.chained h.last x hx
    rw [e] at this
    exact absurd this (by decide +kernel)

/-- A chain is in the order of its ids. -/
theorem chain_sorted : ∀ {os : List AOp} {o : AOp}, ChainedTo o.id os → IdSorted (o :: os) := by
  intro os
  induction os with
  | nil => intro o _; exact List.pairwise_singleton _ _
  | cons q os ih =>
    intro o h
    refine List.Pairwise.cons (fun x hx => ?_) (ih h.2.2.2.2)
    obtain ⟨h1, h2, -⟩ := chained_mem h x hx
    exact (Uuid.lt_same h1.symm).2 h2

/-! ### Histories -/

namespace Spec.Lineage
variable {H : List Chain}

theorem proper (h : Lineage H) : ∀ c ∈ H, Proper c.head c.rest := by
  induction h with
  | nil => intro c hc; cases hc
  | add _ hp _ ih =>
    intro c hc
    rcases List.mem_append.1 hc with hc | hc
    · exact ih c hc
    · rw [List.mem_singleton.1 hc]; exact hp

/-- What was known of a yarn is before what came later. -/
def Before (c d : Chain) : Prop := c.head.id.origin = d.head.id.origin → ∀ o ∈ c.ops, o.id.value.toNat < d.head.id.value.toNat

theorem order (h : Lineage H) : H.Pairwise Before := by
  induction h with
  | nil => exact List.Pairwise.nil
  | @add H c hl hp hf ih =>
    refine List.pairwise_append.2 ⟨ih, List.pairwise_singleton _ _, fun d hd e he => ?_⟩
    rw [List.mem_singleton.1 he]
    intro ho o ho'
    have hm := (hl.proper d hd).mem ho'
    have hk : Known H o.id := ⟨d, hd, o, ho', rfl⟩
    rcases hf.yarn with ⟨-, h2⟩ | ⟨-, -, h2⟩
    · exact absurd (hm.1.trans ho) (h2 _ hk)
    · exact (Uuid.lt_same (hm.1.trans ho)).1 (h2 _ hk (hm.1.trans ho))

theorem object (h : Lineage H) : ∀ c ∈ H, Stamp c.object ∧ uuid2form c.rdt ∈ types := by
  induction h with
  | nil => intro c hc; cases hc
  | add hl hp hf ih =>
    intro c hc
    rcases List.mem_append.1 hc with hc | hc
    · exact ih c hc
    · rw [List.mem_singleton.1 hc]
      rcases hf.cause with ⟨h1, h2, h3, h4⟩ | ⟨h1, -, d, hd, -, h3, h4⟩
      · rw [h3, h4]
        exact ⟨hp.stamp, (hp.type h1).resolve_left h2⟩
      · rw [h3, h4]; exact ih d hd

theorem known (h : Lineage H) {i : Uuid} (hi : Known H i) : Stamp i := by
  obtain ⟨c, hc, o, ho, rfl⟩ := hi
  exact ((h.proper c hc).mem ho).2.2.2

end Spec.Lineage

/-- What is known of every part of a history. -/
structure Spec.Sound (H : List Chain) : Prop where
  proper : ∀ c ∈ H, Proper c.head c.rest
  order : H.Pairwise Lineage.Before
  object : ∀ c ∈ H, Stamp c.object ∧ uuid2form c.rdt ∈ types

theorem Spec.Lineage.sound {H : List Chain} (h : Lineage H) : Sound H := ⟨h.proper, h.order, h.object⟩

namespace Spec.Sound
variable {H : List Chain}

theorem sub (h : Sound H) {G : List Chain} (hg : List.Sublist G H) : Sound G :=
  ⟨fun c hc => h.proper c (hg.subset hc), h.order.sublist hg, fun c hc => h.object c (hg.subset hc)⟩

theorem left {F : List Chain} (h : Sound (H ++ F)) : Sound H := h.sub (List.sublist_append_left _ _)
theorem right {F : List Chain} (h : Sound (H ++ F)) : Sound F := h.sub (List.sublist_append_right _ _)

/-- Two chains of a yarn with events `i` of one and the head of the other not after it: the head of the other is not
between. -/
theorem only (h : Sound H) {c d : Chain} (hc : c ∈ H) (hd : d ∈ H) (ho : c.head.id.origin = d.head.id.origin)
    {i : Uuid} (hi : d.Has i) (h1 : d.head.id.value.toNat ≤ c.head.id.value.toNat)
    (h2 : c.head.id.value.toNat ≤ i.value.toNat) : c = d := by
  have hp := h.order
  rw [List.pairwise_iff_getElem] at hp
  obtain ⟨m, hm, rfl⟩ := List.mem_iff_getElem.1 hc
  obtain ⟨n, hn, rfl⟩ := List.mem_iff_getElem.1 hd
  rcases Nat.lt_trichotomy m n with e | e | e
  · have := hp m n hm hn e ho _ List.mem_cons_self
    omega
  · subst e; rfl
  · obtain ⟨o, ho', rfl⟩ := hi
    have := hp n m hn hm e ho.symm o ho'
    omega

end Spec.Sound

theorem Spec.Lineage.only {H : List Chain} (h : Lineage H) {c d : Chain} (hc : c ∈ H) (hd : d ∈ H)
    (ho : c.head.id.origin = d.head.id.origin) {i : Uuid} (hi : d.Has i)
    (h1 : d.head.id.value.toNat ≤ c.head.id.value.toNat) (h2 : c.head.id.value.toNat ≤ i.value.toNat) : c = d :=
  h.sound.only hc hd ho hi h1 h2

end Ron
