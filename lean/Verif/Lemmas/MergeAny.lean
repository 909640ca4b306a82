import Verif.Lemmas.Rdt
/-!
Merging of arbitrary inputs, sorted or not: the loops end, stay inside the heap, emit only ops
of the inputs and drop an op only after an op with the same id.
-/
namespace Ron
namespace Heap
variable {α : Type} {lt same : α → α → Bool}

theorem nextFrom_any (o : Order lt) (x : α) : ∀ (fuel : Nat) (h : List (Cur α)),
    h ≠ [] → total h < fuel → IsHeap lt h → (∀ c t, h = c :: t → same c.1 x = true) →
    ∃ h' skipped, nextFrom lt same x fuel h = some h' ∧ IsHeap lt h' ∧
      (skipped ++ flat h').Perm (flat h) ∧ (∀ y ∈ skipped, same y x = true) ∧ skipped ≠ [] := by
  intro fuel
  induction fuel with
  | zero => intro h _ hf; omega
  | succ fuel ih =>
    intro h hne hf hh hfront
    cases h with
    | nil => exact absurd rfl hne
    | cons c t =>
      obtain ⟨h1, e1, s1⟩ := step_spec o hh
      have hlen := s1.flat.length_eq
      rw [List.length_cons, flat_length, flat_length] at hlen
      unfold nextFrom
      rw [e1]
      simp only [Option.bind_some]
      have hc := hfront c t rfl
      cases h1 with
      | nil =>
        exact ⟨[], [c.1], rfl, s1.heap, s1.flat, by simpa using hc, by simp⟩
      | cons c1 t1 =>
        simp only
        cases hsm : same c1.1 x with
        | true =>
          simp only [if_true]
          obtain ⟨h', sk, e2, a1, a3, a4, a5⟩ := ih (c1 :: t1) (by simp) (by omega) s1.heap
            (by intro c' t' e; cases e; exact hsm)
          refine ⟨h', c.1 :: sk, e2, a1, (a3.cons _).trans s1.flat, ?_, by simp⟩
          intro y hy
          simp only [List.mem_cons] at hy
          rcases hy with rfl | hy
          · exact hc
          · exact a4 y hy
        | false =>
          simp only [Bool.false_eq_true, if_false]
          exact ⟨c1 :: t1, [c.1], rfl, s1.heap, s1.flat, by simpa using hc, by simp⟩

theorem drain_any (o : Order lt) (hr : ∀ x, same x x = true) : ∀ (fuel : Nat) (h : List (Cur α)),
    total h < fuel → IsHeap lt h →
    ∃ out, drain lt same fuel h = some out ∧ (∀ x ∈ out, x ∈ flat h) ∧
      ∀ y ∈ flat h, ∃ x ∈ out, same y x = true := by
  intro fuel
  induction fuel with
  | zero => intro h hf; omega
  | succ fuel ih =>
    intro h hf hh
    cases h with
    | nil => exact ⟨[], rfl, by simp, by simp [flat]⟩
    | cons c t =>
      obtain ⟨h', sk, e, a1, a3, a4, a5⟩ := nextFrom_any (same := same) o c.1 (total (c :: t) + 1)
        (c :: t) (by simp) (by omega) hh (by intro c' t' e; cases e; exact hr _)
      have hlen := a3.length_eq
      rw [List.length_append, flat_length, flat_length] at hlen
      have hpos : 0 < sk.length := List.length_pos_iff.2 a5
      obtain ⟨out, e2, m1, m2⟩ := ih h' (by omega) a1
      unfold drain
      rw [e]
      simp only [Option.bind_some, e2]
      refine ⟨_, rfl, ?_, ?_⟩
      · intro x hx
        simp only [List.mem_cons] at hx
        rcases hx with rfl | hx
        · simp [flat]
        · exact a3.mem_iff.1 (by simp [m1 x hx])
      · intro y hy
        have := a3.mem_iff.2 hy
        rw [List.mem_append] at this
        rcases this with h1 | h1
        · exact ⟨c.1, by simp, a4 y h1⟩
        · obtain ⟨x, hx, e⟩ := m2 y h1
          exact ⟨x, by simp [hx], e⟩

theorem merge_any (o : Order lt) (hr : ∀ x, same x x = true) (inputs : List (List α)) :
    ∃ out, merge lt same inputs = some out ∧ (∀ x ∈ out, x ∈ inputs.flatten) ∧
      ∀ y ∈ inputs.flatten, ∃ x ∈ out, same y x = true := by
  obtain ⟨h, e, a1, a2, a3⟩ := build_spec (lt := lt) o inputs [] (by
    intro i _ a b ha; simp at ha)
  obtain ⟨out, e2, m1, m2⟩ := drain_any (same := same) o hr (total h + 1) h (by omega) a1
  have hp : (flat h).Perm inputs.flatten := by simpa [flat] using a2
  refine ⟨out, ?_, fun x hx => hp.mem_iff.1 (m1 x hx), fun y hy => m2 y (hp.mem_iff.2 hy)⟩
  unfold merge; rw [e]; exact e2

end Heap

namespace Rdt
open Heap Spec

theorem same_refl (x : AOp) : sameId x x = true := by simp [sameId]

theorem idOrder : Order idLess := idKeyed.ord

theorem rgaOrder : Order rgaLess := by
  refine ⟨fun a b h => uuid_lin.asymm h, fun a b c h1 h2 => ?_⟩
  exact idOrder.neg c b a h2 h1

/-! ### RGA -/

theorem attach_spec (p : AOp → Bool) : ∀ (w h : List (Cur AOp)), IsHeap rgaLess h →
    ∃ h' w', attach p h w = some (h', w') ∧ IsHeap rgaLess h' ∧
      h'.Perm (h ++ w.filter fun c => p c.1) ∧ w' = w.filter fun c => !p c.1 := by
  intro w
  induction w with
  | nil => intro h hh; exact ⟨h, [], rfl, hh, by simp, rfl⟩
  | cons c cs ih =>
    intro h hh
    unfold attach
    cases hp : p c.1 with
    | true =>
      obtain ⟨h1, e1, p1, hh1⟩ := add_spec rgaOrder hh c
      obtain ⟨h', w', e, a1, a2, a3⟩ := ih h1 hh1
      refine ⟨h', w', ?_, a1, ?_, ?_⟩
      · simp only [if_true, e1, Option.bind_some, e]
      · refine a2.trans ((p1.append_right _).trans ?_)
        simp [hp]
      · rw [a3]; simp [hp]
    | false =>
      obtain ⟨h', w', e, a1, a2, a3⟩ := ih h hh
      refine ⟨h', c :: w', ?_, a1, ?_, ?_⟩
      · simp [e]
      · simpa [hp] using a2
      · rw [a3]; simp [hp]

theorem total_append (a b : List (Cur AOp)) : total (a ++ b) = total a + total b := by
  simp [total]

theorem total_perm {a b : List (Cur AOp)} (h : a.Perm b) : total a = total b := by
  rw [← flat_length, ← flat_length]; exact (flat_perm h).length_eq

theorem total_filter (p : AOp → Bool) (w : List (Cur AOp)) :
    total (w.filter fun c => p c.1) + total (w.filter fun c => !p c.1) = total w := by
  induction w with
  | nil => rfl
  | cons c cs ih =>
    cases hp : p c.1 <;> simp [hp, total] at * <;> omega

theorem flat_append (a b : List (Cur AOp)) : flat (a ++ b) = flat a ++ flat b := by
  simp [flat]

theorem flat_filter (p : AOp → Bool) (w : List (Cur AOp)) :
    (flat (w.filter fun c => p c.1) ++ flat (w.filter fun c => !p c.1)).Perm (flat w) := by
  rw [← flat_append]
  exact flat_perm (List.filter_append_perm _ w)

/-- The loop on arbitrary inputs. -/
theorem rgaLoop_any : ∀ (fuel : Nat) (h w : List (Cur AOp)), total h + total w < fuel →
    IsHeap rgaLess h →
    ∃ out w', rgaLoop fuel h w = some (out, w') ∧
      (∀ x ∈ out, x ∈ flat h ++ flat w) ∧
      (∀ y ∈ flat h, ∃ x ∈ out, x.id = y.id) ∧
      (∀ c ∈ w, c ∈ w' ∨ ∀ y ∈ c.1 :: c.2, ∃ x ∈ out, x.id = y.id) ∧
      (∀ c ∈ w', c ∈ w ∧ ∀ x ∈ out, x.id ≠ c.1.ref) := by
  intro fuel
  induction fuel with
  | zero => intro h w hf; omega
  | succ fuel ih =>
    intro h w hf hh
    cases h with
    | nil =>
      exact ⟨[], w, rfl, by simp, by simp [flat], fun c hc => .inl hc,
        fun c hc => ⟨hc, by simp⟩⟩
    | cons c t =>
      obtain ⟨h1, sk, e1, a1, a3, a4, a5⟩ := nextFrom_any (same := sameId) rgaOrder c.1
        (total (c :: t) + 1) (c :: t) (by simp) (by omega) hh
        (by intro c' t' e; cases e; exact same_refl _)
      have hlen := a3.length_eq
      rw [List.length_append, flat_length, flat_length] at hlen
      have hpos : 0 < sk.length := List.length_pos_iff.2 a5
      obtain ⟨h2, w2, e2, b1, b2, b3⟩ := attach_spec (fun o => decide (o.ref = c.1.id)) w h1 a1
      have ht := total_perm b2
      rw [total_append] at ht
      have htf := total_filter (fun o => decide (o.ref = c.1.id)) w
      obtain ⟨out, w', e3, m1, m2, m3, m4⟩ := ih h2 w2 (by rw [b3]; omega) b1
      unfold rgaLoop
      rw [e1]
      simp only [Option.bind_some, e2, e3, Option.map_some]
      have hfl : (flat h2).Perm (flat h1 ++ flat (w.filter fun d => decide (d.1.ref = c.1.id))) := by
        rw [← flat_append]; exact flat_perm b2
      have hwf := flat_filter (fun o => decide (o.ref = c.1.id)) w
      refine ⟨c.1 :: out, w', rfl, ?_, ?_, ?_, ?_⟩
      · intro x hx
        simp only [List.mem_cons] at hx
        rcases hx with rfl | hx
        · simp [flat]
        · have := m1 x hx
          rw [List.mem_append] at this
          rcases this with h' | h'
          · have := hfl.mem_iff.1 h'
            rw [List.mem_append] at this
            rcases this with h' | h'
            · exact List.mem_append_left _ (a3.mem_iff.1 (List.mem_append_right _ h'))
            · exact List.mem_append_right _ (hwf.mem_iff.1 (List.mem_append_left _ h'))
          · rw [b3] at h'
            exact List.mem_append_right _ (hwf.mem_iff.1 (List.mem_append_right _ h'))
      · intro y hy
        have := a3.mem_iff.2 hy
        rw [List.mem_append] at this
        rcases this with h' | h'
        · exact ⟨c.1, by simp, ((same_iff _ _).1 (a4 y h')).symm⟩
        · obtain ⟨x, hx, e⟩ := m2 y (hfl.mem_iff.2 (List.mem_append_left _ h'))
          exact ⟨x, by simp [hx], e⟩
      · intro d hd
        by_cases hp : d.1.ref = c.1.id
        · right
          intro y hy
          have : y ∈ flat h2 := hfl.mem_iff.2 (List.mem_append_right _ (by
            unfold flat
            rw [List.mem_flatMap]
            exact ⟨d, List.mem_filter.2 ⟨hd, by simp [hp]⟩, hy⟩))
          obtain ⟨x, hx, e⟩ := m2 y this
          exact ⟨x, by simp [hx], e⟩
        · have hd2 : d ∈ w2 := by rw [b3]; exact List.mem_filter.2 ⟨hd, by simp [hp]⟩
          rcases m3 d hd2 with h' | h'
          · exact .inl h'
          · right
            intro y hy
            obtain ⟨x, hx, e⟩ := h' y hy
            exact ⟨x, by simp [hx], e⟩
      · intro d hd
        obtain ⟨h1', h2'⟩ := m4 d hd
        rw [b3] at h1'
        have := List.mem_filter.1 h1'
        refine ⟨this.1, ?_⟩
        intro x hx
        simp only [List.mem_cons] at hx
        rcases hx with rfl | hx
        · have hh := this.2
          simp only [Bool.not_eq_true', decide_eq_false_iff_not] at hh
          exact fun e => hh e.symm
        · exact h2' x hx

/-- `RGArrayRDT::Merge` on arbitrary inputs. -/
theorem rgaMerge_any (inputs : List (Cur AOp)) :
    ∃ out w, rgaMerge inputs = some (out, w) ∧ (∀ x ∈ out, x ∈ flat inputs) ∧
      (∀ c ∈ inputs, c ∈ w ∨ ∀ y ∈ c.1 :: c.2, ∃ x ∈ out, x.id = y.id) ∧
      (∀ c ∈ w, c ∈ inputs ∧ ∀ x ∈ out, x.id ≠ c.1.ref) := by
  cases hi : inputs with
  | nil => exact ⟨[], [], rfl, by simp, by simp, by simp⟩
  | cons c cs =>
    rw [← hi]
    have hm : ∃ m, minId inputs = some m := by rw [hi]; exact ⟨_, rfl⟩
    obtain ⟨m, hm⟩ := hm
    unfold rgaMerge
    rw [hm]
    simp only
    obtain ⟨h2, w2, e2, b1, b2, b3⟩ := attach_spec (fun o => decide (o.id = m)) inputs []
      (by intro i _ a b ha; simp at ha)
    have ht := total_perm b2
    rw [List.nil_append] at ht b2
    have htf := total_filter (fun o => decide (o.id = m)) inputs
    obtain ⟨out, w', e3, m1, m2, m3, m4⟩ := rgaLoop_any (total inputs + 1) h2 w2
      (by rw [b3]; omega) b1
    have hwf := flat_filter (fun o => decide (o.id = m)) inputs
    have hfl := flat_perm b2
    rw [e2]
    simp only [Option.bind_some, e3]
    refine ⟨out, w', rfl, ?_, ?_, ?_⟩
    · intro x hx
      have := m1 x hx
      rw [List.mem_append] at this
      rcases this with h' | h'
      · exact hwf.mem_iff.1 (List.mem_append_left _ (hfl.mem_iff.1 h'))
      · rw [b3] at h'; exact hwf.mem_iff.1 (List.mem_append_right _ h')
    · intro d hd
      by_cases hp : d.1.id = m
      · right
        intro y hy
        apply m2
        apply hfl.mem_iff.2
        unfold flat
        rw [List.mem_flatMap]
        exact ⟨d, List.mem_filter.2 ⟨hd, by simp [hp]⟩, hy⟩
      · exact m3 d (by rw [b3]; exact List.mem_filter.2 ⟨hd, by simp [hp]⟩)
    · intro d hd
      obtain ⟨h1, h2⟩ := m4 d hd
      rw [b3] at h1
      exact ⟨(List.mem_filter.1 h1).1, h2⟩

theorem flat_valid : ∀ inputs : List (List AOp), flat (valid inputs) = inputs.flatten
  | [] => rfl
  | [] :: xs => by simpa [valid] using flat_valid xs
  | (o :: os) :: xs => by
    have := flat_valid xs
    simp only [valid, flat_cons, List.flatten_cons, this]; simp

end Rdt
end Ron
