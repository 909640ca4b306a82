import Verif.Lemmas.History
import Verif.Props.Merge
/-!
The reducers of the code: what they may make up.
-/
namespace Ron
open Spec
namespace Rdt

theorem place_fst {i j : Nat} {os : List AOp} {p : Placed} (h : p ∈ place i j os) : p.1 ∈ os := by
  have : p.1 ∈ (place i j os).map (·.1) := List.mem_map.2 ⟨p, h, rfl⟩
  rwa [place_map] at this

theorem places_fst {i : Nat} {l : List (List AOp)} {p : Placed} (h : p ∈ (places i l).flatten) :
    p.1 ∈ l.flatten := by
  obtain ⟨q, hq, hp⟩ := List.mem_flatten.1 h
  have e := places_map i l
  refine List.mem_flatten.2 ⟨q.map (·.1), ?_, List.mem_map.2 ⟨p, hp, rfl⟩⟩
  rw [← e]
  exact List.mem_map.2 ⟨q, hq, rfl⟩

/-- The op picked is one of the inputs, or one shown by an exhausted cursor. -/
theorem maxPick_any (v : View) (ins : List (List Placed)) :
    (∃ p ∈ ins.flatten, maxPick v ins = p.1) ∨ ∃ n, maxPick v ins = v.past n := by
  unfold maxPick
  match hl : ins.getLast? with
  | none => exact Or.inr ⟨0, rfl⟩
  | some [] =>
    simp only
    have sub : ∀ p ∈ ins.dropLast.reverse.flatten, p ∈ ins.flatten := by
      intro p hp
      obtain ⟨q, hq, hp⟩ := List.mem_flatten.1 hp
      exact List.mem_flatten.2 ⟨q, List.dropLast_subset _ (List.mem_reverse.1 hq), hp⟩
    rcases scans_mem v ins.dropLast.reverse (v.past (ins.length - 1), ins.length - 1, 0) with h | h
    · exact Or.inr ⟨ins.length - 1, by rw [h]⟩
    · exact Or.inl ⟨_, sub _ h, rfl⟩
  | some (o :: os) =>
    simp only
    have hm : (o :: os) ∈ ins := List.mem_of_getLast? hl
    left
    rcases scans_mem v (os :: ins.dropLast.reverse) o with h | h
    · exact ⟨o, List.mem_flatten.2 ⟨_, hm, List.mem_cons_self⟩, by rw [h]⟩
    · refine ⟨_, ?_, rfl⟩
      rw [List.flatten_cons] at h
      rcases List.mem_append.1 h with h | h
      · exact List.mem_flatten.2 ⟨_, hm, List.mem_cons_of_mem _ h⟩
      · obtain ⟨q, hq, hp⟩ := List.mem_flatten.1 h
        exact List.mem_flatten.2 ⟨q, List.dropLast_subset _ (List.mem_reverse.1 hq), hp⟩

theorem endChunk_bodies (b : ABuilder) (t : Term) : (b.endChunk t).bodies = b.bodies := by
  cases hb : b.pending <;>
    simp [ABuilder.endChunk, ABuilder.writeTerm, ABuilder.bodies, hb, AOp.body]

/-- What a merged `max` may hold. -/
theorem max_any (v : View) (inputs : List (List AOp)) :
    ∀ o ∈ (max v ABuilder.empty inputs).release,
      (∃ x ∈ inputs.flatten, x.body = o.body) ∨ ∃ n, (v.past n).body = o.body := by
  intro o ho
  have hb : o.body ∈ (max v ABuilder.empty inputs).bodies := by
    rw [← Commit.release_bodies]
    exact List.mem_map.2 ⟨o, ho, rfl⟩
  have pick : ∀ ins : List (List Placed), (∀ p ∈ ins.flatten, p.1 ∈ inputs.flatten) →
      o.body = (maxPick v ins).body → (∃ x ∈ inputs.flatten, x.body = o.body) ∨ ∃ n, (v.past n).body = o.body := by
    intro ins hs e
    rcases maxPick_any v ins with ⟨p, hp, h⟩ | ⟨n, h⟩
    · exact Or.inl ⟨p.1, hs p hp, by rw [e, h]⟩
    · exact Or.inr ⟨n, by rw [e, h]⟩
  have h0 : ABuilder.empty.bodies = [] := rfl
  have all : ∀ p ∈ (places 0 inputs).flatten, p.1 ∈ inputs.flatten := fun p hp => places_fst hp
  unfold max at hb
  match hp : places 0 inputs with
  | [] =>
    rw [hp] at hb
    cases hb
  | [] :: rest =>
    rw [hp] at hb all
    simp only [endChunk_bodies, Commit.append_bodies, h0, List.nil_append, List.mem_singleton] at hb
    exact pick _ all hb
  | (x :: xs) :: rest =>
    rw [hp] at hb all
    simp only at hb
    split at hb
    · simp only [endChunk_bodies, Commit.append_bodies, h0, List.nil_append, List.cons_append, List.mem_cons,
        List.not_mem_nil, or_false] at hb
      rcases hb with hb | hb
      · exact Or.inl ⟨x.1, all x (by simp), hb.symm⟩
      · refine pick _ (fun p hp => all p ?_) hb
        simp only [List.flatten_cons, List.mem_append, List.cons_append, List.mem_cons] at hp ⊢
        exact Or.inr hp
    · simp only [endChunk_bodies, Commit.append_bodies, h0, List.nil_append, List.mem_singleton] at hb
      exact pick _ all hb

/-- With two inputs or more nothing is made up. -/
theorem maxRest_last {inputs : List (List AOp)} (h2 : 2 ≤ inputs.length) (hne : ∀ i ∈ inputs, i ≠ []) :
    ∃ x xs, (maxRest inputs).getLast? = some (x :: xs) := by
  match inputs, h2 with
  | a :: b :: rest, _ =>
    have key : ∀ a', (a' :: b :: rest).getLast? = (b :: rest).getLast? := fun a' => rfl
    have : ∃ x xs, (b :: rest).getLast? = some (x :: xs) := by
      match hl : (b :: rest).getLast? with
      | none => simp at hl
      | some [] => exact absurd rfl (hne [] (List.mem_cons_of_mem _ (List.mem_of_getLast? hl)))
      | some (x :: xs) => exact ⟨x, xs, rfl⟩
    match a with
    | [] => simpa only [maxRest, key] using this
    | y :: ys =>
      simp only [maxRest]
      split <;> simpa only [key] using this

/-- The reducers of the code: what they make up is what exhausted cursors of a `max` show. -/
theorem makes (v : View) (hv : ∀ n, (v.past n).ref ≠ formUuid Form.META) :
    Makes (formUuid Form.META) (fun b => ∃ n, (v.past n).body = b) (mergeCursors v) := by
  refine ⟨?_, ?_, ?_, ?_⟩
  · intro f fs st out h hok o ho
    by_cases hf : f = Form.MAX
    · subst hf
      have e : mergeCursors v Form.MAX fs = some (Status.OK, (max v ABuilder.empty fs).release) := rfl
      rw [e] at h
      cases h
      rcases max_any v fs o ho with ⟨x, hx, e⟩ | h
      · obtain ⟨i, hi, hxi⟩ := List.mem_flatten.1 hx
        exact Or.inl ⟨i, hi, x, hxi, e⟩
      · exact Or.inr ⟨rfl, h⟩
    · obtain ⟨s, out', e, hall⟩ := Props.C37_no_new_ops_partial v f fs fun e => absurd e hf
      rw [e] at h
      cases h
      exact Or.inl (hall o ho)
  · intro f fs st out h hok h2 hne o ho
    obtain ⟨s, out', e, hall⟩ := Props.C37_no_new_ops_partial v f fs fun _ => maxRest_last h2 hne
    rw [e] at h
    cases h
    exact hall o ho
  · intro fs st out h
    rw [(Props.C36_log_concat v fs).1] at h
    cases h
    refine ⟨by decide, fun i hi x hx => ?_⟩
    obtain ⟨y, hy, e⟩ := Rdt.mem_body (Rdt.closeLast_body fs.flatten).symm (List.mem_flatten.2 ⟨i, hi, hx⟩)
    exact ⟨y, hy, e⟩
  · rintro b ⟨n, rfl⟩
    exact hv n

end Rdt
end Ron
