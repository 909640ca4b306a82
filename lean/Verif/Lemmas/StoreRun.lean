import Verif.Lemmas.StoreIter
import Verif.Lemmas.MergeAny
import Verif.Lemmas.Rdt
/-!
Sequences of commands on a store, and the reducers as seen by it.
-/
namespace Ron
namespace Rdt
open Spec

/-- Forms that have a reducer which can not fail. -/
def NeverFails (f : Form) : Prop :=
  f = Form.LOG ∨ f = Form.ZERO ∨ f = Form.META ∨ f = Form.YARN ∨ f = Form.LWW ∨ f = Form.MX ∨
    f = Form.MAX ∨ f = Form.ERROR

theorem mergeInto_total (less : AOp → AOp → Bool) (ho : Heap.Order less) (b : ABuilder)
    (inputs : List (List AOp)) : ∃ b', mergeInto less b inputs = some b' := by
  obtain ⟨out, e, _⟩ := Heap.merge_any (same := sameId) ho same_refl inputs
  unfold mergeInto
  rw [e]; exact ⟨_, rfl⟩

/-- The reducer is total, and only causal trees and unknown forms can fail. -/
theorem mergeCursors_total (v : View) (f : Form) (inputs : List (List AOp)) :
    ∃ st out, mergeCursors v f inputs = some (st, out) ∧ (NeverFails f → st = Status.OK) := by
  have fin : ∀ b s, master v f ABuilder.empty inputs = some (b, s) → (NeverFails f → s = Status.OK) →
      ∃ st out, mergeCursors v f inputs = some (st, out) ∧ (NeverFails f → st = Status.OK) := by
    intro b s e h
    exact ⟨s, _, by unfold mergeCursors; rw [e]; rfl, h⟩
  unfold master at fin
  by_cases h1 : f = Form.LOG
  · rw [if_pos h1] at fin; exact fin _ _ rfl fun _ => rfl
  rw [if_neg h1] at fin
  by_cases h2 : f = Form.ZERO
  · rw [if_pos h2] at fin; exact fin _ _ rfl fun _ => rfl
  rw [if_neg h2] at fin
  by_cases h3 : f = Form.META
  · rw [if_pos h3] at fin
    obtain ⟨b, e⟩ := mergeInto_total metaLess metaOrder ABuilder.empty inputs
    exact fin b Status.OK (by rw [show metaMerge ABuilder.empty inputs = some b from e]; rfl) fun _ => rfl
  rw [if_neg h3] at fin
  by_cases h4 : f = Form.YARN ∨ f = Form.LWW
  · rw [if_pos h4] at fin
    obtain ⟨b, e⟩ := mergeInto_total idLess idOrder ABuilder.empty inputs
    exact fin b Status.OK (by rw [show lww ABuilder.empty inputs = some b from e]; rfl) fun _ => rfl
  rw [if_neg h4] at fin
  by_cases h5 : f = Form.MX
  · rw [if_pos h5] at fin
    obtain ⟨b, e⟩ := mergeInto_total idLess idOrder ABuilder.empty inputs
    exact fin b Status.OK (by rw [show mx ABuilder.empty inputs = some b from e]; rfl) fun _ => rfl
  rw [if_neg h5] at fin
  by_cases h6 : f = Form.RGA
  · rw [if_pos h6] at fin
    have no : ¬ NeverFails f := by rw [h6]; unfold NeverFails; decide
    unfold rga at fin
    by_cases h7 : (valid inputs).length > 3
    · rw [if_pos h7] at fin; exact fin _ _ rfl fun h => absurd h no
    · rw [if_neg h7] at fin
      obtain ⟨out, w, e, _⟩ := rgaMerge_any (valid inputs)
      rw [e] at fin
      exact fin _ _ rfl fun h => absurd h no
  rw [if_neg h6] at fin
  by_cases h7 : f = Form.MAX
  · rw [if_pos h7] at fin; exact fin _ _ rfl fun _ => rfl
  rw [if_neg h7] at fin
  by_cases h8 : f = Form.ERROR
  · rw [if_pos h8] at fin; exact fin _ _ rfl fun _ => rfl
  rw [if_neg h8] at fin
  refine fin _ _ rfl fun h => ?_
  unfold NeverFails at h
  grind

theorem mergeCursors_some (v : View) (f : Form) (inputs : List (List AOp)) :
    mergeCursors v f inputs ≠ none := by
  obtain ⟨_, _, e, _⟩ := mergeCursors_total v f inputs
  rw [e]; simp

/-- Dropping the frames without ops does not change a merge by heap. -/
theorem merge_withOps (lt same : AOp → AOp → Bool) (inputs : List (List AOp)) :
    Heap.merge lt same (withOps inputs) = Heap.merge lt same inputs := by
  have : ∀ (inputs : List (List AOp)) h, Heap.build lt h (withOps inputs) = Heap.build lt h inputs := by
    intro inputs
    induction inputs with
    | nil => intro h; rfl
    | cons i is ih =>
      intro h
      cases i with
      | nil =>
        show Heap.build lt h (withOps is) = _
        rw [ih]; rfl
      | cons o os =>
        show (Heap.addInput lt h (o :: os)).bind (fun h' => Heap.build lt h' (withOps is)) = _
        simp only [ih]; rfl
  unfold Heap.merge
  rw [this]

theorem withOps_flatten (inputs : List Frame) : (withOps inputs).flatten = inputs.flatten := by
  induction inputs with
  | nil => rfl
  | cons i is ih =>
    cases i with
    | nil => show (withOps is).flatten = _; rw [ih]; rfl
    | cons o os =>
      show (o :: os) ++ (withOps is).flatten = _
      rw [ih]; rfl

theorem mergeCursors_withOps (v : View) {f : Form} (hf : ById f) (inputs : List Frame) :
    mergeCursors v f (withOps inputs) = mergeCursors v f inputs := by
  rw [mergeCursors_id v hf, mergeCursors_id v hf, merge_withOps]

theorem mergeMeta_withOps (v : View) (inputs : List Frame) :
    mergeCursors v Form.META (withOps inputs) = mergeCursors v Form.META inputs := by
  rw [mergeCursors_meta, mergeCursors_meta, merge_withOps]

end Rdt

namespace MemStore
open Spec

theorem written_append (k : Key) (a b : List Cmd) : written k (a ++ b) = written k a ++ written k b := by
  induction a with
  | nil => rfl
  | cons c a ih =>
    cases c with
    | write j f => simp only [List.cons_append, written, ih]; split <;> rfl
    | read j f => simp only [List.cons_append, written, ih]

/-- A command leaves the records of other keys alone, and the store in order. -/
theorem exec_other (mg : Reducer) {s s' : MemStore} (hs : Sorted s) (c : Cmd)
    (h : exec mg s c = some s') : Sorted s' ∧ ∀ j, j ≠ c.key → recs j s' = recs j s := by
  cases c with
  | write k f =>
    simp only [exec, write, Option.some.injEq] at h
    by_cases he : k = Key.END
    · rw [if_pos he] at h; subst h; exact ⟨hs, fun _ _ => rfl⟩
    · rw [if_neg he] at h; subst h
      refine ⟨insert_sorted hs k f, fun j hj => ?_⟩
      rw [insert_recs hs k j f, if_neg (show ¬ j = k from hj), List.append_nil]
  | read k res =>
    simp only [exec] at h
    rcases read_eq mg hs k res with ⟨_, e⟩ | ⟨_, _, e⟩ | ⟨_, ⟨_, e⟩ | ⟨st, out, s2, _, e, h1, _, h3⟩⟩
    · rw [e] at h; cases h; exact ⟨hs, fun _ _ => rfl⟩
    · rw [e] at h; cases h; exact ⟨hs, fun _ _ => rfl⟩
    · rw [e] at h; cases h
    · rw [e] at h; cases h; exact ⟨h1, h3⟩

/-- Reading and writing under an invariant that relates the records of a key to what was written
to it. -/
theorem exec_inv (mg : Reducer) (hmg : ∀ f ins, mg f ins ≠ none) (k : Key)
    (Ok : List Frame → Prop) (Inv : List Frame → List Frame → Prop)
    (hpre : ∀ a b, Ok (a ++ b) → Ok a)
    (hwrite : ∀ r W f, Inv r W → Ok (W ++ [f]) → Inv (r ++ [f]) (W ++ [f]))
    (hmerge : ∀ r W, Inv r W → Ok W → 2 ≤ r.length →
      ∃ out, mg k.form (withOps r) = some (Status.OK, out) ∧ Inv [out] W) :
    ∀ (cmds : List Cmd) (s : MemStore) (W : List Frame), Sorted s → Inv (recs k s) W →
    Ok (W ++ written k cmds) →
    ∃ s', execAll mg s cmds = some s' ∧ Sorted s' ∧ Inv (recs k s') (W ++ written k cmds) := by
  intro cmds
  induction cmds with
  | nil => intro s W hs hi _; exact ⟨s, rfl, hs, by simpa [written] using hi⟩
  | cons c cs ih =>
    intro s W hs hi hok
    obtain ⟨s1, e1⟩ : ∃ s1, exec mg s c = some s1 := by
      cases c with
      | write j f => exact ⟨_, rfl⟩
      | read j res =>
        simp only [exec]
        rcases read_eq mg hs j res with ⟨_, e⟩ | ⟨_, _, e⟩ | ⟨_, ⟨e, _⟩ | ⟨st, out, s2, _, e, _⟩⟩
        · exact ⟨_, by rw [e]; rfl⟩
        · exact ⟨_, by rw [e]; rfl⟩
        · exact absurd e (hmg _ _)
        · exact ⟨_, by rw [e]; rfl⟩
    obtain ⟨hs1, hoth⟩ := exec_other mg hs c e1
    simp only [execAll, e1, Option.bind_some]
    by_cases hk : c.key = k
    · cases c with
      | write j f =>
        simp only [Cmd.key] at hk
        subst hk
        simp only [exec, write, Option.some.injEq] at e1
        by_cases he : j = Key.END
        · rw [if_pos he] at e1; subst e1
          simp only [written, he, ne_eq, not_true_eq_false, and_false, if_false] at hok ⊢
          rw [he] at ih hi
          exact ih s W hs hi hok
        · rw [if_neg he] at e1
          simp only [written, ne_eq, he, not_false_eq_true, and_self, if_true] at hok ⊢
          have e : W ++ f :: written j cs = (W ++ [f]) ++ written j cs := by simp
          rw [e] at hok ⊢
          refine ih s1 (W ++ [f]) hs1 ?_ hok
          rw [← e1]
          have := insert_recs hs j j f
          simp only [if_true] at this
          rw [this]
          exact hwrite _ _ f hi (hpre _ _ hok)
      | read j res =>
        simp only [Cmd.key] at hk
        subst hk
        simp only [written] at hok ⊢
        refine ih s1 W hs1 ?_ hok
        simp only [exec] at e1
        rcases read_eq mg hs j res with ⟨_, e⟩ | ⟨_, _, e⟩ | ⟨hl, ⟨_, e⟩ | ⟨st, out, s2, em, e, _, h2, _⟩⟩
        · rw [e] at e1; cases e1; exact hi
        · rw [e] at e1; cases e1; exact hi
        · rw [e] at e1; cases e1
        · rw [e] at e1; cases e1
          obtain ⟨out', e', hi'⟩ := hmerge _ _ hi (hpre _ _ hok) hl
          rw [em] at e'
          cases e'
          rw [h2]; exact hi'
    · have hw : written k (c :: cs) = written k cs := by
        cases c with
        | write j f => simp only [Cmd.key] at hk; simp [written, hk]
        | read j f => rfl
      rw [hw] at hok ⊢
      exact ih s1 W hs1 (by rw [hoth k (Ne.symm hk)]; exact hi) hok

/-- The final read under the same invariant. -/
theorem read_inv (mg : Reducer) (k : Key) (Inv : List Frame → List Frame → Prop) {s : MemStore}
    (hs : Sorted s) {W : List Frame} (hi : Inv (recs k s) W)
    (hmerge : 2 ≤ (recs k s).length →
      ∃ out, mg k.form (withOps (recs k s)) = some (Status.OK, out) ∧ Inv [out] W) (res : Frame) :
    ∃ out s', read mg s k res = some (Status.OK, out, s') ∧ (Inv [out] W ∨ (out = [] ∧ Inv [] W)) := by
  rcases read_eq mg hs k res with ⟨e, h⟩ | ⟨f, e, h⟩ | ⟨hl, ⟨e, _⟩ | ⟨st, out, s2, em, e, _, h2, _⟩⟩
  · exact ⟨[], s, h, .inr ⟨rfl, by rw [e] at hi; exact hi⟩⟩
  · exact ⟨f, s, h, .inl (by rw [e] at hi; exact hi)⟩
  · obtain ⟨out, e', _⟩ := hmerge hl
    rw [e] at e'; cases e'
  · obtain ⟨out', e', hi'⟩ := hmerge hl
    rw [em] at e'; cases e'
    exact ⟨out, s2, by rw [e]; rfl, .inl hi'⟩

end MemStore
end Ron
