import Verif.Model.TextTable
import Verif.Model.CpTable
import Verif.Lemmas.Bytes
/-!
Facts about the transition tables of the frame parser, checked on every row.
-/
namespace Ron

/-- `P` holds for all the rows of all the states of a table with states below `n`. -/
def allRows (rows : Nat → List TRow) (n : Nat) (P : Nat → TRow → Bool) : Bool :=
  (List.range n).all fun s => (rows s).all (P s)

theorem step_row {rows : Nat → List TRow} {n : Nat} {P : Nat → TRow → Bool}
    (hP : allRows rows n P = true) (hout : ∀ s, n ≤ s → rows s = [])
    {s : Nat} {c : Byte} {as : List Act} {t : Nat} (h : stepIn rows s c = some (as, t)) :
    ∃ lo hi, lo ≤ c.toNat ∧ c.toNat ≤ hi ∧ P s (lo, hi, as, t) = true := by
  unfold stepIn at h
  rw [Option.map_eq_some_iff] at h
  obtain ⟨⟨lo, hi, x⟩, hf, hx⟩ := h
  simp only at hx
  subst hx
  have hm := List.mem_of_find?_eq_some hf
  have hp := List.find?_some hf
  simp only [Bool.and_eq_true, Nat.ble_eq] at hp
  refine ⟨lo, hi, hp.1, hp.2, ?_⟩
  by_cases hs : n ≤ s
  · rw [hout s hs] at hm; simp at hm
  · unfold allRows at hP
    rw [List.all_eq_true] at hP
    have h1 := hP s (List.mem_range.2 (by omega))
    rw [List.all_eq_true] at h1
    exact h1 _ hm

namespace TextTable

theorem rows_out : ∀ s, 76 ≤ s → rows s = [] := by
  intro s hs
  unfold rows
  split <;> first | rfl | omega

theorem step {P : Nat → TRow → Bool} (hP : allRows rows 76 P = true)
    {s : Nat} {c : Byte} {as : List Act} {t : Nat} (h : stepIn rows s c = some (as, t)) :
    ∃ lo hi, lo ≤ c.toNat ∧ c.toNat ≤ hi ∧ P s (lo, hi, as, t) = true :=
  step_row hP rows_out h

end TextTable

namespace CpTable

theorem rows_out : ∀ s, 12 ≤ s → rows s = [] := by
  intro s hs
  unfold rows
  split <;> first | rfl | omega

theorem step {P : Nat → TRow → Bool} (hP : allRows rows 12 P = true)
    {s : Nat} {c : Byte} {as : List Act} {t : Nat} (h : stepIn rows s c = some (as, t)) :
    ∃ lo hi, lo ≤ c.toNat ∧ c.toNat ≤ hi ∧ P s (lo, hi, as, t) = true :=
  step_row hP rows_out h

end CpTable
end Ron
