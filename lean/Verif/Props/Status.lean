import Verif.Model.Status
import Verif.Model.VV
/-!
Properties C49 (version vectors) and C52 (status codes).
-/
namespace Ron.Props
open Ron

/-! ## C52 -/

/-- C52. The published codes are pairwise distinct (by the operator `==` users compare with),
all of them test as errors and differ from OK, which tests as success. -/
theorem C52_codes_distinct :
    (Status.OK :: Status.errors).Pairwise (fun a b => a.eq b = false) ∧
    (∀ s ∈ Status.errors, s.ok = false) ∧ Status.OK.ok = true := by
  decide +kernel

/-- C52. Success is decided by the code alone: it is a failure exactly if the code is in the
error yarn; a comment never changes success, failure or equality. -/
theorem C52_comment_neutral (s t : Status) (c : List Byte) :
    (s.withComment c).ok = s.ok ∧ (s.withComment c).eq t = s.eq t ∧
    (s.withComment c).comment = c ∧
    (s.ok = false ↔ s.code.origin.toNat = 2 ^ 60 - 1) ∧ (s.eq t = true → s.ok = t.ok) := by
  refine ⟨rfl, rfl, rfl, ?_, ?_⟩
  · unfold Status.ok
    rw [bne_eq_false_iff_eq, ← BitVec.toNat_inj]
    rfl
  · intro h
    have : s.code = t.code := by simpa [Status.eq] using h
    unfold Status.ok
    rw [this]

example : (Status.BADREF.withComment (lit "no such op")).ok = false ∧
    Status.BADREF.withComment (lit "no such op") ≠ Status.BADREF := by decide +kernel

/-! ## C49 -/

/-- C49 (partial: the event time is required to be non-zero, see `C49_violated`). A version
vector covers an event exactly if its yarn has a recorded version not less than its time. -/
theorem C49_covers_partial (vv : VV) (p : Uuid) (h : 0 < p.value.toNat) :
    vv.covers p = true ↔ ∃ v, vv.find p.origin = some v ∧ p.value.toNat ≤ v.toNat := by
  unfold VV.covers VV.get
  rw [decide_eq_true_eq]
  cases hf : vv.find p.origin with
  | none => simp; omega
  | some v => simp

/-- The full claim, without the restriction. -/
def C49_claim : Prop := ∀ (vv : VV) (p : Uuid),
  vv.covers p = true ↔ ∃ v, vv.find p.origin = some v ∧ p.value.toNat ≤ v.toNat

/-- It is false: even the empty vector covers the zero time of every yarn. -/
theorem C49_violated : ¬ C49_claim ∧ ∀ o, VV.EMPTY.covers ⟨0#64, o⟩ = true := by
  have h0 : ∀ o, VV.EMPTY.covers ⟨0#64, o⟩ = true := fun o => rfl
  refine ⟨fun h => ?_, h0⟩
  obtain ⟨v, hv, _⟩ := (h VV.EMPTY ⟨0#64, 5#64⟩).mp (h0 _)
  exact absurd hv (by simp [VV.EMPTY])

/-- Coverage is downward closed along a yarn. -/
theorem C49_covers_down (vv : VV) (a b : Word) (o : Word) (hab : a.toNat ≤ b.toNat)
    (h : vv.covers ⟨b, o⟩ = true) : vv.covers ⟨a, o⟩ = true := by
  unfold VV.covers at *
  rw [decide_eq_true_eq] at *
  exact Nat.le_trans hab h

example : (VV.mk fun o => if o = 3#64 then some 10#64 else none).covers ⟨9#64, 3#64⟩ = true ∧
    (VV.mk fun o => if o = 3#64 then some 10#64 else none).covers ⟨11#64, 3#64⟩ = false := by
  decide

end Ron.Props
