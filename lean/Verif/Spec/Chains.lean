import Verif.Model.Chains
import Verif.Spec.Compare
/-!
Specification: chains of a log.
-/
namespace Ron.Spec

/-- What a reader gets from a cursor that is at an op: that op, then the rest up to the end. -/
def ChainOps (c : Cursor) (ops : List OpView) (st : Cursor.NextStatus) : Prop :=
  ∃ fuel l, Cursor.iterate fuel c = .ok (some (l, st)) ∧ collect viewOp (c :: l) = .ok ops

/-- The ops up to and including the first one with that id. -/
def upTo (cutoff : Uuid) : List OpView → List OpView
  | [] => []
  | v :: vs => if v.id = cutoff then [v] else v :: upTo cutoff vs

/-- Each op refers to the one before it. -/
def Consecutive (vs : List OpView) : Prop :=
  ∀ pre v w post, vs = pre ++ v :: w :: post → w.ref = v.id

/-- A chain begins where the ops stop being consecutive. -/
def Maximal (css : List (List OpView)) : Prop :=
  ∀ pre vs v w ws post, css = pre ++ (vs ++ [v]) :: (w :: ws) :: post → w.ref ≠ v.id

/-- The ops have been stamped by one replica. -/
def OneYarn (vs : List OpView) : Prop := ∀ v ∈ vs, ∀ w ∈ vs, v.id.origin = w.id.origin

end Ron.Spec
