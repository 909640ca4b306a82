import Verif.Spec.Lineage
/-!
Replicas that send each other what the other does not have.
-/
namespace Ron.Spec
open Ron

/-- The event as it is sent. -/
def sent (o : AOp) : AOp := { o with term := .raw }

/-- The events of a chain that are not among those known. -/
def lacking (known : List AOp) (f : List AOp) : List AOp := (f.filter fun x => decide (x.id ∉ known.map AOp.id)).map sent

/-- What is to be sent to one that has the events `known`: of every chain the events it lacks, if any. -/
def missing (known : List AOp) (fs : List (List AOp)) : List (AOp × List AOp) :=
  fs.filterMap fun f =>
    match lacking known f with
    | [] => none
    | o :: os => some (o, os)

/-- Neither has a gap where the other has an event: whoever knows an event of a yarn knows all events of the yarn before
it that the other knows. -/
def Aligned (a b : List AOp) : Prop :=
  ∀ x ∈ a, ∀ y ∈ b, x.id.origin = y.id.origin →
    (Uuid.lt x.id y.id = true → ∃ z ∈ b, z.id = x.id) ∧ (Uuid.lt y.id x.id = true → ∃ z ∈ a, z.id = y.id)

/-- Where both have an event it is the same. -/
def Concordant (a b : List AOp) : Prop := ∀ x ∈ a, ∀ y ∈ b, x.id = y.id → x.body = y.body

end Ron.Spec
