import Verif.Spec.Lifecycle
/-!
Chains of events.
-/
namespace Ron.Spec
open Ron

/-- Events that go on from the event `p`: each is a later event of the same yarn and refers to the one before. -/
def ChainedTo : Uuid → List AOp → Prop
  | _, [] => True
  | p, o :: os => o.id.version = Uuid.vTIME ∧ o.id.origin = p.origin ∧ Uuid.lt p o.id = true ∧ o.ref = p ∧
      ChainedTo o.id os

/-- The last event of a chain. -/
def lastOf (p : Uuid) (os : List AOp) : Uuid := (os.getLast?.map AOp.id).getD p

end Ron.Spec
