import Verif.Spec.TextReplica
import Verif.Spec.TextMerge
import Verif.Spec.Rga
import Verif.Lemmas.LineageSame
/-!
Queries of objects.
-/
namespace Ron.Spec
open Ron

/-- The text is a frame of queries of these objects, each named by the id and the type. -/
structure QueryText (text : List Byte) (qs : List (Uuid × Uuid)) : Prop where
  reads : ∃ l, FrameText Uuid.NIL text l ∧ (l.map fun x => (x.2.id, x.2.ref)) = qs ∧ ∀ x ∈ l, x.1 = 3
  size : text.length < 2 ^ 30

/-- The events are the state of the object the chain belongs to: the weave if it is an array, and the events in the order
of ids if it is a register, a set or a yarn. -/
def IsState (H : List Chain) (c : Chain) (ops : List AOp) : Prop :=
  (uuid2form c.rdt = Form.RGA → Tree ((eventsIn H c.object).map bare) c.object ∧
    IsWeave ((eventsIn H c.object).map bare) c.object ops) ∧
  (uuid2form c.rdt ≠ Form.RGA → IdSorted ops ∧ SameEvents ops (eventsIn H c.object))

end Ron.Spec
