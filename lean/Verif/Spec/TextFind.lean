import Verif.Spec.Compare
import Verif.Model.Replica
/-!
Specification of looking up an event in the text of a log.
-/
namespace Ron.Spec
open Ron

/-- The ops of a yarn. -/
def ofYarn (yarn : Word) (ops : List OpView) : List OpView := ops.filter fun o => decide (o.id.origin = yarn)

/-- The ops that go on from an op of the id `p`: each refers to the one before. -/
def onFrom : Uuid → List OpView → List OpView
  | _, [] => []
  | p, o :: l => if o.ref = p then o :: onFrom o.id l else []

/-- The ops have ids that go up from `p`. -/
def Rising : Uuid → List OpView → Prop
  | _, [] => True
  | p, o :: l => Uuid.lt p o.id = true ∧ Rising o.id l

/-- The id of the last of the ops. -/
def endId (p : Uuid) : List OpView → Uuid
  | [] => p
  | o :: l => endId o.id l

/-- The same metadata but for the hash. -/
def SameMeta (a b : OpMeta) : Prop :=
  a.id = b.id ∧ a.rdt = b.rdt ∧ a.object = b.object ∧ a.prev = b.prev ∧ a.chain = b.chain

/-- The value of the id of the op before the one of the id `id`, in ops that follow one of the id `p`. -/
def valueBefore (id : Uuid) : Uuid → List OpView → Option Word
  | _, [] => none
  | p, o :: l => if o.id = id then some p.value else valueBefore id o.id l

end Ron.Spec
