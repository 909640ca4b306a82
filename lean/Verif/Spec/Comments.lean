import Verif.Model.Replica
/-!
Frames with comments put in.
-/
namespace Ron.Spec
open Ron Commit

/-- The first list is the second with comments put in, each before some op. Nothing is put in right
after an op of a mapper's that is not closed by a terminator of its own (`PeekTerm` looks at the op after it). -/
inductive Remarked : List AOp → List AOp → Prop where
  | nil : Remarked [] []
  | op {o : AOp} {xs ys : List AOp} :
    (o.id.version = Uuid.vDERIVED → o.term = .reduced → xs.head? = ys.head?) →
    Remarked xs ys → Remarked (o :: xs) (o :: ys)
  | remark {o : AOp} {xs ys : List AOp} : o.id = COMMENT → ys ≠ [] → Remarked xs ys → Remarked (o :: xs) ys

end Ron.Spec
