import Verif.Spec.Lww
import Verif.Spec.Merge
/-!
Specification: what a log says of an object as of a version.
-/
namespace Ron.Spec

/-- The log up to and including the version. -/
def Until (version : Uuid) (log past : List AOp) : Prop :=
  ∃ pre o post, log = pre ++ o :: post ∧ past = pre ++ [o] ∧ o.id = version ∧ ∀ p ∈ pre, p.id ≠ version

/-- A log of an object of that type: the first op makes the object and names the type, every other op
refers to one before it that has a lesser id; no event is there twice. -/
structure LogOf (type : Uuid) (log : List AOp) : Prop where
  first : ∃ o os, log = o :: os ∧ o.ref = type ∧ o.id ≠ Uuid.NIL
  refs : ∀ pre p post, log = pre ++ p :: post → pre ≠ [] →
    p.ref.version ≠ Uuid.vNAME ∧ Uuid.lt p.ref p.id = true ∧ ∃ q ∈ pre, q.id = p.ref
  unique : (log.map AOp.id).Nodup

end Ron.Spec
