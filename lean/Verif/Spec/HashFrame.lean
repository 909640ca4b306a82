import Verif.Model.Replica
/-!
The Merkle hashes of a set of events.
-/
namespace Ron.Spec
open Ron

/-- What a hash covers: the beginning of a yarn, a name, or an event. -/
inductive Cause where
  | start (yarn : Word)
  | name (u : Uuid)
  | event (id : Uuid)

/-- What comes before the event in its yarn. -/
def Precedes (E : List AOp) (o : AOp) : Cause → Prop
  | .start y => y = o.id.origin ∧ ∀ x ∈ E, x.id.origin = o.id.origin → ¬ Uuid.lt x.id o.id = true
  | .name _ => False
  | .event i => i.origin = o.id.origin ∧ Uuid.lt i o.id = true ∧ (∃ x ∈ E, x.id = i) ∧
      ∀ x ∈ E, x.id.origin = o.id.origin → Uuid.lt x.id o.id = true → ¬ Uuid.lt i x.id = true

/-- What the event refers to. -/
def Refers (o : AOp) : Cause → Prop
  | .start _ => False
  | .name u => o.ref.version = Uuid.vNAME ∧ o.ref = u
  | .event i => o.ref.version = Uuid.vTIME ∧ o.ref = i

/-- The Merkle hash: of an event, of the hashes of what comes before it and of what it refers to. -/
inductive Merkle (hs : Hashing) (E : List AOp) : Cause → Digest → Prop where
  | start (y : Word) : Merkle hs E (.start y) (hs.form ⟨0#64, y⟩)
  | name (u : Uuid) : Merkle hs E (.name u) (hs.form u)
  | event {o : AOp} {a b : Cause} {p r : Digest} : o ∈ E → Precedes E o a → Refers o b → Merkle hs E a p → Merkle hs E b r →
    Merkle hs E (.event o.id) (hs.op o p r)

/-- A frame of events, those of a yarn in the order of their time. -/
structure Clocked (E : List AOp) : Prop where
  events : ∀ o ∈ E, o.id.version = Uuid.vTIME
  order : E.Pairwise fun a b => a.id.origin = b.id.origin → Uuid.lt a.id b.id = true

/-- Every event refers to a name or to an event before it. -/
def Backed : List AOp → List AOp → Prop
  | _, [] => True
  | A, o :: os => (o.ref.version = Uuid.vNAME ∨ o.ref.version = Uuid.vTIME ∧ ∃ x ∈ A, x.id = o.ref) ∧ Backed (A ++ [o]) os

end Ron.Spec
