import Verif.Spec.Builder
/-!
What a chain of ops is.
-/
namespace Ron.Spec
open Ron

/-- `ChainFrom p ops chain rest`: after an op of the id `p` come the ops `ops`; `chain` are those that go on from it,
each of them refers to the one before and is a later event of the same yarn; comments between them are left out;
`rest` is what comes after the chain, from an op that does not belong to it. -/
inductive ChainFrom : Uuid → List OpView → List OpView → List OpView → Prop where
  | done (p : Uuid) : ChainFrom p [] [] []
  | other {p : Uuid} {o : OpView} {l : List OpView} : o.id ≠ COMMENT → o.ref ≠ p → ChainFrom p (o :: l) [] (o :: l)
  | comment {p : Uuid} {o : OpView} {l chain rest : List OpView} : o.id = COMMENT → ChainFrom p l chain rest →
    ChainFrom p (o :: l) chain rest
  | next {p : Uuid} {o : OpView} {l chain rest : List OpView} : o.id.version = Uuid.vTIME → o.id.origin = p.origin →
    Uuid.lt p o.id = true → o.ref = p → ChainFrom o.id l chain rest → ChainFrom p (o :: l) (o :: chain) rest

/-- Ops that are a chain after an op of the id `p`. -/
def Linked : Uuid → List OpView → Prop
  | _, [] => True
  | p, o :: l => o.id.version = Uuid.vTIME ∧ o.id.origin = p.origin ∧ Uuid.lt p o.id = true ∧ o.ref = p ∧ Linked o.id l

/-- The id of the last op of a chain. -/
def lastId (p : Uuid) (chain : List OpView) : Uuid := (chain.getLast?.map OpView.id).getD p

/-- Runs of characters (ops that the builder folds into one) begin with a plain character. -/
def PlainRuns : List OpView → Prop
  | [] => True
  | [_] => True
  | p :: o :: l => (folds p.id p.vals o = true → copyHeadOk p.vals = true) ∧ PlainRuns (o :: l)

end Ron.Spec
