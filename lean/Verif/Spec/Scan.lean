import Verif.Model.Ops
/-!
Specification of visibility in a causal tree.

Ops are known by their positions in the frame; position 0 is the root. An op that only has the
value `rm` removes, an op that only has the value `un` undoes, other ops insert an element.

A removal aims at the element it refers to; a removal that refers to a removal aims at the
element before (the parent of the element the other one aims at), and so on. The same way an
undo aims at the removal it refers to, an undo of an undo aims at the removal before.
-/
namespace Ron.Spec

inductive Kind where
  | insert
  | remove
  | undo
  deriving DecidableEq, Repr

/-- The names `rm` and `un`. -/
def rmName : Uuid := ⟨BitVec.ofNat 64 986569793370849280, 0#64⟩
def unName : Uuid := ⟨BitVec.ofNat 64 1040894463876005888, 0#64⟩

def kind (o : AOp) : Kind :=
  if o.vals = [.uuid rmName] then .remove else if o.vals = [.uuid unName] then .undo else .insert

/-- The op at a position is of a kind. -/
def IsKind (ops : List AOp) (k : Kind) (i : Nat) : Prop := ∃ o, ops[i]? = some o ∧ kind o = k

/-- The positions on the way from the root to an op. -/
inductive PathTo (ops : List AOp) : Nat → List Nat → Prop where
  | root : 0 < ops.length → PathTo ops 0 [0]
  | child (i j : Nat) (p : List Nat) (a b : AOp) : PathTo ops j p → j < i → ops[j]? = some a →
      ops[i]? = some b → b.ref = a.id → PathTo ops i (p ++ [i])

/-- The way to an op goes by elements `E`, then removals `R`, then undos `U`. -/
structure Branch (ops : List AOp) (i : Nat) (E R U : List Nat) : Prop where
  path : PathTo ops i (0 :: (E ++ R ++ U))
  inserts : ∀ x ∈ E, IsKind ops .insert x
  removes : ∀ x ∈ R, IsKind ops .remove x
  undos : ∀ x ∈ U, IsKind ops .undo x

/-- The op at `q` is a removal aimed at the element at `x`. -/
def Removes (ops : List AOp) (q x : Nat) : Prop :=
  ∃ E R, R ≠ [] ∧ Branch ops q E R [] ∧ E.reverse[R.length - 1]? = some x

/-- The op at `q` is an undo aimed at the removal at `x`. -/
def Undoes (ops : List AOp) (q x : Nat) : Prop :=
  ∃ E R U, E ≠ [] ∧ U ≠ [] ∧ Branch ops q E R U ∧ R.reverse[U.length - 1]? = some x

/-- An element: all the way from the root there are only elements. -/
def Element (ops : List AOp) (x : Nat) : Prop := ∃ E, E ≠ [] ∧ Branch ops x E [] []

/-- An element is visible if every removal aimed at it has been undone. -/
def Visible (ops : List AOp) (x : Nat) : Prop :=
  Element ops x ∧ ∀ q, Removes ops q x → ∃ u, Undoes ops u q

/-- An undo aimed at a removal that is not the first one of its run. -/
def Late (ops : List AOp) (q x : Nat) : Prop :=
  ∃ E R U, E ≠ [] ∧ U ≠ [] ∧ Branch ops q E R U ∧ U.length < R.length ∧
    R.reverse[U.length - 1]? = some x

/-- A run of removals is longer than the run of elements it starts from by at most one, and a
run of undos is not longer than all that is above it. -/
def Bounded (ops : List AOp) : Prop := ∀ q E R U, E ≠ [] → Branch ops q E R U →
  R.length ≤ E.length + 1 ∧ (R ≠ [] → U.length ≤ 1 + E.length + R.length)

end Ron.Spec
