import Verif.Model.Ops
/-!
Specification of causal trees (RGA).

The ops of an object form a tree: every op but the root refers to an earlier op. The weave lists
the tree depth first, an op before its children and the branch of a newer child before the
branch of an older one. That is: by the path from the root, lexicographically, newer ids first.
-/
namespace Ron.Spec

/-- The ids on the way from the root to an op, in a set of ops. -/
inductive Path (ops : List AOp) (root : Uuid) : AOp → List Uuid → Prop where
  | root (o : AOp) : o ∈ ops → o.id = root → Path ops root o [o.id]
  | child (p o : AOp) (l : List Uuid) : Path ops root p l → o ∈ ops → o.ref = p.id →
      Uuid.lt p.id o.id = true → Path ops root o (l ++ [o.id])

/-- A tree: unique ids, and every op is reached from the root. -/
structure Tree (ops : List AOp) (root : Uuid) : Prop where
  unique : (ops.map AOp.id).Nodup
  reached : ∀ o ∈ ops, ∃ l, Path ops root o l

/-- The depth-first order of paths. -/
def before : List Uuid → List Uuid → Bool
  | _, [] => false
  | [], _ :: _ => true
  | a :: as, b :: bs => Uuid.lt b a || (decide (a = b) && before as bs)

/-- A list is in the order of the weave. -/
def InOrder (ops : List AOp) (root : Uuid) (l : List AOp) : Prop :=
  l.Pairwise fun x y => ∀ p q, Path ops root x p → Path ops root y q → before p q = true

/-- The weave: all the ops in the order of the weave. -/
def IsWeave (ops : List AOp) (root : Uuid) (l : List AOp) : Prop :=
  l.Perm ops ∧ InOrder ops root l

/-- A piece of a weave as it comes in a frame: in order, and every op but the first refers to an
earlier op of the piece. -/
def Piece (ops : List AOp) (root : Uuid) (l : List AOp) : Prop :=
  InOrder ops root l ∧
    ∀ pre o post, l = pre ++ o :: post → pre ≠ [] → ∃ p ∈ pre, p.id = o.ref

end Ron.Spec

namespace Ron.Spec

/-- The frames that hang together: the one that starts with the least id, and those that start
with a reference to an op of such a frame. -/
inductive Attached (inputs : List (List AOp)) : List AOp → Prop where
  | least (o : AOp) (os : List AOp) : o :: os ∈ inputs →
      (∀ p ps, p :: ps ∈ inputs → Uuid.lt p.id o.id = false) → Attached inputs (o :: os)
  | ref (o : AOp) (os j : List AOp) (p : AOp) : Attached inputs j → p ∈ j → o :: os ∈ inputs →
      o.ref = p.id → Attached inputs (o :: os)

end Ron.Spec

namespace Ron.Spec

/-- The op without its punctuation. -/
def bare (o : AOp) : AOp := { o with term := .raw }

/-- A frame that is a piece of a tree, whatever its punctuation. -/
def PieceOf (ops : List AOp) (root : Uuid) (f : List AOp) : Prop :=
  (∀ o ∈ f, bare o ∈ ops) ∧ Piece ops root (f.map bare)

end Ron.Spec
