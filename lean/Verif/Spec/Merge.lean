import Verif.Model.Ops
/-!
Specification of ordered merging.
-/
namespace Ron.Spec

/-- The ids of a frame strictly increase. -/
def IdSorted (ops : List AOp) : Prop := ops.Pairwise fun a b => Uuid.lt a.id b.id = true

/-- An id names one event: ops with the same id are the same but for punctuation. -/
def Consistent (ops : List AOp) : Prop := ∀ a ∈ ops, ∀ b ∈ ops, a.id = b.id → a.body = b.body

/-- The same events, in whatever order, number and punctuation. -/
def SameEvents (a b : List AOp) : Prop :=
  ∀ x, (∃ o ∈ a, o.body = x) ↔ ∃ o ∈ b, o.body = x

/-- A way of merging frames step by step: any number of inputs at a step, each of them a frame
or the result of an earlier merge. -/
inductive MergeTree where
  | frame (ops : List AOp)
  | merge (inputs : List MergeTree)

mutual
/-- All the ops that go into a merge. -/
def MergeTree.ops : MergeTree → List AOp
  | .frame ops => ops
  | .merge ts => opsAll ts
def MergeTree.opsAll : List MergeTree → List AOp
  | [] => []
  | t :: ts => t.ops ++ opsAll ts
end

mutual
/-- The frames are id-ordered. -/
def MergeTree.Sorted : MergeTree → Prop
  | .frame ops => IdSorted ops
  | .merge ts => SortedAll ts
def MergeTree.SortedAll : List MergeTree → Prop
  | [] => True
  | t :: ts => t.Sorted ∧ SortedAll ts
end

mutual
/-- The result of a merge tree under a merge function. -/
def MergeTree.eval (m : List (List AOp) → Option (List AOp)) : MergeTree → Option (List AOp)
  | .frame ops => some ops
  | .merge ts => (evalAll m ts).bind m
def MergeTree.evalAll (m : List (List AOp) → Option (List AOp)) :
    List MergeTree → Option (List (List AOp))
  | [] => some []
  | t :: ts => (t.eval m).bind fun x => (evalAll m ts).map fun xs => x :: xs
end

/-- Punctuation of a merged frame: `,` after each op and `;` at the end. -/
def punctuate : List AOp → List AOp
  | [] => []
  | [o] => [{ o with term := .raw }]
  | o :: os => { o with term := .reduced } :: punctuate os

end Ron.Spec

namespace Ron.Spec

/-- The integer an op writes, if it writes one. -/
def intOf (o : AOp) : Option Int :=
  match o.vals with
  | .int n :: _ => some n
  | _ => none

/-- Op frames of a max register: ops without values (headers) and integer writes within the
range of the C++ type. -/
def MaxOps (ops : List AOp) : Prop :=
  ∀ o ∈ ops, o.vals = [] ∨ ∃ n, intOf o = some n ∧ -2 ^ 63 ≤ n ∧ n < 2 ^ 63

/-- `n` is the greatest integer written. -/
def Greatest (ops : List AOp) (n : Int) : Prop :=
  (∃ o ∈ ops, intOf o = some n) ∧ ∀ o ∈ ops, ∀ k, intOf o = some k → k ≤ n

end Ron.Spec
