import Verif.Spec.Merge
/-!
Values of a max register as its type orders them, for C38 and C42.
-/
namespace Ron.Spec
open Ron

/-- The height of a value: nothing is below everything, numbers are compared by their 64 bits, UUIDs in their order. -/
def height (o : AOp) : Nat :=
  match o.vals with
  | [] => 0
  | .int n :: _ => (BitVec.ofInt 64 n).toNat + 1
  | .float w :: _ => w.toNat + 1
  | .uuid x :: _ => x.value.toNat * 2 ^ 64 + x.origin.toNat + 1
  | .str _ :: _ => 0

/-- A number, or nothing. -/
def NumberOp (o : AOp) : Prop := o.vals = [] ∨ (∃ n r, o.vals = .int n :: r) ∨ ∃ w r, o.vals = .float w :: r
/-- A UUID, or nothing. -/
def UuidOp (o : AOp) : Prop := o.vals = [] ∨ ∃ x r, o.vals = .uuid x :: r

/-- Updates of one kind: numbers, or UUIDs. -/
def OneKind (ops : List AOp) : Prop := (∀ o ∈ ops, NumberOp o) ∨ ∀ o ∈ ops, UuidOp o

/-- `out` is the maximum of `ops`: made of them, and none is higher. -/
def Highest (out ops : List AOp) : Prop :=
  (∀ o ∈ out, ∃ x ∈ ops, x.body = o.body) ∧ ∀ x ∈ ops, ∃ o ∈ out, height x ≤ height o

end Ron.Spec
