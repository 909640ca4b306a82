import Verif.Model.Ops
/-!
Specification of a last-write-wins object.
-/
namespace Ron.Spec

/-- The op writes the value `v` for the key `k`. -/
def Writes (o : AOp) (k : Uuid) (v : AVal) : Prop := ∃ more, o.vals = .uuid k :: v :: more

/-- Among the ops in any order, one with the greatest id that writes `k` writes the value `v`. -/
def LastWrite (ops : List AOp) (k : Uuid) (v : AVal) : Prop :=
  ∃ o ∈ ops, Writes o k v ∧ ∀ p ∈ ops, ∀ w, Writes p k w → Uuid.lt o.id p.id = false

/-- Nothing was written for the key. -/
def Unwritten (ops : List AOp) (k : Uuid) : Prop := ∀ o ∈ ops, ∀ v, ¬ Writes o k v

/-- The value `m * 2^e` of the bits of a (normal, binary64) floating point number. -/
def ieee (w : Word) : Option (Int × Int) :=
  let e : Nat := w.toNat / 2 ^ 52 % 2 ^ 11
  let m : Int := ((w.toNat % 2 ^ 52 + 2 ^ 52 : Nat) : Int)
  if e = 0 ∨ e = 2047 then none
  else some (if w.toNat < 2 ^ 63 then m else -m, (e : Int) - 1075)

end Ron.Spec
