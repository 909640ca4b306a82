import Verif.Model.HashStream
/-!
Histories and what a hash of one commits to.
-/
namespace Ron.Spec
open Ron

/-- What an op value is, however it is written. -/
inductive HVal where
  | uuid (u : Uuid)
  | int (w : Word)
  | float (w : Word)
  | text (cps : List Nat)
  deriving DecidableEq, Repr

/-- The value of an atom. -/
def hval : HAtom → HVal
  | .uuid u => .uuid u
  | .int _ w => .int w
  | .float _ w => .float w
  | .str _ _ cps => .text cps
  | .chr cp => .text [cp]

/-- Atoms of ops as a parser makes them: a UUID has no type bits, a string has as many code points
as it says, code points are below 2^21 and those of spreads not zero. -/
def HAtomOk : HAtom → Prop
  | .uuid u => u.origin.toNat < 2 ^ 62
  | .int hi _ => hi < 4
  | .float hi _ => hi < 4
  | .str hi n cps => hi < 4 ∧ n = cps.length ∧ n < 2 ^ 32 ∧ ∀ c ∈ cps, c < 2 ^ 21
  | .chr cp => 0 < cp ∧ cp < 2 ^ 21

/-- The full causal history of an event: nothing; a type; or an op with the history of the op before
it in its yarn and that of what it refers to. -/
inductive Hist where
  | none
  | form (u : Uuid)
  | op (id ref : Uuid) (vals : List HAtom) (prev refd : Hist)

/-- All its ops are as a parser makes them. -/
def Hist.Ok : Hist → Prop
  | .none => True
  | .form _ => True
  | .op _ _ vals p r => (∀ v ∈ vals, HAtomOk v) ∧ p.Ok ∧ r.Ok

/-- The Merkle hash, given a hash function on strings. -/
def Hist.hash (H : List Byte → List Byte) : Hist → List Byte
  | .none => List.replicate 32 0
  | .form u => H (atomBytes u)
  | .op id ref vals p r => H (opBytes id ref vals (p.hash H) (r.hash H))

/-- The strings that are hashed to hash a history. -/
def Hist.strings (H : List Byte → List Byte) : Hist → List (List Byte)
  | .none => []
  | .form u => [atomBytes u]
  | .op id ref vals p r =>
    opBytes id ref vals (p.hash H) (r.hash H) :: (p.strings H ++ r.strings H)

/-- The hash function is fine on these strings: it has 32 bytes, no two of them have one hash, none
hashes to zeroes. -/
structure Fine (H : List Byte → List Byte) (S : List (List Byte)) : Prop where
  size : ∀ s, (H s).length = 32
  inj : ∀ s ∈ S, ∀ t ∈ S, H s = H t → s = t
  nonzero : ∀ s ∈ S, H s ≠ List.replicate 32 0

end Ron.Spec
