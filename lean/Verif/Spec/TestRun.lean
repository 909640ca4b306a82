import Verif.Spec.Compare
import Verif.Model.TextBuilder
/-!
Specification of test scripts: when all the tests pass.
-/
namespace Ron.Spec
open Ron

/-- The frame begins with a comment that has the terminator. -/
def Header (frame : List Byte) (t : Nat) : Prop :=
  ∃ c st, Cursor.next (Cursor.init frame) = .ok (c, st) ∧ c.id = some COMMENT ∧ c.term = t

/-- The same ops, comments aside: whatever the two frames read as. -/
def Agree (feq : List Byte → List Byte → Bool) (a b : List Byte) : Prop :=
  ∀ va vb sa sb, Contents a va sa → Contents b vb sb → Same2 (OpView.Same feq) (events va) (events vb)

/-- The tests pass, one after another, and leave the replica `s'` and the responses `b'` that were not asked for.
A test with `!` or `;` is an input, which the replica `recv` takes; a test with `?` is what the responses since the last
such test must be. -/
inductive Pass {S : Type} (recv : S → Builder → List Byte → Out (S × Builder × Status))
    (same : List Byte → List Byte → Prop) : List (List Byte) → S → Builder → S → Builder → Prop
  | done (s : S) (b : Builder) : Pass recv same [] s b s b
  | input {f fs s b s1 b1 st s' b'} (h : Header f 2 ∨ Header f 0) (hr : recv s b f = .ok (s1, b1, st))
      (hok : st.ok = true) (rest : Pass recv same fs s1 b1 s' b') : Pass recv same (f :: fs) s b s' b'
  | query {f fs s b re b1 s' b'} (h : Header f 3) (hr : b.release = .ok (re, b1)) (ha : same re f)
      (rest : Pass recv same fs s Builder.init s' b') : Pass recv same (f :: fs) s b s' b'

end Ron.Spec
