import Verif.Spec.Builder
/-!
A test script: comments with the terminator `!` or `?` are the headers of tests.
-/
namespace Ron.Spec
open Ron

/-- The id of comments, the name `~`. -/
def tilde : Uuid := ⟨BitVec.ofNat 64 (63 * 2 ^ 54), 0#64⟩

/-- The header of a test. -/
def isHead (x : Nat × OpView) : Bool := decide (x.2.id = tilde) && (decide (x.1 = 2) || decide (x.1 = 3))

/-- The ops of the tests: a header begins a new one. -/
def testsOf : List (Nat × OpView) → List (List (Nat × OpView))
  | [] => []
  | x :: l =>
    match testsOf l with
    | [] => [[x]]
    | t :: ts => if l.head?.any isHead then [x] :: t :: ts else (x :: t) :: ts

/-- The id of the last op, or the one before. -/
def lastOp : Uuid → List (Nat × OpView) → Uuid
  | p, [] => p
  | _, x :: l => lastOp x.2.id l

/-- A test taken out of the script after an op with the id `p`: a reference to that op becomes NIL. -/
def freed (p : Uuid) : List (Nat × OpView) → List (Nat × OpView)
  | [] => []
  | (t, o) :: l => (t, { o with ref := if o.ref = p then Uuid.NIL else o.ref }) :: l

/-- The tests taken out of the script. -/
def freedAll : Uuid → List (List (Nat × OpView)) → List (List (Nat × OpView))
  | _, [] => []
  | p, l :: ls => freed p l :: freedAll (lastOp p l) ls

/-- No test begins with an op whose id goes on from the test before or from NIL; only the first one may refer to
NIL. -/
def Apart : Uuid → List (List (Nat × OpView)) → Prop
  | _, [] => True
  | p, l :: ls => (∀ x ∈ l.head?, x.2.id ≠ p.inc ∧ x.2.id ≠ Uuid.NIL.inc ∧ (x.2.ref ≠ Uuid.NIL ∨ p = Uuid.NIL)) ∧
      Apart (lastOp p l) ls

end Ron.Spec
