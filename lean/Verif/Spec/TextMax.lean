import Verif.Spec.Compare
/-!
Values of ops of a max object.
-/
namespace Ron.Spec

/-- The first value, if it is an integer. -/
def intAt (o : OpView) : Option Int :=
  match o.vals with
  | .int i :: _ => some i
  | _ => none

/-- The first value, if it is a uuid. -/
def uuidAt (o : OpView) : Option Uuid :=
  match o.vals with
  | .uuid u :: _ => some u
  | _ => none

end Ron.Spec
