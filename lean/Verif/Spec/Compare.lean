import Verif.Model.Compare
import Verif.Spec.Split
/-!
Specification: what a text frame says, and when two frames say the same.
-/
namespace Ron.Spec

/-- A value as its reader sees it; a float is kept as it is written, a text is its UTF-8 bytes. -/
inductive View where
  | uuid (u : Uuid)
  | int (i : Int)
  | float (text : List Byte)
  | text (bytes : List Byte)
  deriving DecidableEq, Repr

/-- An op as its reader sees it. -/
structure OpView where
  id : Uuid
  ref : Uuid
  vals : List View
  deriving DecidableEq, Repr

/-- Reading an atom of a cursor: an integer or a float is parsed, a string is read, either the
character of a spread or all of the characters. -/
def viewAtom (cur : Cursor) (a : Atom) : Out View :=
  if a.type = Atom.tINT then
    (atomData cur.buf a).bind fun d => (Out.ofOption (parseInteger d)).bind fun v => .ok (.int v)
  else if a.type = Atom.tFLOAT then (Cursor.floatText cur.buf a).bind fun d => .ok (.float d)
  else if a.type = Atom.tSTRING then (Cursor.readString cur.buf a).bind fun s => .ok (.text s)
  else .ok (.uuid a)

/-- All the results, if there are no failures. -/
def collect {α β : Type} (f : α → Out β) : List α → Out (List β)
  | [] => .ok []
  | a :: as => (f a).bind fun b => (collect f as).bind fun bs => .ok (b :: bs)

/-- The op a cursor is at. -/
def viewOp (cur : Cursor) : Out OpView :=
  match cur.op with
  | id :: ref :: vals => (collect (viewAtom cur) vals).bind fun vs => .ok ⟨id, ref, vs⟩
  | _ => .abort

/-- The frame can be read: it has these ops, and iterating it ends with this status. -/
def Contents (buf : List Byte) (ops : List OpView) (st : Cursor.NextStatus) : Prop :=
  ∃ fuel l, Cursor.iterate fuel (Cursor.init buf) = .ok (some (l, st)) ∧ collect viewOp l = .ok ops

/-- The same value; `feq` is equality of floats as written. -/
def View.Same (feq : List Byte → List Byte → Bool) : View → View → Prop
  | .uuid u, .uuid v => u = v
  | .int i, .int j => i = j
  | .float s, .float t => feq s t = true
  | .text s, .text t => s = t
  | _, _ => False

/-- The same length, and the same in each place. -/
inductive Same2 {α β : Type} (R : α → β → Prop) : List α → List β → Prop
  | nil : Same2 R [] []
  | cons {a b as bs} : R a b → Same2 R as bs → Same2 R (a :: as) (b :: bs)

/-- The same op. -/
structure OpView.Same (feq : List Byte → List Byte → Bool) (a b : OpView) : Prop where
  id : a.id = b.id
  ref : a.ref = b.ref
  vals : Same2 (View.Same feq) a.vals b.vals

/-- Equality of floats is an equivalence. (The text of a float has no NaN.) -/
structure Equiv (feq : List Byte → List Byte → Bool) : Prop where
  refl : ∀ s, feq s s = true
  symm : ∀ s t, feq s t = true → feq t s = true
  trans : ∀ s t u, feq s t = true → feq t u = true → feq s u = true

/-- The ops that are not comments. -/
def events (l : List OpView) : List OpView := l.filter fun v => decide (v.id ≠ COMMENT)

end Ron.Spec
