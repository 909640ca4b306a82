import Verif.Model.HashStream
import Verif.Model.Replica
/-!
Comparison of frames: `ron/frames.hpp:20-85`, for text frames.

`feq` is the comparison of two floats as they are written: `strtod` of both, then `==`.
-/
namespace Ron.Cursor

/-- `Cursor::valid()`, `ron/text.hpp:94`. -/
def valid (cur : Cursor) : Bool := cur.cs != 0

/-- `ReadString(to, c, a)`, `ron/frames.hpp:122-137`. Its result is dropped by `CompareOps`, so the
text of a string that cannot be read to the end is what was read. -/
def readString (buf : List Byte) (a : Atom) : Out (List Byte) :=
  if a.cp ≠ 0 then .ok (utf8append a.cp)
  else (readCps buf (a.cpSize + 1) a).bind fun cs => .ok (cs.flatMap utf8append)

/-- `a.atom(i)` for the `i`-th atom: `ParseAtom`, `ron/text.hpp:48-62`. It converts integers and
floats and leaves the rest as it is. -/
def parsed (cur : Cursor) (a : Atom) : Out Val :=
  if a.type = Atom.tINT then
    (atomData cur.buf a).bind fun d => (Out.ofOption (parseInteger d)).bind fun v => .ok (.int v)
  else if a.type = Atom.tFLOAT then (floatText cur.buf a).bind fun d => .ok (.float d)
  else if a.type = Atom.tSTRING then .ok (.str [] 0)
  else .ok (.uuid a)

/-- One turn of the loop of `CompareOps`, `ron/frames.hpp:25-47`: are the two atoms equal? -/
def sameAtom (feq : List Byte → List Byte → Bool) (a b : Cursor) (x y : Atom) : Out Bool :=
  (parsed a x).bind fun vx => (parsed b y).bind fun vy =>
    if x.type ≠ y.type then .ok false
    else match vx, vy with
      | .int i, .int j => .ok (i == j)
      | .float s, .float t => .ok (feq s t)
      | .uuid u, .uuid v => .ok (u == v)
      | _, _ => (readString a.buf x).bind fun s => (readString b.buf y).bind fun t => .ok (s == t)

/-- The loop of `CompareOps` over two ops of the same size. -/
def sameAtoms (feq : List Byte → List Byte → Bool) (a b : Cursor) : List Atom → List Atom → Out Bool
  | x :: xs, y :: ys =>
    (sameAtom feq a b x y).bind fun e => if e then sameAtoms feq a b xs ys else .ok false
  | _, _ => .ok true

/-- `CompareOps`, `ron/frames.hpp:19-50`. Comments of statuses are left out. `id()` and `ref()`
fail an assert on an op with less than two atoms. -/
def compareOps (feq : List Byte → List Byte → Bool) (a b : Cursor) : Out Status :=
  match a.op, b.op with
  | ia :: ra :: xs, ib :: rb :: ys =>
    if ia ≠ ib then .ok .BADID
    else if ra ≠ rb then .ok .BADREF
    else if xs.length ≠ ys.length then .ok .BADVALUE
    else (sameAtoms feq a b xs ys).bind fun e => .ok (if e then .OK else .BADVALUE)
  | _, _ => .abort

/-- `while (a.valid() && a.id() == Uuid::COMMENT) a.Next();`, `ron/frames.hpp:55,65`. `none` inside
`ok`: out of fuel. -/
def skipComments : Nat → Cursor → Out (Option Cursor)
  | 0, _ => .ok none
  | fuel + 1, a =>
    if a.valid ∧ a.id = some COMMENT then (next a).bind fun r => skipComments fuel r.1
    else .ok (some a)

/-- The end of `CompareWithCursors`, `ron/frames.hpp:65-73`. -/
def compareTail (fuel : Nat) (a b : Cursor) : Out (Option Status) :=
  (skipComments fuel a).bind fun a' => (skipComments fuel b).bind fun b' =>
    match a', b' with
    | some a', some b' => .ok (some (if a'.valid || b'.valid then .BADFRAME else .OK))
    | _, _ => .ok none

/-- `CompareWithCursors`, `ron/frames.hpp:52-74`. -/
def compareCursors (feq : List Byte → List Byte → Bool) : Nat → Cursor → Cursor → Out (Option Status)
  | 0, _, _ => .ok none
  | fuel + 1, a, b =>
    if a.valid && b.valid then
      (skipComments (fuel + 1) a).bind fun a' => (skipComments (fuel + 1) b).bind fun b' =>
        match a', b' with
        | some a', some b' =>
          if !a'.valid || !b'.valid then compareTail (fuel + 1) a' b'
          else (compareOps feq a' b').bind fun st =>
            if !st.ok then .ok (some st)
            else (next a').bind fun ra => (next b').bind fun rb =>
              compareCursors feq fuel ra.1 rb.1
        | _, _ => .ok none
    else compareTail (fuel + 1) a b

/-- `CompareFrames`, `ron/frames.hpp:76-85`; `frame.cursor()` is a cursor before the first op. -/
def compareFrames (feq : List Byte → List Byte → Bool) (fuel : Nat) (a b : List Byte) :
    Out (Option Status) :=
  (next (init a)).bind fun ra => (next (init b)).bind fun rb =>
    if ra.2 ≠ rb.2 then .ok (some .BADVALUE) else compareCursors feq fuel ra.1 rb.1

end Ron.Cursor
