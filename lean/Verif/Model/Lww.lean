import Verif.Model.Rdt
import Verif.Model.Utf
/-!
Reading and compacting last-write-wins objects: `rdt/lww_obj.hpp`, `rdt/lww.hpp:27-61`.
-/
namespace Ron
namespace Lww

/-- `enum ATOM`, `ron/const.hpp:30`. -/
inductive AType where
  | uuid | int | str | float
  deriving DecidableEq, Repr

/-- `Atom::type()`, `ron/uuid.hpp:182`. -/
def typeOf : AVal → AType
  | .uuid _ => .uuid
  | .int _ => .int
  | .str _ => .str
  | .float _ => .float

/-- `vals_`: `std::unordered_map<Uuid, Atom>`. -/
abbrev Vals := Uuid → Option AVal

/-- `LWWObject::Update(const Cursor&)`, `rdt/lww_obj.hpp:18-24`: ops with less than two values or
with a key that is not a UUID are skipped. -/
def update (m : Vals) (o : AOp) : Vals :=
  match o.vals with
  | .uuid k :: v :: _ => fun x => if x = k then some v else m x
  | _ => m

/-- `LWWObject(const Frame&)`, `rdt/lww_obj.hpp:35-39`. The first turn of the loop sees the empty
op of a fresh cursor and skips it. -/
def obj (ops : List AOp) : Vals := ops.foldl update fun _ => none

/-- `LWWObject::Update(Frame)`, `rdt/lww_obj.hpp:26-31`. A string atom read later by `string`
would be looked up in the first frame (`cur_`), not in the one it comes from: this is in
`Verif.Model.LwwText`, here values are resolved. -/
def updateAll (m : Vals) (ops : List AOp) : Vals := ops.foldl update m

/-- `LWWObject::atom`, `rdt/lww_obj.hpp:47-53`. -/
def atom (m : Vals) (key : Uuid) (type : AType) : AVal :=
  match m key with
  | none => .uuid Uuid.NIL
  | some v => if typeOf v = type then v else .uuid Uuid.NIL

/-- `LWWObject::uuid`, `rdt/lww_obj.hpp:60`. -/
def uuid (m : Vals) (key : Uuid) : Uuid :=
  match atom m key .uuid with
  | .uuid u => u
  | _ => Uuid.NIL

/-- `LWWObject::number`, `rdt/lww_obj.hpp:62-65`: `a.value.as_integer` is converted to `double`.
The result is that integer; `none` is NaN. -/
def number (m : Vals) (key : Uuid) : Option Int :=
  match atom m key .float with
  | .float bits => some bits.toInt
  | _ => none

/-- `LWWObject::string`, `rdt/lww_obj.hpp:67-72`, `ReadString`, `ron/frames.hpp:126-137`: the
UTF-8 text; `none` is the failed assertion `a.type() == STRING`. -/
def string (m : Vals) (key : Uuid) : Option (List Byte) :=
  match atom m key .str with
  | .str cps => some (cps.flatMap utf8append)
  | _ => none

/-! ### `LastWriteWinsRDT::GC` -/

/-- An op and the origin word of its third atom: a UUID origin, or a byte range with the type
flags in the two top bits (`ron/uuid.hpp:162-192`). -/
structure Raw where
  op : AOp
  korigin : Word
  deriving DecidableEq, Repr

/-- `Slice key{input.data(), atom(2).origin.as_range}`, `rdt/lww.hpp:35,46`: begin in the low
half of the word, end in the high one; the bytes of the frame in between. Undefined if it does
not lie inside of the frame. -/
def keySlice (data : List Byte) (w : Word) : Option (List Byte) :=
  let b := w.toNat % 2 ^ 32
  let e := w.toNat / 2 ^ 32
  if b ≤ e ∧ e ≤ data.length then some ((data.drop b).take (e - b)) else none

/-- `rdt/lww.hpp:31-37`: `last`. -/
def lastIds (data : List Byte) : List Raw → (List Byte → Uuid) → Option (List Byte → Uuid)
  | [], m => some m
  | o :: os, m =>
    match o.op.vals with
    | [] => lastIds data os m
    | _ :: _ =>
      match keySlice data o.korigin with
      | none => none
      | some k => lastIds data os fun x => if x = k then o.op.id else m x

/-- `rdt/lww.hpp:43-49`: the ops appended. -/
def filterOps (data : List Byte) (m : List Byte → Uuid) : List Raw → Option (List AOp)
  | [] => some []
  | o :: os =>
    match o.op.vals with
    | [] => filterOps data m os
    | _ :: _ =>
      match keySlice data o.korigin with
      | none => none
      | some k =>
        (filterOps data m os).map fun r => if m k = o.op.id then o.op :: r else r

/-- `LastWriteWinsRDT::GC`, `rdt/lww.hpp:30-52`. The test for the header (`filter.op().size() ==
2`) sees the empty op of a cursor that has not been moved yet, so it never succeeds. A key with no
entry yet gives the zero UUID, as `unordered_map::operator[]` does. -/
def gc (data : List Byte) (ops : List Raw) : Option (List AOp) :=
  (lastIds data ops fun _ => Uuid.NIL).bind fun m => filterOps data m ops

end Lww
end Ron
