import Verif.Model.Lww
/-!
Writing to a last-write-wins object: `rdt/lww_obj.hpp:9-44`.
-/
namespace Ron
namespace Lww

/-- `LWWObject`, `rdt/lww_obj.hpp:13-15`: `vals_` and `last_`. Values are resolved here, `cur_` is left out. -/
structure Obj where
  vals : Vals
  last : Uuid

/-- `LWWObject::Update(const Cursor&)`, `rdt/lww_obj.hpp:18-24`. -/
def Obj.update (s : Obj) (o : AOp) : Obj :=
  match o.vals with
  | .uuid _ :: _ :: _ => ⟨Lww.update s.vals o, o.id⟩
  | _ => s

/-- `LWWObject::Update(Frame)`, `rdt/lww_obj.hpp:26-31`. -/
def Obj.updateAll (s : Obj) (ops : List AOp) : Obj := ops.foldl Obj.update s

/-- `LWWObject(const Frame&)`, `rdt/lww_obj.hpp:35-39`. -/
def Obj.open (ops : List AOp) : Obj := Obj.updateAll ⟨fun _ => none, Uuid.NIL⟩ ops

/-- `LWWObject::Write`, `rdt/lww_obj.hpp:41-45`, and `OneOp`, `ron/frames.hpp:87-93`: `last_` is set before it is used as
the reference. The values stay as they were, the frame is to be passed to `Update`. How the op is written as text is the
subject of C22 and C117. -/
def Obj.write (s : Obj) (id key : Uuid) (vals : List AVal) : List AOp × Obj :=
  let s : Obj := ⟨s.vals, id⟩
  ([⟨id, s.last, .uuid key :: vals, .raw⟩], s)

end Lww
end Ron
