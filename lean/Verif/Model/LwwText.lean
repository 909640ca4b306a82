import Verif.Model.Compare
/-!
Last-write-wins objects over text frames: `rdt/lww_obj.hpp:18-39,47-53,60,67-72`.
-/
namespace Ron.LwwText

/-- `vals_`: a string is kept as a range of the bytes of its frame (`ron/uuid.hpp:162-192`). -/
abbrev Vals := Uuid → Option Atom

/-- `LWWObject::Update(const Cursor&)`, `rdt/lww_obj.hpp:18-24`. `atom(3)` parses integers and floats (`ron/text.hpp:121-126`),
what comes of it is left out. -/
def update (m : Vals) (c : Cursor) : Out Vals :=
  match c.op with
  | _ :: _ :: k :: v :: _ =>
    if k.type = Atom.tUUID then (Cursor.parsed c v).bind fun _ => .ok fun x => if x = k then some v else m x else .ok m
  | _ => .ok m

def updates (m : Vals) : List Cursor → Out Vals
  | [] => .ok m
  | c :: cs => (update m c).bind fun m => updates m cs

/-- `LWWObject::Update(Frame)`, `rdt/lww_obj.hpp:26-31`; `n` is the fuel. The constructor (`rdt/lww_obj.hpp:35-39`) does the
same to an empty object: its first turn sees no op. -/
def updateFrame (n : Nat) (m : Vals) (text : List Byte) : Out (Option Vals) :=
  (Cursor.iterate n (Cursor.init text)).bind fun r =>
    match r with
    | none => .ok none
    | some r => (updates m r.1).bind fun m => .ok (some m)

def updateFrames (n : Nat) (m : Vals) : List (List Byte) → Out (Option Vals)
  | [] => .ok (some m)
  | t :: ts => (updateFrame n m t).bind fun r =>
    match r with
    | none => .ok none
    | some m => updateFrames n m ts

/-- `LWWObject::string`, `rdt/lww_obj.hpp:67-72`, and `atom`, `rdt/lww_obj.hpp:47-53`: the string is read from the frame of
`cur_`. If there is no string the atom is the zero UUID, and the assert of `ReadString` (`ron/frames.hpp:127`) fails. -/
def string (buf : List Byte) (m : Vals) (key : Uuid) : Out (List Byte) :=
  match m key with
  | none => .abort
  | some a => if a.type = Atom.tSTRING then Cursor.readString buf a else .abort

/-- An object of the frame `state` that got the frames `ts` by `Update` is asked for a string. -/
def stringOf (n : Nat) (state : List Byte) (ts : List (List Byte)) (key : Uuid) : Out (Option (List Byte)) :=
  (updateFrames n (fun _ => none) (state :: ts)).bind fun r =>
    match r with
    | none => .ok none
    | some m => (string state m key).bind fun s => .ok (some s)

/-- `LWWObject::uuid`, `rdt/lww_obj.hpp:60`, and `atom`, `rdt/lww_obj.hpp:47-53`. -/
def uuid (m : Vals) (key : Uuid) : Uuid :=
  match m key with
  | none => Uuid.NIL
  | some a => if a.type = Atom.tUUID then a else Uuid.NIL

/-- An object of the frame `state` that got the frames `ts` by `Update` is asked for a UUID. -/
def uuidOf (n : Nat) (state : List Byte) (ts : List (List Byte)) (key : Uuid) : Out (Option Uuid) :=
  (updateFrames n (fun _ => none) (state :: ts)).bind fun r =>
    match r with
    | none => .ok none
    | some m => .ok (some (uuid m key))

end Ron.LwwText
