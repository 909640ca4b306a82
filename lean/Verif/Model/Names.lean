import Verif.Model.Lifecycle
/-!
The names of versions, `db/replica.cc:146-174`.
-/
namespace Ron

/-- `Names`, `db/replica.hpp:46`: an `unordered_map` from names to UUIDs. -/
abbrev Names := Uuid → Option Uuid

namespace Commit

/-- `GetFrame`, `db/replica.cc:443-451`. -/
def getFrame (env : Env) (c : Commit) (id rdt : Uuid) : Option (Status × Frame × Commit) :=
  if uuid2form rdt = Form.ZERO then some (Status.NOTYPE, [], c)
  else read env c (Key.ofUuids id rdt) []

/-- The body of the loop of `ReadNames`, `db/replica.cc:163-170`: ops of two UUIDs, others are
passed over. -/
def addName (names : Names) (o : AOp) : Names :=
  match o.vals with
  | [.uuid k, .uuid v] => fun x => if x = k then some v else names x
  | _ => names

/-- `ReadNames`, `db/replica.cc:157-172`, into an empty map. -/
def readNames (env : Env) (c : Commit) : Option (Status × Names × Commit) :=
  (getFrame env c Uuid.NIL (formUuid Form.LWW)).map fun r =>
    if ¬ r.1.ok then (r.1, fun _ => none, r.2.2)
    else (Status.OK, r.2.1.foldl addName fun _ => none, r.2.2)

end Commit

namespace Host

/-- A commit on an open store that only reads the names: `Commit{replica, id}.ReadNames`, as in
`ResolveName` and the commands `named`, `list` and `on`, `db/main.cc:76-78,561-562,622-625,655-656`. -/
def readNames (mg : Reducer) (hs : Hashing) (wall : Word) (h : Host) (id : Uuid) : Option (Status × Names) :=
  match h.find id with
  | none => some (Status.NOT_FOUND, fun _ => none)
  | some s => (Commit.readNames (h.env mg hs wall) (Commit.start s.data s.tip h.now)).map fun r => (r.1, r.2.1)

/-- A commit on an open store that only writes a name: `Commit{replica, id}.WriteName(key, value)`, the
command `name`, `db/main.cc:592-597`. -/
def writeName (mg : Reducer) (hs : Hashing) (wall : Word) (h : Host) (id key value : Uuid) : Status × Host :=
  match h.find id with
  | none => (Status.NOT_FOUND, h)
  | some s =>
    let r := Commit.putName (h.env mg hs wall) (Commit.start s.data s.tip h.now) key value
    (r.1, { h.setData s.id r.2.main with now := r.2.now })

end Host
end Ron
