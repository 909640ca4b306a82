import Verif.Model.Names
import Verif.Model.Recall
import Verif.Model.UuidParser
/-!
The command line, `db/main.cc`. A command is a process of its own: it opens the replica, does its work
and exits; what is left is the database. What is printed is not modelled, but for the status that is
returned (what `dump` prints is in `Model/Dump.lean`). Not modelled: the commands `help`, `version` and
`repair`, which change nothing, and `test`, which works on a replica of its own.
-/
namespace Ron.Cli

/-- `Args`, `db/main.cc:36`: the arguments, the next one first (they are reversed in `main`, and taken
from the back). -/
abbrev Args := List (List Byte)

/-- What a process is given: the reducer and the hash function of the replica, the readings of the wall
clock one after another, the number that `Word::random` returns (`ron/uuid.hpp:122-127`), the cursor
over the contents of a file, before the first op. -/
structure World where
  mg : Reducer
  hs : Hashing
  wall : Nat → Word
  random : Word
  file : List Byte → Option ACur

/-! The words `as`, `on`, `of`. -/
def AS : List Byte := [97, 115]
def ON : List Byte := [111, 110]
def OF : List Byte := [111, 102]

/-- `NUMERIC`, `SNAKE`, `CAMEL`: `ron/uuid.hpp:12`. -/
def NUMERIC : Nat := 0
def SNAKE : Nat := 1
def CAMEL : Nat := 3

/-- The commit and the names of a store, `db/main.cc:76-78`; that the store is there is asserted
(`db/replica.hpp:162-166`). -/
def namesOf (w : World) (h : Host) (store : Uuid) : Option (Status × Names) :=
  if h.has store then h.readNames w.mg w.hs (w.wall 0) store else none

/-- `ResolveName`, `db/main.cc:63-85`. -/
def resolveName (w : World) (h : Host) (name : Uuid) (need : Nat) (global : Bool) : Option (Status × Uuid) :=
  if name.version ≠ Uuid.vNAME then some (Status.OK, name)
  else if name = Uuid.NIL then some (Status.OK, name)
  else if need ≠ NUMERIC ∧ name.value.base64Case ≠ need then some (Status.BADARGS, name)
  else
    (namesOf w h (if global then Uuid.NIL else h.active)).map fun r =>
      if ¬ r.1.ok then (r.1, name)
      else
        match r.2 name with
        | none => (Status.NOT_FOUND, name)
        | some id => (Status.OK, id)

/-- `ScanAsNameArg`, `db/main.cc:87-105`, for a name that is NIL so far. -/
def scanAs (lcase : Nat) : Args → Option (Status × Uuid × Args)
  | [] => some (Status.OK, Uuid.NIL, [])
  | a :: args =>
    if a ≠ AS then some (Status.OK, Uuid.NIL, a :: args)
    else
      match args with
      | [] => some (Status.BADARGS, Uuid.NIL, [])
      | n :: args =>
        (UuidParser.parse n).map fun u =>
          if u.isError then (Status.BADARGS, u, n :: args)
          else if u.version ≠ Uuid.vNAME then (Status.BADARGS, u, n :: args)
          else if lcase ≠ NUMERIC ∧ u.value.base64Case ≠ lcase then (Status.BADARGS, u, n :: args)
          else (Status.OK, u, args)

/-- `ScanOnBranchArg`, `db/main.cc:107-124`; `branch` is what the variable holds so far. -/
def scanOn (w : World) (h : Host) (branch : Uuid) : Args → Option (Status × Uuid × Args)
  | [] => some (Status.OK, h.active, [])
  | a :: args =>
    if a ≠ ON then some (Status.OK, branch, a :: args)
    else
      match args with
      | [] => some (Status.BADARGS, branch, [])
      | n :: args =>
        (UuidParser.parse n).bind fun u =>
          if u.isError then some (Status.BADARGS, u, args)
          else
            (resolveName w h u CAMEL true).map fun r =>
              if ¬ r.1.ok then (r.1, r.2, args)
              else if r.2 ≠ Uuid.NIL ∧ ¬ h.has (Host.branchId r.2.origin) then (Status.BADARGS, r.2, args)
              else (Status.OK, r.2, args)

/-- `ScanOfObjectArg`, `db/main.cc:126-141`, for an object that is NIL so far. -/
def scanOf (w : World) (h : Host) : Args → Option (Status × Uuid × Args)
  | [] => some (Status.OK, Uuid.NIL, [])
  | a :: args =>
    if a ≠ OF then some (Status.OK, Uuid.NIL, a :: args)
    else
      match args with
      | [] => some (Status.BADARGS, Uuid.NIL, [])
      | n :: args =>
        (UuidParser.parse n).bind fun u =>
          if u.isError then some (Status.BADARGS, u, args)
          else (resolveName w h u SNAKE false).map fun r => (r.1, r.2, args)

/-- The name of a new branch, `db/main.cc:164-175,197-208`. -/
def scanTag : Args → Option (Status × Uuid)
  | [] => some (Status.OK, Uuid.NIL)
  | a :: args =>
    if a ≠ AS then some (Status.BADARGS, Uuid.NIL)
    else
      match args with
      | [] => some (Status.BADARGS, Uuid.NIL)
      | n :: args =>
        (UuidParser.parse n).map fun u =>
          if u.isError then (Status.BADARGS, u)
          else if u.value.base64Case ≠ CAMEL then (Status.BADARGS, u)
          else if args ≠ [] then (Status.BADARGS, u)
          else (Status.OK, u)

/-- `Commit{replica, id}.WriteName`; that the store is there is asserted. -/
def putName (w : World) (t : Nat) (h : Host) (store name value : Uuid) : Option (Status × Host) :=
  if h.has store then some (h.writeName w.mg w.hs (w.wall t) store name value) else none

/-- A new branch becomes the active store and gets its name, `db/main.cc:178-183,211-216`. -/
def settle (w : World) (h : Host) (branch tag : Uuid) : Option (Status × Host) :=
  (h.setActive (w.wall 1) branch).bind fun r =>
    if ¬ r.1.ok then some r
    else if tag = Uuid.NIL then some (⟨branch, []⟩, r.2)
    else (putName w 2 r.2 Uuid.NIL tag branch).map fun q => if ¬ q.1.ok then q else (⟨branch, []⟩, q.2)

/-- `CommandCreate`, `db/main.cc:160-184`. -/
def create (w : World) (h : Host) (args : Args) : Option (Status × Host) :=
  (scanTag args).bind fun t =>
    if ¬ t.1.ok then some (t.1, h)
    else
      (h.createBranch w.mg w.hs (w.wall 0) w.random false).bind fun r =>
        if ¬ r.1.ok then some r else settle w r.2 (Host.branchId w.random) t.2

/-- `CommandFork`, `db/main.cc:190-217`. -/
def fork (w : World) (h : Host) (args : Args) : Option (Status × Host) :=
  if h.active = Uuid.NIL then some (Status.BADARGS, h)
  else
    (scanTag args).bind fun t =>
      if ¬ t.1.ok then some (t.1, h)
      else
        (h.forkBranch w.mg w.hs (w.wall 0) w.random h.active.origin).bind fun r =>
          if ¬ r.1.ok then some r else settle w r.2 (Host.branchId w.random) t.2

/-- `CommandDrop`, `db/main.cc:223-232`. -/
def drop (w : World) (h : Host) (args : Args) : Option (Status × Host) :=
  if args = [] then some (Status.BADARGS, h)
  else
    (scanOn w h Uuid.NIL (ON :: args)).map fun b =>
      if ¬ b.1.ok then (b.1, h)
      else if b.2.1 = Uuid.NIL then (Status.BADARGS, h)
      else h.dropStore b.2.1

/-- `SaveChain` of a cursor: its first call is to `id()`, which asserts that there is an op
(`db/replica.cc:370`, `ron/text.hpp:69-74,104-106,121-122`), so a cursor that was not advanced stops the
program. -/
def saveChain (env : Env) (c : Commit) (cur : ACur) : Option (Status × Commit × ACur) :=
  if cur.valid then Commit.saveChain env c cur else none

/-- The op is saved and gets its name, `db/main.cc:476-483`. -/
def saveNew (w : World) (h : Host) (s : OpenStore) (cur : ACur) (name : Uuid) : Option (Status × Host) :=
  let env := h.env w.mg w.hs (w.wall 1)
  (saveChain env (Commit.start s.data s.tip h.now) cur).map fun r =>
    if ¬ r.1.ok then (r.1, { h with now := r.2.1.now })
    else
      let n := if name.zero then (Status.OK, r.2.1) else Commit.putName env r.2.1 name r.2.1.tip
      if ¬ n.1.ok then (n.1, { h.setData s.id n.2.main with now := n.2.now })
      else
        let v := Commit.save n.2
        let h := { h.setData s.id v.2.main with now := v.2.now }
        if ¬ v.1.ok then (v.1, h) else (⟨r.2.1.tip, []⟩, h)

/-- `CommandNew`, `db/main.cc:456-484`. The cursor over the frame of the new op is not advanced, line
474. -/
def new (w : World) (h : Host) : Args → Option (Status × Host)
  | [] => some (Status.BADARGS, h)
  | a :: args =>
    (UuidParser.parse a).bind fun rdt =>
      if rdt.isError then some (Status.BADARGS, h)
      else if uuid2form rdt = Form.ERROR then some (Status.BADARGS, h)
      else
        (scanAs SNAKE args).bind fun n =>
          if ¬ n.1.ok then some (n.1, h)
          else
            (scanOn w h Uuid.NIL n.2.2).bind fun b =>
              if ¬ b.1.ok then some (b.1, h)
              else if b.2.2 ≠ [] then some (Status.BADARGS, h)
              else
                let t := h.now' (w.wall 0) b.2.1.origin
                match t.2.find b.2.1 with
                | none => none
                | some s => saveNew w t.2 s ⟨[⟨t.1, rdt, [], .raw⟩], Status.ENDOFFRAME, false⟩ n.2.1

/-- `CommandGetFrame`, `db/main.cc:360-406`. The branch is not given, so the query goes to the branch of
the yarn zero; its cursor is not advanced either, and neither is the one that looks for a string in the
response. -/
def get (w : World) (h : Host) : Args → Option (Status × Host)
  | [] => some (Status.BADARGS, h)
  | a :: args =>
    (UuidParser.parse a).bind fun rdt =>
      if rdt = Uuid.FATAL ∨ rdt.version ≠ Uuid.vNAME then some (Status.BADARGS, h)
      else
        (scanOf w h args).bind fun o =>
          if ¬ o.1.ok then some (o.1, h)
          else if ¬ h.has h.active then none
          else if o.2.1.version = Uuid.vNAME then some (Status.NOT_IMPLEMENTED, h)
          else if o.2.1.version ≠ Uuid.vTIME then (if o.2.2 = [] then none else some (Status.BADARGS, h))
          else
            (h.receive w.mg w.hs (w.wall 0) 0#64
                ⟨[⟨o.2.1, rdt, [], .query⟩], Status.ENDOFFRAME, false⟩).map fun r =>
              if ¬ r.1.ok then r
              else if o.2.2.head? = some [99, 108, 101, 97, 110] then (Status.BADVALUE, r.2)
              else (Status.OK, r.2)

/-- `CommandWrite`, `db/main.cc:432-443`, with `ReceiveFrame`, `db/replica.hpp:395-403`: the branch is not
given here either. Arguments after the name of the file are not looked at. -/
def write (w : World) (h : Host) (args : Args) : Option (Status × Host) :=
  let h := (h.now' (w.wall 0) 0#64).2
  match w.file (args.headD [45]) with
  | none => some (Status.IOFAIL, h)
  | some cur =>
    if ¬ cur.next.1.ok then some (Status.OK, h)
    else h.receive w.mg w.hs (w.wall 1) 0#64 cur.next.2

/-- `CommandName`, `db/main.cc:575-597`. -/
def name (w : World) (h : Host) : Args → Option (Status × Host)
  | [] => some (Status.BADARGS, h)
  | a :: args =>
    (UuidParser.parse a).bind fun id =>
      if id.isError then some (Status.BADARGS, h)
      else if id.version ≠ Uuid.vTIME then some (Status.BADARGS, h)
      else
        (scanAs NUMERIC args).bind fun n =>
          if ¬ n.1.ok then some (n.1, h)
          else if n.2.1.zero then some (Status.BADARGS, h)
          else
            (scanOn w h Uuid.NIL n.2.2).bind fun b =>
              if ¬ b.1.ok then some (b.1, h)
              else if b.2.2 ≠ [] then some (Status.BADARGS, h)
              else putName w 1 h b.2.1 n.2.1 id

/-- The words `yarns`, `objects`, `versions`, `things`, `db/main.cc:604-609`. -/
def kinds : Args := [[121, 97, 114, 110, 115], [111, 98, 106, 101, 99, 116, 115],
  [118, 101, 114, 115, 105, 111, 110, 115], [116, 104, 105, 110, 103, 115]]

/-- `CommandNamed`, `db/main.cc:603-636`. -/
def named (w : World) (h : Host) (args : Args) : Option (Status × Host) :=
  if ∃ a ∈ args.head?, a ∉ kinds then some (Status.BADARGS, h)
  else
    (scanOn w h Uuid.NIL args.tail).bind fun b =>
      if ¬ b.1.ok then some (b.1, h)
      else if b.2.2 ≠ [] then some (Status.BADARGS, h)
      else (namesOf w h b.2.1).map fun r => (r.1, h)

/-- The words `branches`, `snapshots`, `stores`, `db/main.cc:553`. -/
def listed : Args := [[98, 114, 97, 110, 99, 104, 101, 115], [115, 110, 97, 112, 115, 104, 111, 116, 115],
  [115, 116, 111, 114, 101, 115]]

/-- `CommandList`, `db/main.cc:548-569`. -/
def list (w : World) (h : Host) (args : Args) : Option (Status × Host) :=
  if ∃ a ∈ args.head?, a ∉ listed then some (Status.BADARGS, h)
  else (namesOf w h Uuid.NIL).map fun r => (r.1, h)

/-- `CommandHop`, `db/main.cc:642-646`. Arguments that are left are not looked at. -/
def hop (w : World) (h : Host) (args : Args) : Option (Status × Host) :=
  (scanOn w h Uuid.NIL args).bind fun b => if ¬ b.1.ok then some (b.1, h) else h.setActive (w.wall 0) b.2.1

/-- `CommandOn`, `db/main.cc:652-663`, but for the name that stands in for the id. -/
def on (w : World) (h : Host) : Option (Status × Host) :=
  (namesOf w h Uuid.NIL).map fun _ => (⟨h.active, []⟩, h)

/-- `CommandRecall`, `db/main.cc:412-426`. -/
def recall (v : Rdt.View) (w : World) (h : Host) : Args → Option (Status × Host)
  | [] => some (Status.BADARGS, h)
  | a :: args =>
    (UuidParser.parse a).bind fun version =>
      if version.version ≠ Uuid.vTIME then some (Status.BADARGS, h)
      else
        (scanOf w h args).bind fun o =>
          if ¬ o.1.ok then some (o.1, h)
          else if o.2.1.version ≠ Uuid.vTIME then some (Status.BADARGS, h)
          else if Uuid.lt version o.2.1 then some (Status.BADARGS, h)
          else
            match h.find h.active with
            | none => none
            | some s =>
              (Commit.read (h.env w.mg w.hs (w.wall 0)) (Commit.start s.data s.tip h.now)
                  (Key.mk' o.2.1 Form.LOG) []).bind fun r =>
                if ¬ r.1.ok then some (r.1, h) else (Recall.version v version r.2.1).map fun q => (q.1, h)

/-- The verbs, `db/main.cc:737-764`. -/
inductive Verb where
  | create | fork | now | get | new | list | named | name | write | recall | hop | drop | on
  deriving DecidableEq, Repr

/-- The words for the verbs. -/
def verbs : List (List Byte × Verb) := [
  ([99, 114, 101, 97, 116, 101], .create), ([102, 111, 114, 107], .fork), ([110, 111, 119], .now),
  ([103, 101, 116], .get), ([110, 101, 119], .new), ([108, 105, 115, 116], .list),
  ([110, 97, 109, 101, 100], .named), ([110, 97, 109, 101], .name), ([119, 114, 105, 116, 101], .write),
  ([114, 101, 99, 97, 108, 108], .recall), ([104, 111, 112], .hop), ([100, 114, 111, 112], .drop),
  ([111, 110], .on)]

/-- A command on an open replica. -/
def command (v : Rdt.View) (w : World) (h : Host) (args : Args) : Verb → Option (Status × Host)
  | .create => create w h args
  | .fork => fork w h args
  | .now => let n := h.now' (w.wall 0) 0#64; some (⟨n.1, []⟩, n.2)
  | .get => get w h args
  | .new => new w h args
  | .list => list w h args
  | .named => named w h args
  | .name => name w h args
  | .write => write w h args
  | .recall => recall v w h args
  | .hop => hop w h args
  | .drop => drop w h args
  | .on => on w h

/-- `RunCommands`, `db/main.cc:703-773`, of the commands that work on an existing database, with
`OpenReplica`, `db/main.cc:694-701`: the status and what is on the disk afterwards. -/
def run (v : Rdt.View) (w : World) (db : Db) : Args → Option (Status × Db)
  | [] => some (Status.OK, db)
  | a :: args =>
    (Host.opened w.mg db).bind fun o =>
      if ¬ o.1.ok then some (o.1, db)
      else
        match verbs.lookup a with
        | none => some (Status.BADARGS, db)
        | some verb => (command v w o.2 args verb).map fun r => (r.1, r.2.close)

/-- `CommandInit`, `db/main.cc:147-152`, with `CreateReplica`, `db/replica.cc:15-33`. The replica object is
new, so it is not open, whatever is on the disk. `RocksDBStore::Create(NIL)`, `db/rocks_store.cc:131-157`,
opens the database that is there, which RocksDB refuses if there are column families other than the
default one, and writes the record of the zero key anew. The statuses of `Open` and of `SaveChain` are
ignored. -/
def init (w : World) : Option Db → Option (Status × Db)
  | none => Host.createReplica w.mg w.hs (w.wall 0)
  | some db =>
    match db with
    | [(id, data)] =>
      if id ≠ Uuid.NIL then none
      else
        let data := (Engine.write data Key.ZERO [⟨Uuid.NIL, formUuid Form.ZERO, [], .raw⟩]).2
        (Host.opened w.mg [(id, data)]).bind fun o =>
          match o.2.find o.2.active with
          | none => none
          | some s =>
            (Host.beginYarn (o.2.env w.mg w.hs (w.wall 0)) s.data s.tip o.2.now (Uuid.time (w.wall 0) 0#64)).map
              fun r => (r.1, (o.2.setData s.id r.2.1).close)
    | _ => some (Status.DB_FAIL, db)

end Ron.Cli
