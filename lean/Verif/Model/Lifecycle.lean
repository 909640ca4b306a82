import Verif.Model.Replica
/-!
The life of a replica: `db/replica.cc:13-140` over the stores of `db/rocks_store.cc`.

The database is a list of column families. The name of a column family is the id of the store as
text; it is read back when the database is opened (C91), so the id stands for it. The order in which
`unordered_map` lists the stores is not specified; the list stands for any of them. The iterators of
the storage engine merge the value of the key they stop at; if that fails the iterator is invalid and
its status tells so.
-/
namespace Ron

/-- `ACTIVE_STORE_UUID`, `db/replica.cc:10`: `0000active+0`. -/
def ACTIVE_STORE_UUID : Uuid := ⟨BitVec.ofNat 64 (37 * 2 ^ 30 + 39 * 2 ^ 24 + 56 * 2 ^ 18 + 45 * 2 ^ 12 + 58 * 2 ^ 6 + 41), BitVec.ofNat 64 (2 ^ 61)⟩

/-- The column families of a database. -/
abbrev Db := List (Uuid × MemStore)

/-- A store that is open, `db/rocks_store.hpp:24-42`: its data and the cached `tip`. -/
structure OpenStore where
  id : Uuid
  tip : Uuid
  data : MemStore
  deriving DecidableEq, Repr

/-- `Replica`, `db/replica.hpp:51-77`: the stores, `active_` and `now_`. -/
structure Host where
  stores : List OpenStore
  active : Uuid
  now : Word
  deriving DecidableEq, Repr

/-- `RocksDBStore::Create`, `db/rocks_store.cc:131-157`: the data of a new store. -/
def newStore : MemStore := MemStore.insert Key.ZERO [⟨Uuid.NIL, formUuid Form.ZERO, [], .raw⟩] []

namespace Host

/-- `yarn2branch`, `db/replica.hpp:146-148`. -/
def branchId (yarn : Word) : Uuid := Uuid.time NEVER yarn

/-- `stores_.find`. -/
def find (h : Host) (id : Uuid) : Option OpenStore := h.stores.find? fun s => decide (s.id = id)

/-- `HasStore`, `db/replica.hpp:139-142`. -/
def has (h : Host) (id : Uuid) : Bool := (h.find id).isSome

/-- A store is modified in place. -/
def setData (h : Host) (id : Uuid) (data : MemStore) : Host :=
  { h with stores := h.stores.map fun s => if s.id = id then { s with data := data } else s }

/-- `Now`, `db/replica.cc:179-186`. -/
def now' (h : Host) (wall origin : Word) : Uuid × Host :=
  let r := clockNow h.now wall (if origin = 0#64 then h.active.origin else origin)
  (r.2, { h with now := r.1 })

/-- The stores that `Open` has not looked at yet, `db/replica.cc:43-61`. -/
def openLoop (mg : Reducer) : List OpenStore → List OpenStore → Word → Option (Status × List OpenStore × Word)
  | done, [], now => some (Status.OK, done, now)
  | done, s :: rest, now =>
    (Commit.openTip mg s.data s.id).bind fun r =>
      if ¬ r.1.ok then some (r.1, done ++ s :: rest, now)
      else openLoop mg (done ++ [{ s with tip := r.2 }]) rest (clockSee now r.2).1

/-- `Open`, `db/replica.cc:35-72`, of a new `Replica` object. The record of the active store is read,
but the cursor over it is never advanced, so it is never valid (`ron/text.hpp:69-76,94`); that the
store `NIL` is there is asserted. -/
def opened (mg : Reducer) (db : Db) : Option (Status × Host) :=
  (openLoop mg [] (db.map fun s => ⟨s.1, Uuid.NIL, s.2⟩) 0#64).bind fun r =>
    let h : Host := ⟨r.2.1, Uuid.NIL, r.2.2⟩
    if ¬ r.1.ok then some (r.1, h)
    else
      match h.find Uuid.NIL with
      | none => none
      | some m =>
        (Engine.read mg m.data (Key.mk' ACTIVE_STORE_UUID Form.ZERO)).map fun a =>
          let c : ACur := ⟨a.2, Status.ENDOFFRAME, false⟩
          match a.1.ok && c.valid, a.2 with
          | true, o :: _ => (Status.OK, { h with active := if h.has o.ref then o.ref else h.active })
          | _, _ => (Status.OK, h)

/-- `Close`, `db/replica.cc:193-200`: what is left is the database. -/
def close (h : Host) : Db := h.stores.map fun s => (s.id, s.data)

/-- `SetActiveStore`, `db/replica.cc:74-83`. -/
def setActive (wall : Word) (h : Host) (id : Uuid) : Option (Status × Host) :=
  if ¬ h.has id then some (Status.NOT_FOUND, h)
  else
    let n := h.now' wall 0#64
    match n.2.find Uuid.NIL with
    | none => none
    | some m =>
      let w := Engine.write m.data (Key.mk' ACTIVE_STORE_UUID Form.ZERO) [⟨n.1, id, [], .raw⟩]
      if ¬ w.1.ok then some (w.1, n.2)
      else some (Status.OK, { n.2.setData Uuid.NIL w.2 with active := id })

/-- The environment of a commit, `db/replica.hpp:195-202`. -/
def env (mg : Reducer) (hs : Hashing) (wall : Word) (h : Host) : Env := ⟨mg, hs, wall, h.active.origin⟩

/-- A yarn is begun with an op that is saved in a commit of its own, `db/replica.cc:22-33,93-102`. The
status of `SaveChain` is ignored. The data of the store and the clock. -/
def beginYarn (env : Env) (data : MemStore) (tip : Uuid) (now : Word) (id : Uuid) :
    Option (Status × MemStore × Word) :=
  (Commit.saveChain env (Commit.start data tip now)
      ⟨[⟨id, formUuid Form.YARN, [], .raw⟩], Status.ENDOFFRAME, true⟩).map fun r =>
    let s := Commit.save r.2.1
    (s.1, s.2.main, s.2.now)

/-- `CreateBranch`, `db/replica.cc:85-109`. A column family can not be created twice. -/
def createBranch (mg : Reducer) (hs : Hashing) (wall : Word) (h : Host) (yarn : Word) (transcendent : Bool) :
    Option (Status × Host) :=
  let n := if transcendent then (Uuid.time 0#64 yarn, h) else h.now' wall yarn
  let h := n.2
  if h.has (branchId yarn) then some (Status.BADARGS, h)
  else if ¬ h.has Uuid.NIL then none
  else
    let h : Host := { h with stores := h.stores ++ [⟨branchId yarn, Uuid.NIL, newStore⟩] }
    (beginYarn (h.env mg hs wall) newStore Uuid.NIL h.now n.1).map fun r =>
      (r.1, { h.setData (branchId yarn) r.2.1 with now := r.2.2 })

/-- The distinct keys of a store, in order. -/
def keys : MemStore → List Key
  | [] => []
  | [r] => [r.1]
  | r :: q :: s => if r.1 = q.1 then keys (q :: s) else r.1 :: keys (q :: s)

/-- The loop of `ForkBranch`, `db/replica.cc:123-128`, over the keys that the iterator will come to. -/
def copyKeys (mg : Reducer) (orig : MemStore) : MemStore → List Key → Option (Status × MemStore)
  | created, [] => some (Status.OK, created)
  | created, k :: ks =>
    (Engine.read mg orig k).bind fun r =>
      if ¬ r.1.ok then some (Status.OK, created)
      else
        let w := Engine.write created k r.2
        if ¬ w.1.ok then some w else copyKeys mg orig w.2 ks

/-- `ForkBranch`, `db/replica.cc:111-131`. -/
def forkBranch (mg : Reducer) (hs : Hashing) (wall : Word) (h : Host) (new orig : Word) : Option (Status × Host) :=
  if ¬ h.has (branchId orig) then some (Status.NOT_FOUND, h)
  else
    (createBranch mg hs wall h new false).bind fun c =>
      if ¬ c.1.ok then some c
      else
        match c.2.find (branchId orig), c.2.find (branchId new) with
        | some o, some n =>
          match keys o.data with
          | [] => none
          | k :: ks =>
            (Engine.read mg o.data k).bind fun r =>
              if ¬ r.1.ok then some (r.1, c.2)
              else (copyKeys mg o.data n.data ks).map fun w => (w.1, c.2.setData (branchId new) w.2)
        | _, _ => none

/-- `DropStore`, `db/replica.cc:133-143`. The default column family can not be dropped. -/
def dropStore (h : Host) (id : Uuid) : Status × Host :=
  if ¬ h.has id then (Status.NOT_FOUND, h)
  else if id = Uuid.NIL then (Status.DB_FAIL, h)
  else (Status.OK, { h with stores := h.stores.filter fun s => decide (s.id ≠ id) })

/-- `Receive`, `db/replica.cc:695-752`. -/
def receive (mg : Reducer) (hs : Hashing) (wall : Word) (h : Host) (yarn : Word) (cur : ACur) :
    Option (Status × Host) :=
  if h.stores.isEmpty then some (Status.NOTOPEN, h)
  else
    match h.find (branchId yarn) with
    | none => some (Status.NOT_FOUND, h)
    | some s =>
      (Commit.receive (h.env mg hs wall) s.data s.tip h.now cur).map fun r =>
        (r.1, { h.setData s.id r.2.1 with now := r.2.2 })

/-- `CreateReplica`, `db/replica.cc:15-33`, where there is no database yet. The status of `Open` is
ignored. -/
def createReplica (mg : Reducer) (hs : Hashing) (wall : Word) : Option (Status × Db) :=
  (opened mg [(Uuid.NIL, newStore)]).bind fun o =>
    match o.2.find o.2.active with
    | none => none
    | some s =>
      (beginYarn (o.2.env mg hs wall) s.data s.tip o.2.now (Uuid.time wall 0#64)).map fun r =>
        (r.1, (o.2.setData s.id r.2.1).close)

end Host
end Ron
