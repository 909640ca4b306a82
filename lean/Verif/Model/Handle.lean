import Verif.Model.Word
import Verif.Model.Status
/-!
Handles of stores: which of `db_` and `cf_` are set, `db/rocks_store.cc:131-248`. What is written and read is left out here
(see `Model/Store`, `Model/Replica`); keys are not `Key::END`; `tip`, `OpenAll`, `Repair` and iterators are left out. What RocksDB does is assumed: a database is opened without
a list of families only if it has no family but the default one; a family is not created twice; the default one is not
dropped; other calls succeed. There is one handle: databases opened by other handles or processes are left out.
-/
namespace Ron.Handle

/-- The database in the directory `ROCKSDB_STORE_DIR`: the families it has besides the default one, if it is there. -/
abbrev Disk := Option (List Uuid)

/-- `RocksDBStore`, `db/rocks_store.hpp:24-31`: is `db_` set, and the family that `cf_` is a handle of (`NIL` is the default
one). -/
structure Handle where
  db : Bool
  cf : Option Uuid
  deriving DecidableEq

/-- `RocksDBStore()`, `db/rocks_store.hpp:40`. -/
def closed : Handle := ⟨false, none⟩

abbrev Result := Status × Handle × Disk

/-- `DB::Open(options, ROCKSDB_STORE_DIR, &db)` succeeds. -/
def opens (d : Disk) : Bool := d == some []

/-- `RocksDBStore::Create`, `db/rocks_store.cc:131-157`. -/
def create (h : Handle) (d : Disk) (id : Uuid) : Result :=
  if h.db = false ∧ d ≠ none ∧ opens d = false then (Status.DB_FAIL, h, d)
  else
    let fs := d.getD []
    if id = Uuid.NIL then (Status.OK, ⟨true, some Uuid.NIL⟩, some fs)
    else if id ∈ fs then (Status.DB_FAIL, ⟨true, h.cf⟩, some fs)
    else (Status.OK, ⟨true, some id⟩, some (id :: fs))

/-- `RocksDBStore::Open`, `db/rocks_store.cc:160-175`. -/
def open_ (h : Handle) (d : Disk) (id : Uuid) : Result :=
  if h.db then (Status.BAD_STATE, h, d)
  else if opens d = false then (Status.DB_FAIL, h, d)
  else if id.zero = false then (Status.NOT_IMPLEMENTED, ⟨true, h.cf⟩, d)
  else (Status.OK, ⟨true, h.cf⟩, d)

/-- `Write(Key, const Frame&)` and `Read`, `db/rocks_store.cc:194-232`: `none` is the use of a null handle of a family. -/
def access (h : Handle) (d : Disk) : Option Result :=
  if h.db = false then some (Status.BAD_STATE, h, d)
  else if h.cf = none then none
  else some (Status.OK, h, d)

/-- `Write(const Records&)`, `db/rocks_store.cc:235-248`: `db_` is not looked at. RocksDB takes a null handle in a batch for
the default family. -/
def batch (h : Handle) (d : Disk) : Option Result := if h.db = false then none else some (Status.OK, h, d)

/-- `Close`, `db/rocks_store.cc:186-191`. -/
def close (h : Handle) (d : Disk) : Result :=
  if h.db = false then (Status.BAD_STATE, h, d) else (Status.OK, closed, d)

/-- `Drop`, `db/rocks_store.cc:178-183`. -/
def drop (h : Handle) (d : Disk) : Option Result :=
  match h.db, h.cf with
  | true, some id =>
    if id = Uuid.NIL then some (Status.DB_FAIL, h, d)
    else some (close h (d.map fun fs => fs.filter fun x => decide (x ≠ id)))
  | _, _ => none

inductive Call where
  | create (id : Uuid)
  | open_ (id : Uuid)
  | access
  | batch
  | close
  | drop

/-- A call of a method. -/
def call (h : Handle) (d : Disk) : Call → Option Result
  | .create id => some (create h d id)
  | .open_ id => some (open_ h d id)
  | .access => access h d
  | .batch => batch h d
  | .close => some (close h d)
  | .drop => drop h d

end Ron.Handle
