import Verif.Model.Lifecycle
import Verif.Model.UuidParser
/-!
The column families of a database, by their names. The rest of the model has the ids of the stores instead
(`Model/Lifecycle.lean`).
-/
namespace Ron.Families

/-- `kDefaultColumnFamilyName` of RocksDB: `default`. -/
def DEFAULT : List Byte := [100, 101, 102, 97, 117, 108, 116]

/-- The column family of a store, `db/rocks_store.cc:145-150`. -/
def familyName (id : Uuid) : List Byte := if id ≠ Uuid.NIL then id.str else DEFAULT

/-- The store of a column family, `db/rocks_store.cc:345-347`. -/
def familyId (name : List Byte) : Option Uuid := if name = DEFAULT then some Uuid.NIL else UuidParser.parse name

/-- The column families of the stores. -/
def families (db : Db) : List (List Byte × MemStore) := db.map fun s => (familyName s.1, s.2)

/-- The loop of `OpenAll`, `db/rocks_store.cc:343-350`: `emplace` leaves alone what is there already. -/
def openLoop : Db → List (List Byte × MemStore) → Option Db
  | done, [] => some done
  | done, f :: fs =>
    (familyId f.1).bind fun id =>
      openLoop (if done.any fun s => decide (s.1 = id) then done else done ++ [(id, f.2)]) fs

/-- `OpenAll`, `db/rocks_store.cc:318-353`: the stores by their ids. -/
def openAll (fs : List (List Byte × MemStore)) : Option Db := openLoop [] fs

end Ron.Families
