import Verif.Spec.Cli
/-!
What a name given from the command line should do.
-/
namespace Ron.Spec
open Ron

/-- The key of the record of names. -/
def namesKey : Key := Key.mk' Uuid.NIL Form.LWW

/-- A name was given in one of the stores: it is the last one in its record of names, and nothing else is
different. -/
structure NamedIn (db db' : Db) (store name value : Uuid) : Prop where
  stores : db'.map Prod.fst = db.map Prod.fst
  others : ∀ s ∈ db, s.1 ≠ store → s ∈ db'
  given : ∀ m, (store, m) ∈ db → ∃ m' o, (store, m') ∈ db' ∧ namesOf m' = namesOf m ++ [o] ∧
    o.vals = [.uuid name, .uuid value] ∧ ∀ k, k ≠ namesKey → stored k m' = stored k m

/-- The arguments that tell the branch: none, the id of a branch, or the name that it was given last, as long
as the stamps of the names are in order. -/
inductive BranchArg (db : Db) : Cli.Args → Uuid → Prop where
  | none : BranchArg db [] Uuid.NIL
  | id {b : List Byte} {y : Word} {d : MemStore} : UuidParser.parse b = some (Host.branchId y) →
    (Host.branchId y, d) ∈ db → BranchArg db [[111, 110], b] (Host.branchId y)
  | name {b : List Byte} {B : Uuid} {y : Word} {m d : MemStore} : UuidParser.parse b = some B → B.isError = false →
    B.version = Uuid.vNAME → B.value.base64Case = 3 → (Uuid.NIL, m) ∈ db → IdSorted (namesOf m) →
    lastNamed (givenIn (namesOf m)) B = some (Host.branchId y) → (Host.branchId y, d) ∈ db →
    BranchArg db [[111, 110], b] (Host.branchId y)

/-- What can be named, and what it can be called: an event, by a `NAME` other than zero. -/
structure Nameable (id name : Uuid) : Prop where
  event : id.version = Uuid.vTIME
  good : name.isError = false
  kind : name.version = Uuid.vNAME
  nonzero : name.zero = false

end Ron.Spec
