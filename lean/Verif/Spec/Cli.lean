import Verif.Model.Cli
import Verif.Spec.Names
/-!
What is done from the command line.
-/
namespace Ron.Spec
open Ron

/-- A process is given the reducers of the library. -/
structure Fair (v : Rdt.View) (hs : Hashing) (w : Cli.World) : Prop where
  mg : w.mg = Rdt.mergeCursors v
  hs : w.hs = hs

/-- The random number is that of a yarn. -/
def Lucky (w : Cli.World) : Prop := w.random.payload ≠ 0

/-- The clock has not come to its end. -/
def InTime (db : Db) (w : Cli.World) : Prop :=
  ∀ st h, Host.opened w.mg db = some (st, h) → (clockNow h.now (w.wall 0) w.random).1.toNat < NEVER.toNat

/-- A database after commands, whatever they returned. A replica may be initialized again. -/
inductive Used (v : Rdt.View) (hs : Hashing) : Db → Prop where
  | init {w : Cli.World} {st : Status} {db : Db} : Fair v hs w → Cli.init w none = some (st, db) → Used v hs db
  | again {w : Cli.World} {st : Status} {db db' : Db} : Used v hs db → Fair v hs w →
    Cli.init w (some db) = some (st, db') → Used v hs db'
  | run {w : Cli.World} {st : Status} {db db' : Db} {args : Cli.Args} : Used v hs db → Fair v hs w → Lucky w →
    InTime db w → Cli.run v w db args = some (st, db') → Used v hs db'

/-- Nothing is lost: every store is there, with all of its records. -/
def Grown (db db' : Db) : Prop := ∀ s ∈ db, ∃ d, (s.1, d) ∈ db' ∧ List.Sublist s.2 d

end Ron.Spec
