import Verif.Lemmas.Families
import Verif.Props.Cli
/-!
C91: the names under which stores are kept.
-/
namespace Ron.Props
open Ron Host Spec Families

/-! ## C91 — stores are found again under their ids -/

/-- Whatever was done to a replica: its stores are kept in column families of different names, and opening these gives
the same stores with the same ids. -/
theorem C91_reopened (mg : Reducer) (hs : Hashing) (P : Host → HostCall → Prop) (h : Host) (l : Lived mg hs P h) :
    ((families h.close).map Prod.fst).Nodup ∧ openAll (families h.close) = some h.close :=
  ⟨named_names l.named, openLoop_all h.close [] l.named⟩

/-- The same for what is left by the command line. -/
theorem C91_used (v : Rdt.View) (hs : Hashing) (db : Db) (u : Used v hs db) :
    ((families db).map Prod.fst).Nodup ∧ openAll (families db) = some db :=
  ⟨named_names u.named, openLoop_all db [] u.named⟩

/-- The column family of a branch that there is none of is not there, so that it can be created. -/
theorem C91_created (mg : Reducer) (hs : Hashing) (P : Host → HostCall → Prop) (h : Host) (l : Lived mg hs P h) (yarn : Word)
    (hn : h.has (branchId yarn) = false) : familyName (branchId yarn) ∉ (families h.close).map Prod.fst := by
  intro hm
  obtain ⟨f, hf, e⟩ := List.mem_map.1 hm
  obtain ⟨s, hsm, rfl⟩ := List.mem_map.1 hf
  have := family_inj (l.named.ids s hsm) (.inr ⟨yarn, rfl⟩) e
  rw [(has_iff _ _).2 ⟨s, hsm, this⟩] at hn
  cases hn

/-- A replica of two stores: the families are `default` and `~+0000000007`. -/
example : (families host6e.close).map Prod.fst = [DEFAULT, [126, 43, 48, 48, 48, 48, 48, 48, 48, 48, 48, 55]] := by
  decide +kernel
example : ((families db2).map Prod.fst).length = 3 ∧ (openAll (families db2)).map (List.map Prod.fst) = some (db2.map Prod.fst) := by
  decide +kernel

end Ron.Props
