import Verif.Model.Names
import Verif.Spec.Merge
import Verif.Spec.Lifecycle
/-!
What the names of a store should be.
-/
namespace Ron.Spec
open Ron

/-- What a name stands for after names have been given, oldest first. -/
def lastNamed (given : List (Uuid × Uuid)) (name : Uuid) : Option Uuid :=
  ((given.filter fun g => decide (g.1 = name)).getLast?).map Prod.snd

/-- The ops that the record of names was written with. -/
def namesOf (s : MemStore) : List AOp := (stored (Key.mk' Uuid.NIL Form.LWW) s).flatten

/-- The names that the record holds. -/
def givenIn (ops : List AOp) : List (Uuid × Uuid) :=
  ops.filterMap fun o =>
    match o.vals with
    | [.uuid k, .uuid v] => some (k, v)
    | _ => none

/-- Names given in a store `id`, oldest first: by the call, or by a frame that is received. `later`:
the stamp a name is given with is later than those in the record. Meanwhile anything may be done that
leaves the record of names alone. -/
inductive Naming (mg : Reducer) (hs : Hashing) (id : Uuid) : Host → List (Uuid × Uuid) → Host → Prop where
  | none (h : Host) : Naming mg hs id h [] h
  | call {h h' : Host} {given : List (Uuid × Uuid)} {s : OpenStore} (wall : Word) (name value : Uuid) :
    Naming mg hs id h given h' → h'.find id = some s →
    (later : ∀ o ∈ namesOf s.data, o.id.value.toNat < (clockNow h'.now wall 0#64).1.toNat) →
    Naming mg hs id h (given ++ [(name, value)]) (h'.writeName mg hs wall id name value).2
  | frame {h h' h'' : Host} {given : List (Uuid × Uuid)} {s : OpenStore} {st : Status} {wall yarn : Word}
      {o : AOp} {fin : Status} {name : Uuid} {rest : List AVal} :
    Naming mg hs id h given h' → h'.find id = some s → id = Host.branchId yarn →
    (later : ∀ o ∈ namesOf s.data, o.id.value.toNat < (clockNow h'.now wall 0#64).1.toNat) →
    o.id = NAME_UUID → o.vals = .uuid name :: rest → name.version = Uuid.vNAME →
    h'.receive mg hs wall yarn ⟨[o], fin, true⟩ = some (st, h'') →
    Naming mg hs id h (given ++ [(name, s.tip)]) h''
  | other {h h' h'' : Host} {given : List (Uuid × Uuid)} {s s' : OpenStore} :
    Naming mg hs id h given h' → h'.find id = some s → h''.find id = some s' → KeyOrder s'.data →
    namesOf s'.data = namesOf s.data → Naming mg hs id h given h''

end Ron.Spec
