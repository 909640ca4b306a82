import Verif.Model.Word
/-!
Version vectors: `ron/vv.hpp`.
-/
namespace Ron

/-- `ron/vv.hpp:8-9`: a hash map from origins to versions; here a lookup function. The class
offers no way to add entries. -/
structure VV where
  find : Word → Option Word

namespace VV

/-- `ron/vv.hpp:12-16` `get`. -/
def get (vv : VV) (origin : Word) : Uuid :=
  match vv.find origin with
  | none => ⟨0#64, origin⟩
  | some v => ⟨v, origin⟩

/-- `ron/vv.hpp:17-19` `covers`. -/
def covers (vv : VV) (p : Uuid) : Bool := decide ((vv.get p.origin).value.toNat ≥ p.value.toNat)

/-- `ron/vv.hpp:23` `EMPTY_VV`. -/
def EMPTY : VV := ⟨fun _ => none⟩

end VV
end Ron
