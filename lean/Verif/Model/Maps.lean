import Verif.Model.Word
/-!
Codes and names of maps: `db/const.hpp`.
-/
namespace Ron

/-- `db/const.hpp:24-45`: the value words of the names, in the order of `enum MAP`, `db/const.hpp:9-22`. -/
def MAPS : List Nat := [
  715112314629521408, 894494834235015168, 933371022772535296, 1109533813702131712, 1003339682156642304,
  952132676872044544, 804339484962324480, 929632683238096896, 718297752286527488, 1025941105738252288,
  844371191501160448]

/-- `MAP_COUNT`, `db/const.hpp:21`. -/
def MAP_COUNT : Nat := 11

/-- `MAP_IDS`, `db/const.hpp:47-50`. -/
def MAP_IDS : List Uuid := (MAPS.map fun v => ⟨BitVec.ofNat 64 v, 0#64⟩) ++ [Uuid.FATAL]

/-- `map2uuid`, `db/const.hpp:52`; `none` is a read past the end of the array. -/
def map2uuid (m : Nat) : Option Uuid := MAP_IDS[m]?

/-- The label of a case, `uint8_t(… >> 52)`. -/
def mapLabel (v : Nat) : Nat := v / 2 ^ 52 % 256

/-- The cases of the switch of `uuid2map`, `db/const.hpp:54-81`, from the one with code `m` on. -/
def mapCases (u : Uuid) : Nat → List Nat → Nat
  | _, [] => MAP_COUNT
  | m, v :: vs =>
    if mapLabel u.value.toNat = mapLabel v then (if u = ⟨BitVec.ofNat 64 v, 0#64⟩ then m else MAP_COUNT)
    else mapCases u (m + 1) vs

/-- `uuid2map`, `db/const.hpp:54-81`. -/
def uuid2map (u : Uuid) : Nat := mapCases u 0 MAPS

end Ron
