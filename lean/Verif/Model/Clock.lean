import Verif.Model.Status
/-!
Calendar timestamps (`ron/uuid.cc:69-85`) and the replica clock (`db/replica.cc:179-186,285-299`).
-/
namespace Ron

/-- The fields of `struct tm` that `HybridTime` reads, as `gmtime` fills them in
(`year` is the calendar year, i.e. `1900 + tm_year`; `mon` counts from 0, `mday` from 1).
The conversion from seconds, done by libc, is `Ron.Spec.gmtime`. -/
structure Tm where
  year : Nat
  mon : Nat
  mday : Nat
  hour : Nat
  min : Nat
  sec : Nat
  deriving DecidableEq, Repr, Inhabited

/-- `ron/uuid.cc:69-85` `Uuid::HybridTime` after the `gmtime` call. The year difference is
computed in `unsigned int` (32 bits) and widened; everything else is 64-bit. -/
def hybridTime (t : Tm) (nanos : Nat) : Word :=
  let ret : BitVec 64 := (BitVec.ofNat 32 t.year - 2010#32).setWidth 64
  let ret := ret * 12#64
  let ret := ret + BitVec.ofNat 64 t.mon
  let ret := ret <<< 6
  let ret := ret ||| BitVec.ofNat 64 (t.mday - 1)
  let ret := ret <<< 6
  let ret := ret ||| BitVec.ofNat 64 t.hour
  let ret := ret <<< 6
  let ret := ret ||| BitVec.ofNat 64 t.min
  let ret := ret <<< 6
  let ret := ret ||| BitVec.ofNat 64 t.sec
  let ret := ret <<< 24
  ret ||| BitVec.ofNat 64 (nanos / 100)

/-- `ron/uuid.hpp:136` `NEVER = 63 << 54`. -/
def NEVER : Word := BitVec.ofNat 64 (63 * 2 ^ 54)

/-- `db/replica.cc:179-186` `Replica::Now`: `next` is the wall clock reading
`Uuid::HybridTime(time(nullptr))`. Returns the new `now_` and the stamp. `origin` is the
argument after the default (`active_store().origin`) has been substituted. -/
def clockNow (now next origin : Word) : Word × Uuid :=
  let n := if next.toNat > now.toNat then next else now.inc
  (n, Uuid.time n origin)

/-- `db/replica.cc:285-299` `Replica::See`. -/
def clockSee (now : Word) (ts : Uuid) : Word × Status :=
  if ts.version ≠ Uuid.vTIME then (now, Status.BADARGS)
  else if ts.value.toNat < now.toNat then (now, Status.OK)
  else if ts.value.toNat ≥ NEVER.toNat then (now, Status.BADARGS)
  else (ts.value, Status.OK)

end Ron
