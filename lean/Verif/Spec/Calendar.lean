import Verif.Model.Clock
/-!
Specification: the (proleptic Gregorian, UTC, no leap seconds) calendar that `gmtime`
implements, given by its successor function, and the order of instants.
-/
namespace Ron.Spec

def leap (y : Nat) : Bool := y % 4 == 0 && (y % 100 != 0 || y % 400 == 0)

/-- Length of month `m` (0-based). -/
def monthLen (y m : Nat) : Nat :=
  if m = 1 then (if leap y then 29 else 28)
  else if m = 3 ∨ m = 5 ∨ m = 8 ∨ m = 10 then 30 else 31

/-- A calendar day: year, month (0-based), day of the month (1-based). -/
structure Day where
  y : Nat
  m : Nat
  d : Nat
  deriving DecidableEq, Repr

def Day.next (x : Day) : Day :=
  if x.d < monthLen x.y x.m then ⟨x.y, x.m, x.d + 1⟩
  else if x.m < 11 then ⟨x.y, x.m + 1, 1⟩
  else ⟨x.y + 1, 0, 1⟩

/-- The day `n` days after 1970-01-01. -/
def dayOf : Nat → Day
  | 0 => ⟨1970, 0, 1⟩
  | n + 1 => (dayOf n).next

/-- `gmtime` for non-negative times. -/
def gmtime (s : Nat) : Tm :=
  let x := dayOf (s / 86400)
  ⟨x.y, x.m, x.d, s % 86400 / 3600, s % 3600 / 60, s % 60⟩

/-- In-range calendar fields: a date since 2010 in the 4096-month era. -/
structure InEra (t : Tm) : Prop where
  lo : 2010 ≤ t.year
  mon : t.mon < 12
  era : (t.year - 2010) * 12 + t.mon < 4096
  mday1 : 1 ≤ t.mday
  mday : t.mday ≤ 31
  hour : t.hour < 24
  min : t.min < 60
  sec : t.sec < 60

/-- The fields of an instant, most significant first. -/
def fields (t : Tm) (ticks : Nat) : List Nat :=
  [t.year, t.mon, t.mday, t.hour, t.min, t.sec, ticks]

/-- Lexicographic order of field lists. -/
def lexNat : List Nat → List Nat → Prop
  | _, [] => False
  | [], _ :: _ => True
  | a :: as, b :: bs => a < b ∨ (a = b ∧ lexNat as bs)

end Ron.Spec
