import Verif.Model.Scan
import Verif.Model.Utf
/-!
`TxtMapper::Read`, `db/map/txt.hpp:10-32`, without the store: the text of an RGA frame.
-/
namespace Ron
namespace Rga

/-- An op of a text frame, and whether its value comes from a spread `('abc')`. Only then the
current code point of the string atom is set (`end_spread`, `ragel/text-grammar.rl:68-71`); an
atom written `'a'` is at its beginning, with `value.cp == 0` (`end_string`, lines 24-27). -/
structure Shown where
  op : AOp
  spread : Bool
  deriving DecidableEq, Repr

/-- `c.atom(2).value.cp`, `db/map/txt.hpp:25`; `none` is a read past the last atom. `junk` is the
low half of the value word of an atom that is not a string. -/
def cpOf (junk : AVal → Nat) (o : Shown) : Option Nat :=
  match o.op.vals with
  | [] => none
  | .str [] :: _ => some 0
  | .str (c :: _) :: _ => some (if o.spread then c else 0)
  | v :: _ => some (junk v)

/-- `db/map/txt.hpp:22-28`: the loop, from the current op on; `tombs[pos]` past the end is
undefined. -/
def walk (junk : AVal → Nat) : List Bool → List Shown → SOut (List Byte)
  | _, [] => .ok []
  | [], _ :: _ => .ub
  | t :: ts, o :: os =>
    if t then walk junk ts os
    else
      match cpOf junk o with
      | none => .ub
      | some cp =>
        match walk junk ts os with
        | .ok text => .ok (utf8append cp ++ text)
        | .bad e => .bad e
        | .ub => .ub

/-- What `ScanRGA` leaves in `tombstones` when it fails: the flags of the ops before. The flags
may have been changed by the failing turn, but that does not matter here: either there are less
flags than ops, or the last check failed before anything is changed. -/
def tombsLeft (s : Scan) : List AOp → List Bool
  | [] => s.tombs
  | o :: os =>
    match turn s o.id o.ref (entryType o) with
    | .ok s' => tombsLeft s' os
    | _ => s.tombs

/-- `TxtMapper::Read`, `db/map/txt.hpp:15-28`: the status of the scan is not looked at. -/
def txtRead (junk : AVal → Nat) (frame : List Shown) : SOut (List Byte) :=
  match scan (frame.map Shown.op) with
  | .ok flags => walk junk flags frame
  | .ub => .ub
  | .bad _ =>
    match frame with
    | [] => .ok []
    | o :: os =>
      if o.op.ref ≠ RGA_UUID ∨ o.op.id.version ≠ Uuid.vTIME then walk junk [] (o :: os)
      else walk junk (tombsLeft (start o.op.id) (os.map Shown.op)) (o :: os)

end Rga
end Ron
