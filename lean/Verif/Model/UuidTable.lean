import Verif.Model.RagelAct
/-!
Generated by tools/ragel2lean.py from `ron/uuid-parser.cc`. Do not edit.

`rows s` lists the transitions of state `s` as `(lo, hi, actions, target)`; a byte
outside of all the ranges is a transition to the error state 0.
-/
namespace Ron.UuidTable
open Act

/-- `ron/uuid-parser.cc`: start state. -/
def start : Nat := 1
/-- `ron/uuid-parser.cc`: first final state. -/
def firstFinal : Nat := 4

/-- `ron/uuid-parser.cc:35` state 1. -/
def row1 : List (Nat × Nat × List Act × Nat) :=
  [(48, 57, [begin_uuid, begin_value], 4),
   (65, 70, [begin_uuid, begin_value], 4),
   (71, 90, [begin_uuid, begin_value], 6),
   (95, 95, [begin_uuid, begin_value], 6),
   (97, 122, [begin_uuid, begin_value], 6),
   (126, 126, [begin_uuid, begin_value], 6)]
/-- `ron/uuid-parser.cc:102` state 2. -/
def row2 : List (Nat × Nat × List Act × Nat) :=
  [(48, 57, [begin_origin], 5),
   (65, 90, [begin_origin], 5),
   (95, 95, [begin_origin], 5),
   (97, 122, [begin_origin], 5),
   (126, 126, [begin_origin], 5)]
/-- `ron/uuid-parser.cc:148` state 3. -/
def row3 : List (Nat × Nat × List Act × Nat) :=
  [(48, 57, [begin_value], 6),
   (65, 90, [begin_value], 6),
   (95, 95, [begin_value], 6),
   (97, 122, [begin_value], 6),
   (126, 126, [begin_value], 6)]
/-- `ron/uuid-parser.cc:68` state 4. -/
def row4 : List (Nat × Nat × List Act × Nat) :=
  [(36, 37, [end_value, version], 2),
   (43, 43, [end_value, version], 2),
   (45, 45, [end_value, version], 2),
   (47, 47, [variety], 3),
   (48, 57, [], 6),
   (65, 90, [], 6),
   (95, 95, [], 6),
   (97, 122, [], 6),
   (126, 126, [], 6)]
/-- `ron/uuid-parser.cc:125` state 5. -/
def row5 : List (Nat × Nat × List Act × Nat) :=
  [(48, 57, [], 5),
   (65, 90, [], 5),
   (95, 95, [], 5),
   (97, 122, [], 5),
   (126, 126, [], 5)]
/-- `ron/uuid-parser.cc:182` state 6. -/
def row6 : List (Nat × Nat × List Act × Nat) :=
  [(36, 37, [end_value, version], 2),
   (43, 43, [end_value, version], 2),
   (45, 45, [end_value, version], 2),
   (48, 57, [], 6),
   (65, 90, [], 6),
   (95, 95, [], 6),
   (97, 122, [], 6),
   (126, 126, [], 6)]

/-- All states. -/
def rows : Nat → List (Nat × Nat × List Act × Nat)
  | 1 => row1
  | 2 => row2
  | 3 => row3
  | 4 => row4
  | 5 => row5
  | 6 => row6
  | _ => []

/-- Actions run at the end of input (`p == eof`) in a state. -/
def eofActs : Nat → List Act
  | 4 => [end_value, end_uuid]
  | 5 => [end_origin, end_uuid]
  | 6 => [end_value, end_uuid]
  | _ => []

end Ron.UuidTable
