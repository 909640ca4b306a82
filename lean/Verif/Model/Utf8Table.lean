import Verif.Model.RagelAct
/-!
Generated by tools/ragel2lean.py from `ron/utf8-parser.cc`. Do not edit.

`rows s` lists the transitions of state `s` as `(lo, hi, actions, target)`; a byte
outside of all the ranges is a transition to the error state 0.
-/
namespace Ron.Utf8Table
open Act

/-- `ron/utf8-parser.cc`: start state. -/
def start : Nat := 4
/-- `ron/utf8-parser.cc`: first final state. -/
def firstFinal : Nat := 4

/-- `ron/utf8-parser.cc:115` state 1. -/
def row1 : List (Nat × Nat × List Act × Nat) :=
  [(128, 191, [string_cont], 5)]
/-- `ron/utf8-parser.cc:142` state 2. -/
def row2 : List (Nat × Nat × List Act × Nat) :=
  [(128, 191, [string_cont], 1)]
/-- `ron/utf8-parser.cc:163` state 3. -/
def row3 : List (Nat × Nat × List Act × Nat) :=
  [(128, 191, [string_cont], 2)]
/-- `ron/utf8-parser.cc:37` state 4. -/
def row4 : List (Nat × Nat × List Act × Nat) :=
  [(0, 127, [string_lead1], 5),
   (192, 223, [string_lead2], 1),
   (224, 239, [string_lead3], 2),
   (240, 247, [string_lead4], 3)]
/-- `ron/utf8-parser.cc:74` state 5. -/
def row5 : List (Nat × Nat × List Act × Nat) :=
  [(0, 127, [push_cp, string_lead1], 5),
   (192, 223, [push_cp, string_lead2], 1),
   (224, 239, [push_cp, string_lead3], 2),
   (240, 247, [push_cp, string_lead4], 3)]

/-- All states. -/
def rows : Nat → List (Nat × Nat × List Act × Nat)
  | 1 => row1
  | 2 => row2
  | 3 => row3
  | 4 => row4
  | 5 => row5
  | _ => []

/-- Actions run at the end of input (`p == eof`) in a state. -/
def eofActs : Nat → List Act
  | 5 => [push_cp]
  | _ => []

end Ron.Utf8Table
