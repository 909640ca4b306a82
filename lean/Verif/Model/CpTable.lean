import Verif.Model.RagelAct
/-!
Generated by tools/ragel2lean.py from `ron/cp-parser.cc`. Do not edit.

`rows s` lists the transitions of state `s` as `(lo, hi, actions, target)`; a byte
outside of all the ranges is a transition to the error state 0.
-/
namespace Ron.CpTable
open Act

/-- `ron/cp-parser.cc`: start state. -/
def start : Nat := 9
/-- `ron/cp-parser.cc`: first final state. -/
def firstFinal : Nat := 9

/-- `ron/cp-parser.cc:190` state 1. -/
def row1 : List (Nat × Nat × List Act × Nat) :=
  [(34, 34, [string_esc], 10),
   (39, 39, [string_esc], 10),
   (47, 47, [string_esc], 10),
   (92, 92, [string_esc], 10),
   (98, 98, [string_esc], 10),
   (110, 110, [string_esc], 10),
   (114, 114, [string_esc], 10),
   (116, 116, [string_esc], 10),
   (117, 117, [], 2)]
/-- `ron/cp-parser.cc:215` state 2. -/
def row2 : List (Nat × Nat × List Act × Nat) :=
  [(48, 57, [], 3),
   (65, 70, [], 3),
   (97, 102, [], 3)]
/-- `ron/cp-parser.cc:225` state 3. -/
def row3 : List (Nat × Nat × List Act × Nat) :=
  [(48, 57, [], 4),
   (65, 70, [], 4),
   (97, 102, [], 4)]
/-- `ron/cp-parser.cc:235` state 4. -/
def row4 : List (Nat × Nat × List Act × Nat) :=
  [(48, 57, [], 5),
   (65, 70, [], 5),
   (97, 102, [], 5)]
/-- `ron/cp-parser.cc:245` state 5. -/
def row5 : List (Nat × Nat × List Act × Nat) :=
  [(48, 57, [], 11),
   (65, 70, [], 11),
   (97, 102, [], 11)]
/-- `ron/cp-parser.cc:331` state 6. -/
def row6 : List (Nat × Nat × List Act × Nat) :=
  [(128, 191, [string_cont], 10)]
/-- `ron/cp-parser.cc:385` state 7. -/
def row7 : List (Nat × Nat × List Act × Nat) :=
  [(128, 191, [string_cont], 6)]
/-- `ron/cp-parser.cc:433` state 8. -/
def row8 : List (Nat × Nat × List Act × Nat) :=
  [(128, 191, [string_cont], 7)]
/-- `ron/cp-parser.cc:44` state 9. -/
def row9 : List (Nat × Nat × List Act × Nat) :=
  [(1, 9, [string_lead1], 10),
   (11, 12, [string_lead1], 10),
   (14, 38, [string_lead1], 10),
   (40, 91, [string_lead1], 10),
   (92, 92, [], 1),
   (93, 127, [string_lead1], 10),
   (192, 223, [string_lead2], 6),
   (224, 239, [string_lead3], 7),
   (240, 247, [string_lead4], 8)]
/-- `ron/cp-parser.cc:129` state 10. -/
def row10 : List (Nat × Nat × List Act × Nat) :=
  [(1, 9, [end_cp, end_cp_brk, string_lead1], 10),
   (11, 12, [end_cp, end_cp_brk, string_lead1], 10),
   (14, 38, [end_cp, end_cp_brk, string_lead1], 10),
   (40, 91, [end_cp, end_cp_brk, string_lead1], 10),
   (92, 92, [end_cp, end_cp_brk], 1),
   (93, 127, [end_cp, end_cp_brk, string_lead1], 10),
   (192, 223, [end_cp, end_cp_brk, string_lead2], 6),
   (224, 239, [end_cp, end_cp_brk, string_lead3], 7),
   (240, 247, [end_cp, end_cp_brk, string_lead4], 8)]
/-- `ron/cp-parser.cc:255` state 11. -/
def row11 : List (Nat × Nat × List Act × Nat) :=
  [(1, 9, [string_uesc, end_cp, end_cp_brk, string_lead1], 10),
   (11, 12, [string_uesc, end_cp, end_cp_brk, string_lead1], 10),
   (14, 38, [string_uesc, end_cp, end_cp_brk, string_lead1], 10),
   (40, 91, [string_uesc, end_cp, end_cp_brk, string_lead1], 10),
   (92, 92, [string_uesc, end_cp, end_cp_brk], 1),
   (93, 127, [string_uesc, end_cp, end_cp_brk, string_lead1], 10),
   (192, 223, [string_uesc, end_cp, end_cp_brk, string_lead2], 6),
   (224, 239, [string_uesc, end_cp, end_cp_brk, string_lead3], 7),
   (240, 247, [string_uesc, end_cp, end_cp_brk, string_lead4], 8)]

/-- All states. -/
def rows : Nat → List (Nat × Nat × List Act × Nat)
  | 1 => row1
  | 2 => row2
  | 3 => row3
  | 4 => row4
  | 5 => row5
  | 6 => row6
  | 7 => row7
  | 8 => row8
  | 9 => row9
  | 10 => row10
  | 11 => row11
  | _ => []

/-- Actions run at the end of input (`p == eof`) in a state. -/
def eofActs : Nat → List Act
  | 10 => [end_cp, end_cp_brk]
  | 11 => [string_uesc, end_cp, end_cp_brk]
  | _ => []

end Ron.CpTable
