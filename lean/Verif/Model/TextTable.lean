import Verif.Model.RagelAct
/-!
Generated by tools/ragel2lean.py from `ron/text-parser.cc`. Do not edit.

`rows s` lists the transitions of state `s` as `(lo, hi, actions, target)`; a byte
outside of all the ranges is a transition to the error state 0.
-/
namespace Ron.TextTable
open Act

/-- `ron/text-parser.cc`: start state. -/
def start : Nat := 74
/-- `ron/text-parser.cc`: first final state. -/
def firstFinal : Nat := 74

/-- `ron/text-parser.cc:790` state 1. -/
def row1 : List (Nat × Nat × List Act × Nat) :=
  [(1, 9, [begin_string, string_lead1], 2),
   (11, 12, [begin_string, string_lead1], 2),
   (14, 38, [begin_string, string_lead1], 2),
   (39, 39, [begin_string, end_string], 3),
   (40, 91, [begin_string, string_lead1], 2),
   (92, 92, [begin_string], 51),
   (93, 127, [begin_string, string_lead1], 2),
   (192, 223, [begin_string, string_lead2], 57),
   (224, 239, [begin_string, string_lead3], 58),
   (240, 247, [begin_string, string_lead4], 59)]
/-- `ron/text-parser.cc:858` state 2. -/
def row2 : List (Nat × Nat × List Act × Nat) :=
  [(1, 9, [end_cp, string_lead1], 2),
   (11, 12, [end_cp, string_lead1], 2),
   (14, 38, [end_cp, string_lead1], 2),
   (39, 39, [end_cp, end_string], 3),
   (40, 91, [end_cp, string_lead1], 2),
   (92, 92, [end_cp], 51),
   (93, 127, [end_cp, string_lead1], 2),
   (192, 223, [end_cp, string_lead2], 57),
   (224, 239, [end_cp, string_lead3], 58),
   (240, 247, [end_cp, string_lead4], 59)]
/-- `ron/text-parser.cc:923` state 3. -/
def row3 : List (Nat × Nat × List Act × Nat) :=
  [(9, 10, [newline], 4),
   (13, 13, [newline], 4),
   (32, 32, [newline], 4),
   (33, 33, [op_term], 74),
   (39, 39, [], 1),
   (40, 40, [], 5),
   (44, 44, [op_term], 74),
   (59, 59, [op_term], 74),
   (61, 61, [], 25),
   (62, 62, [], 28),
   (63, 63, [op_term], 74),
   (94, 94, [], 32)]
/-- `ron/text-parser.cc:1274` state 4. -/
def row4 : List (Nat × Nat × List Act × Nat) :=
  [(9, 10, [newline], 4),
   (13, 13, [newline], 4),
   (32, 32, [newline], 4),
   (33, 33, [op_term], 74),
   (39, 39, [], 1),
   (40, 40, [], 5),
   (43, 43, [begin_int, begin_float], 21),
   (44, 44, [op_term], 74),
   (45, 45, [begin_int, begin_float], 21),
   (48, 57, [begin_int, begin_float, begin_uuid, begin_value], 40),
   (59, 59, [op_term], 74),
   (61, 61, [], 25),
   (62, 62, [], 28),
   (63, 63, [op_term], 74),
   (65, 70, [begin_uuid, begin_value], 50),
   (71, 90, [begin_uuid, begin_value], 44),
   (94, 94, [], 32),
   (95, 95, [begin_uuid, begin_value], 44),
   (97, 122, [begin_uuid, begin_value], 44),
   (126, 126, [begin_uuid, begin_value], 44)]
/-- `ron/text-parser.cc:1585` state 5. -/
def row5 : List (Nat × Nat × List Act × Nat) :=
  [(9, 10, [newline], 5),
   (13, 13, [newline], 5),
   (32, 32, [newline], 5),
   (39, 39, [], 6),
   (48, 57, [span_size_digit], 20)]
/-- `ron/text-parser.cc:1602` state 6. -/
def row6 : List (Nat × Nat × List Act × Nat) :=
  [(1, 9, [begin_string, string_lead1], 7),
   (11, 12, [begin_string, string_lead1], 7),
   (14, 38, [begin_string, string_lead1], 7),
   (39, 39, [begin_string, end_string], 8),
   (40, 91, [begin_string, string_lead1], 7),
   (92, 92, [begin_string], 11),
   (93, 127, [begin_string, string_lead1], 7),
   (192, 223, [begin_string, string_lead2], 17),
   (224, 239, [begin_string, string_lead3], 18),
   (240, 247, [begin_string, string_lead4], 19)]
/-- `ron/text-parser.cc:1669` state 7. -/
def row7 : List (Nat × Nat × List Act × Nat) :=
  [(1, 9, [end_cp, string_lead1], 7),
   (11, 12, [end_cp, string_lead1], 7),
   (14, 38, [end_cp, string_lead1], 7),
   (39, 39, [end_cp, end_string], 8),
   (40, 91, [end_cp, string_lead1], 7),
   (92, 92, [end_cp], 11),
   (93, 127, [end_cp, string_lead1], 7),
   (192, 223, [end_cp, string_lead2], 17),
   (224, 239, [end_cp, string_lead3], 18),
   (240, 247, [end_cp, string_lead4], 19)]
/-- `ron/text-parser.cc:1734` state 8. -/
def row8 : List (Nat × Nat × List Act × Nat) :=
  [(9, 10, [end_spread, newline], 9),
   (13, 13, [end_spread, newline], 9),
   (32, 32, [end_spread, newline], 9),
   (41, 41, [end_spread], 10)]
/-- `ron/text-parser.cc:1786` state 9. -/
def row9 : List (Nat × Nat × List Act × Nat) :=
  [(9, 10, [newline], 9),
   (13, 13, [newline], 9),
   (32, 32, [newline], 9),
   (41, 41, [], 10)]
/-- `ron/text-parser.cc:1824` state 10. -/
def row10 : List (Nat × Nat × List Act × Nat) :=
  [(9, 10, [newline], 10),
   (13, 13, [newline], 10),
   (32, 32, [newline], 10),
   (33, 33, [op_term], 74),
   (44, 44, [op_term], 74),
   (59, 59, [op_term], 74),
   (63, 63, [op_term], 74)]
/-- `ron/text-parser.cc:1865` state 11. -/
def row11 : List (Nat × Nat × List Act × Nat) :=
  [(34, 34, [string_esc], 7),
   (39, 39, [string_esc], 7),
   (47, 47, [string_esc], 7),
   (92, 92, [string_esc], 7),
   (98, 98, [string_esc], 7),
   (110, 110, [string_esc], 7),
   (114, 114, [string_esc], 7),
   (116, 116, [string_esc], 7),
   (117, 117, [], 12)]
/-- `ron/text-parser.cc:1890` state 12. -/
def row12 : List (Nat × Nat × List Act × Nat) :=
  [(48, 57, [], 13),
   (65, 70, [], 13),
   (97, 102, [], 13)]
/-- `ron/text-parser.cc:1900` state 13. -/
def row13 : List (Nat × Nat × List Act × Nat) :=
  [(48, 57, [], 14),
   (65, 70, [], 14),
   (97, 102, [], 14)]
/-- `ron/text-parser.cc:1910` state 14. -/
def row14 : List (Nat × Nat × List Act × Nat) :=
  [(48, 57, [], 15),
   (65, 70, [], 15),
   (97, 102, [], 15)]
/-- `ron/text-parser.cc:1920` state 15. -/
def row15 : List (Nat × Nat × List Act × Nat) :=
  [(48, 57, [], 16),
   (65, 70, [], 16),
   (97, 102, [], 16)]
/-- `ron/text-parser.cc:1930` state 16. -/
def row16 : List (Nat × Nat × List Act × Nat) :=
  [(1, 9, [string_uesc, end_cp, string_lead1], 7),
   (11, 12, [string_uesc, end_cp, string_lead1], 7),
   (14, 38, [string_uesc, end_cp, string_lead1], 7),
   (39, 39, [string_uesc, end_cp, end_string], 8),
   (40, 91, [string_uesc, end_cp, string_lead1], 7),
   (92, 92, [string_uesc, end_cp], 11),
   (93, 127, [string_uesc, end_cp, string_lead1], 7),
   (192, 223, [string_uesc, end_cp, string_lead2], 17),
   (224, 239, [string_uesc, end_cp, string_lead3], 18),
   (240, 247, [string_uesc, end_cp, string_lead4], 19)]
/-- `ron/text-parser.cc:1991` state 17. -/
def row17 : List (Nat × Nat × List Act × Nat) :=
  [(128, 191, [string_cont], 7)]
/-- `ron/text-parser.cc:2030` state 18. -/
def row18 : List (Nat × Nat × List Act × Nat) :=
  [(128, 191, [string_cont], 17)]
/-- `ron/text-parser.cc:2063` state 19. -/
def row19 : List (Nat × Nat × List Act × Nat) :=
  [(128, 191, [string_cont], 18)]
/-- `ron/text-parser.cc:2076` state 20. -/
def row20 : List (Nat × Nat × List Act × Nat) :=
  [(9, 10, [end_span_size, newline], 9),
   (13, 13, [end_span_size, newline], 9),
   (32, 32, [end_span_size, newline], 9),
   (41, 41, [end_span_size], 10),
   (48, 57, [span_size_digit], 20)]
/-- `ron/text-parser.cc:2101` state 21. -/
def row21 : List (Nat × Nat × List Act × Nat) :=
  [(48, 57, [], 22)]
/-- `ron/text-parser.cc:2107` state 22. -/
def row22 : List (Nat × Nat × List Act × Nat) :=
  [(9, 10, [end_int, newline], 4),
   (13, 13, [end_int, newline], 4),
   (32, 32, [end_int, newline], 4),
   (33, 33, [end_int, op_term], 74),
   (39, 39, [end_int], 1),
   (40, 40, [end_int], 5),
   (44, 44, [end_int, op_term], 74),
   (46, 46, [], 23),
   (48, 57, [], 22),
   (59, 59, [end_int, op_term], 74),
   (61, 61, [end_int], 25),
   (62, 62, [end_int], 28),
   (63, 63, [end_int, op_term], 74),
   (69, 69, [], 35),
   (94, 94, [end_int], 32),
   (101, 101, [], 35)]
/-- `ron/text-parser.cc:2145` state 23. -/
def row23 : List (Nat × Nat × List Act × Nat) :=
  [(48, 57, [], 24)]
/-- `ron/text-parser.cc:2150` state 24. -/
def row24 : List (Nat × Nat × List Act × Nat) :=
  [(9, 10, [end_float, newline], 4),
   (13, 13, [end_float, newline], 4),
   (32, 32, [end_float, newline], 4),
   (33, 33, [end_float, op_term], 74),
   (39, 39, [end_float], 1),
   (40, 40, [end_float], 5),
   (44, 44, [end_float, op_term], 74),
   (48, 57, [], 24),
   (59, 59, [end_float, op_term], 74),
   (61, 61, [end_float], 25),
   (62, 62, [end_float], 28),
   (63, 63, [end_float, op_term], 74),
   (69, 69, [], 35),
   (94, 94, [end_float], 32),
   (101, 101, [], 35)]
/-- `ron/text-parser.cc:2450` state 25. -/
def row25 : List (Nat × Nat × List Act × Nat) :=
  [(9, 10, [newline], 25),
   (13, 13, [newline], 25),
   (32, 32, [newline], 25),
   (43, 43, [begin_int], 26),
   (45, 45, [begin_int], 26),
   (48, 57, [begin_int], 27)]
/-- `ron/text-parser.cc:2475` state 26. -/
def row26 : List (Nat × Nat × List Act × Nat) :=
  [(48, 57, [], 27)]
/-- `ron/text-parser.cc:2487` state 27. -/
def row27 : List (Nat × Nat × List Act × Nat) :=
  [(9, 10, [end_int, newline], 4),
   (13, 13, [end_int, newline], 4),
   (32, 32, [end_int, newline], 4),
   (33, 33, [end_int, op_term], 74),
   (39, 39, [end_int], 1),
   (40, 40, [end_int], 5),
   (44, 44, [end_int, op_term], 74),
   (48, 57, [], 27),
   (59, 59, [end_int, op_term], 74),
   (61, 61, [end_int], 25),
   (62, 62, [end_int], 28),
   (63, 63, [end_int, op_term], 74),
   (94, 94, [end_int], 32)]
/-- `ron/text-parser.cc:2784` state 28. -/
def row28 : List (Nat × Nat × List Act × Nat) :=
  [(9, 10, [newline], 28),
   (13, 13, [newline], 28),
   (32, 32, [newline], 28),
   (48, 57, [begin_uuid, begin_value], 29),
   (65, 70, [begin_uuid, begin_value], 29),
   (71, 90, [begin_uuid, begin_value], 39),
   (95, 95, [begin_uuid, begin_value], 39),
   (97, 122, [begin_uuid, begin_value], 39),
   (126, 126, [begin_uuid, begin_value], 39)]
/-- `ron/text-parser.cc:2822` state 29. -/
def row29 : List (Nat × Nat × List Act × Nat) :=
  [(9, 10, [end_value, end_uuid, end_quoted_uuid, newline], 4),
   (13, 13, [end_value, end_uuid, end_quoted_uuid, newline], 4),
   (32, 32, [end_value, end_uuid, end_quoted_uuid, newline], 4),
   (33, 33, [end_value, end_uuid, end_quoted_uuid, op_term], 74),
   (36, 37, [end_value, version], 30),
   (39, 39, [end_value, end_uuid, end_quoted_uuid], 1),
   (40, 40, [end_value, end_uuid, end_quoted_uuid], 5),
   (43, 43, [end_value, version], 30),
   (44, 44, [end_value, end_uuid, end_quoted_uuid, op_term], 74),
   (45, 45, [end_value, version], 30),
   (47, 47, [variety], 38),
   (48, 57, [], 39),
   (59, 59, [end_value, end_uuid, end_quoted_uuid, op_term], 74),
   (61, 61, [end_value, end_uuid, end_quoted_uuid], 25),
   (62, 62, [end_value, end_uuid, end_quoted_uuid], 28),
   (63, 63, [end_value, end_uuid, end_quoted_uuid, op_term], 74),
   (65, 90, [], 39),
   (94, 94, [end_value, end_uuid, end_quoted_uuid], 32),
   (95, 95, [], 39),
   (97, 122, [], 39),
   (126, 126, [], 39)]
/-- `ron/text-parser.cc:2879` state 30. -/
def row30 : List (Nat × Nat × List Act × Nat) :=
  [(48, 57, [begin_origin], 31),
   (65, 90, [begin_origin], 31),
   (95, 95, [begin_origin], 31),
   (97, 122, [begin_origin], 31),
   (126, 126, [begin_origin], 31)]
/-- `ron/text-parser.cc:2902` state 31. -/
def row31 : List (Nat × Nat × List Act × Nat) :=
  [(9, 10, [end_origin, end_uuid, end_quoted_uuid, newline], 4),
   (13, 13, [end_origin, end_uuid, end_quoted_uuid, newline], 4),
   (32, 32, [end_origin, end_uuid, end_quoted_uuid, newline], 4),
   (33, 33, [end_origin, end_uuid, end_quoted_uuid, op_term], 74),
   (39, 39, [end_origin, end_uuid, end_quoted_uuid], 1),
   (40, 40, [end_origin, end_uuid, end_quoted_uuid], 5),
   (44, 44, [end_origin, end_uuid, end_quoted_uuid, op_term], 74),
   (48, 57, [], 31),
   (59, 59, [end_origin, end_uuid, end_quoted_uuid, op_term], 74),
   (61, 61, [end_origin, end_uuid, end_quoted_uuid], 25),
   (62, 62, [end_origin, end_uuid, end_quoted_uuid], 28),
   (63, 63, [end_origin, end_uuid, end_quoted_uuid, op_term], 74),
   (65, 90, [], 31),
   (94, 94, [end_origin, end_uuid, end_quoted_uuid], 32),
   (95, 95, [], 31),
   (97, 122, [], 31),
   (126, 126, [], 31)]
/-- `ron/text-parser.cc:3208` state 32. -/
def row32 : List (Nat × Nat × List Act × Nat) :=
  [(9, 10, [newline], 32),
   (13, 13, [newline], 32),
   (32, 32, [newline], 32),
   (43, 43, [begin_float], 33),
   (45, 45, [begin_float], 33),
   (48, 57, [begin_float], 34)]
/-- `ron/text-parser.cc:3233` state 33. -/
def row33 : List (Nat × Nat × List Act × Nat) :=
  [(48, 57, [], 34)]
/-- `ron/text-parser.cc:3245` state 34. -/
def row34 : List (Nat × Nat × List Act × Nat) :=
  [(46, 46, [], 23),
   (48, 57, [], 34),
   (69, 69, [], 35),
   (101, 101, [], 35)]
/-- `ron/text-parser.cc:3259` state 35. -/
def row35 : List (Nat × Nat × List Act × Nat) :=
  [(43, 43, [], 36),
   (45, 45, [], 36),
   (48, 57, [], 37)]
/-- `ron/text-parser.cc:3270` state 36. -/
def row36 : List (Nat × Nat × List Act × Nat) :=
  [(48, 57, [], 37)]
/-- `ron/text-parser.cc:3275` state 37. -/
def row37 : List (Nat × Nat × List Act × Nat) :=
  [(9, 10, [end_float, newline], 4),
   (13, 13, [end_float, newline], 4),
   (32, 32, [end_float, newline], 4),
   (33, 33, [end_float, op_term], 74),
   (39, 39, [end_float], 1),
   (40, 40, [end_float], 5),
   (44, 44, [end_float, op_term], 74),
   (48, 57, [], 37),
   (59, 59, [end_float, op_term], 74),
   (61, 61, [end_float], 25),
   (62, 62, [end_float], 28),
   (63, 63, [end_float, op_term], 74),
   (94, 94, [end_float], 32)]
/-- `ron/text-parser.cc:3313` state 38. -/
def row38 : List (Nat × Nat × List Act × Nat) :=
  [(48, 57, [begin_value], 39),
   (65, 90, [begin_value], 39),
   (95, 95, [begin_value], 39),
   (97, 122, [begin_value], 39),
   (126, 126, [begin_value], 39)]
/-- `ron/text-parser.cc:3347` state 39. -/
def row39 : List (Nat × Nat × List Act × Nat) :=
  [(9, 10, [end_value, end_uuid, end_quoted_uuid, newline], 4),
   (13, 13, [end_value, end_uuid, end_quoted_uuid, newline], 4),
   (32, 32, [end_value, end_uuid, end_quoted_uuid, newline], 4),
   (33, 33, [end_value, end_uuid, end_quoted_uuid, op_term], 74),
   (36, 37, [end_value, version], 30),
   (39, 39, [end_value, end_uuid, end_quoted_uuid], 1),
   (40, 40, [end_value, end_uuid, end_quoted_uuid], 5),
   (43, 43, [end_value, version], 30),
   (44, 44, [end_value, end_uuid, end_quoted_uuid, op_term], 74),
   (45, 45, [end_value, version], 30),
   (48, 57, [], 39),
   (59, 59, [end_value, end_uuid, end_quoted_uuid, op_term], 74),
   (61, 61, [end_value, end_uuid, end_quoted_uuid], 25),
   (62, 62, [end_value, end_uuid, end_quoted_uuid], 28),
   (63, 63, [end_value, end_uuid, end_quoted_uuid, op_term], 74),
   (65, 90, [], 39),
   (94, 94, [end_value, end_uuid, end_quoted_uuid], 32),
   (95, 95, [], 39),
   (97, 122, [], 39),
   (126, 126, [], 39)]
/-- `ron/text-parser.cc:3411` state 40. -/
def row40 : List (Nat × Nat × List Act × Nat) :=
  [(9, 10, [end_int, end_value, end_uuid, end_bare_uuid, newline], 4),
   (13, 13, [end_int, end_value, end_uuid, end_bare_uuid, newline], 4),
   (32, 32, [end_int, end_value, end_uuid, end_bare_uuid, newline], 4),
   (33, 33, [end_int, end_value, end_uuid, end_bare_uuid, op_term], 74),
   (36, 37, [end_value, version], 41),
   (39, 39, [end_int, end_value, end_uuid, end_bare_uuid], 1),
   (40, 40, [end_int, end_value, end_uuid, end_bare_uuid], 5),
   (43, 43, [end_value, version], 41),
   (44, 44, [end_int, end_value, end_uuid, end_bare_uuid, op_term], 74),
   (45, 45, [end_value, version], 41),
   (46, 46, [], 23),
   (47, 47, [variety], 43),
   (48, 57, [], 45),
   (59, 59, [end_int, end_value, end_uuid, end_bare_uuid, op_term], 74),
   (61, 61, [end_int, end_value, end_uuid, end_bare_uuid], 25),
   (62, 62, [end_int, end_value, end_uuid, end_bare_uuid], 28),
   (63, 63, [end_int, end_value, end_uuid, end_bare_uuid, op_term], 74),
   (65, 68, [], 44),
   (69, 69, [], 46),
   (70, 90, [], 44),
   (94, 94, [end_int, end_value, end_uuid, end_bare_uuid], 32),
   (95, 95, [], 44),
   (97, 100, [], 44),
   (101, 101, [], 46),
   (102, 122, [], 44),
   (126, 126, [], 44)]
/-- `ron/text-parser.cc:3474` state 41. -/
def row41 : List (Nat × Nat × List Act × Nat) :=
  [(48, 57, [begin_origin], 42),
   (65, 90, [begin_origin], 42),
   (95, 95, [begin_origin], 42),
   (97, 122, [begin_origin], 42),
   (126, 126, [begin_origin], 42)]
/-- `ron/text-parser.cc:3497` state 42. -/
def row42 : List (Nat × Nat × List Act × Nat) :=
  [(9, 10, [end_origin, end_uuid, end_bare_uuid, newline], 4),
   (13, 13, [end_origin, end_uuid, end_bare_uuid, newline], 4),
   (32, 32, [end_origin, end_uuid, end_bare_uuid, newline], 4),
   (33, 33, [end_origin, end_uuid, end_bare_uuid, op_term], 74),
   (39, 39, [end_origin, end_uuid, end_bare_uuid], 1),
   (40, 40, [end_origin, end_uuid, end_bare_uuid], 5),
   (44, 44, [end_origin, end_uuid, end_bare_uuid, op_term], 74),
   (48, 57, [], 42),
   (59, 59, [end_origin, end_uuid, end_bare_uuid, op_term], 74),
   (61, 61, [end_origin, end_uuid, end_bare_uuid], 25),
   (62, 62, [end_origin, end_uuid, end_bare_uuid], 28),
   (63, 63, [end_origin, end_uuid, end_bare_uuid, op_term], 74),
   (65, 90, [], 42),
   (94, 94, [end_origin, end_uuid, end_bare_uuid], 32),
   (95, 95, [], 42),
   (97, 122, [], 42),
   (126, 126, [], 42)]
/-- `ron/text-parser.cc:3545` state 43. -/
def row43 : List (Nat × Nat × List Act × Nat) :=
  [(48, 57, [begin_value], 44),
   (65, 90, [begin_value], 44),
   (95, 95, [begin_value], 44),
   (97, 122, [begin_value], 44),
   (126, 126, [begin_value], 44)]
/-- `ron/text-parser.cc:3579` state 44. -/
def row44 : List (Nat × Nat × List Act × Nat) :=
  [(9, 10, [end_value, end_uuid, end_bare_uuid, newline], 4),
   (13, 13, [end_value, end_uuid, end_bare_uuid, newline], 4),
   (32, 32, [end_value, end_uuid, end_bare_uuid, newline], 4),
   (33, 33, [end_value, end_uuid, end_bare_uuid, op_term], 74),
   (36, 37, [end_value, version], 41),
   (39, 39, [end_value, end_uuid, end_bare_uuid], 1),
   (40, 40, [end_value, end_uuid, end_bare_uuid], 5),
   (43, 43, [end_value, version], 41),
   (44, 44, [end_value, end_uuid, end_bare_uuid, op_term], 74),
   (45, 45, [end_value, version], 41),
   (48, 57, [], 44),
   (59, 59, [end_value, end_uuid, end_bare_uuid, op_term], 74),
   (61, 61, [end_value, end_uuid, end_bare_uuid], 25),
   (62, 62, [end_value, end_uuid, end_bare_uuid], 28),
   (63, 63, [end_value, end_uuid, end_bare_uuid, op_term], 74),
   (65, 90, [], 44),
   (94, 94, [end_value, end_uuid, end_bare_uuid], 32),
   (95, 95, [], 44),
   (97, 122, [], 44),
   (126, 126, [], 44)]
/-- `ron/text-parser.cc:3626` state 45. -/
def row45 : List (Nat × Nat × List Act × Nat) :=
  [(9, 10, [end_int, end_value, end_uuid, end_bare_uuid, newline], 4),
   (13, 13, [end_int, end_value, end_uuid, end_bare_uuid, newline], 4),
   (32, 32, [end_int, end_value, end_uuid, end_bare_uuid, newline], 4),
   (33, 33, [end_int, end_value, end_uuid, end_bare_uuid, op_term], 74),
   (36, 37, [end_value, version], 41),
   (39, 39, [end_int, end_value, end_uuid, end_bare_uuid], 1),
   (40, 40, [end_int, end_value, end_uuid, end_bare_uuid], 5),
   (43, 43, [end_value, version], 41),
   (44, 44, [end_int, end_value, end_uuid, end_bare_uuid, op_term], 74),
   (45, 45, [end_value, version], 41),
   (46, 46, [], 23),
   (48, 57, [], 45),
   (59, 59, [end_int, end_value, end_uuid, end_bare_uuid, op_term], 74),
   (61, 61, [end_int, end_value, end_uuid, end_bare_uuid], 25),
   (62, 62, [end_int, end_value, end_uuid, end_bare_uuid], 28),
   (63, 63, [end_int, end_value, end_uuid, end_bare_uuid, op_term], 74),
   (65, 68, [], 44),
   (69, 69, [], 46),
   (70, 90, [], 44),
   (94, 94, [end_int, end_value, end_uuid, end_bare_uuid], 32),
   (95, 95, [], 44),
   (97, 100, [], 44),
   (101, 101, [], 46),
   (102, 122, [], 44),
   (126, 126, [], 44)]
/-- `ron/text-parser.cc:3678` state 46. -/
def row46 : List (Nat × Nat × List Act × Nat) :=
  [(9, 10, [end_value, end_uuid, end_bare_uuid, newline], 4),
   (13, 13, [end_value, end_uuid, end_bare_uuid, newline], 4),
   (32, 32, [end_value, end_uuid, end_bare_uuid, newline], 4),
   (33, 33, [end_value, end_uuid, end_bare_uuid, op_term], 74),
   (36, 37, [end_value, version], 41),
   (39, 39, [end_value, end_uuid, end_bare_uuid], 1),
   (40, 40, [end_value, end_uuid, end_bare_uuid], 5),
   (43, 43, [end_value, version], 47),
   (44, 44, [end_value, end_uuid, end_bare_uuid, op_term], 74),
   (45, 45, [end_value, version], 47),
   (48, 57, [], 49),
   (59, 59, [end_value, end_uuid, end_bare_uuid, op_term], 74),
   (61, 61, [end_value, end_uuid, end_bare_uuid], 25),
   (62, 62, [end_value, end_uuid, end_bare_uuid], 28),
   (63, 63, [end_value, end_uuid, end_bare_uuid, op_term], 74),
   (65, 90, [], 44),
   (94, 94, [end_value, end_uuid, end_bare_uuid], 32),
   (95, 95, [], 44),
   (97, 122, [], 44),
   (126, 126, [], 44)]
/-- `ron/text-parser.cc:3732` state 47. -/
def row47 : List (Nat × Nat × List Act × Nat) :=
  [(48, 57, [begin_origin], 48),
   (65, 90, [begin_origin], 42),
   (95, 95, [begin_origin], 42),
   (97, 122, [begin_origin], 42),
   (126, 126, [begin_origin], 42)]
/-- `ron/text-parser.cc:3755` state 48. -/
def row48 : List (Nat × Nat × List Act × Nat) :=
  [(9, 10, [end_float, end_origin, end_uuid, end_bare_uuid, newline], 4),
   (13, 13, [end_float, end_origin, end_uuid, end_bare_uuid, newline], 4),
   (32, 32, [end_float, end_origin, end_uuid, end_bare_uuid, newline], 4),
   (33, 33, [end_float, end_origin, end_uuid, end_bare_uuid, op_term], 74),
   (39, 39, [end_float, end_origin, end_uuid, end_bare_uuid], 1),
   (40, 40, [end_float, end_origin, end_uuid, end_bare_uuid], 5),
   (44, 44, [end_float, end_origin, end_uuid, end_bare_uuid, op_term], 74),
   (48, 57, [], 48),
   (59, 59, [end_float, end_origin, end_uuid, end_bare_uuid, op_term], 74),
   (61, 61, [end_float, end_origin, end_uuid, end_bare_uuid], 25),
   (62, 62, [end_float, end_origin, end_uuid, end_bare_uuid], 28),
   (63, 63, [end_float, end_origin, end_uuid, end_bare_uuid, op_term], 74),
   (65, 90, [], 42),
   (94, 94, [end_float, end_origin, end_uuid, end_bare_uuid], 32),
   (95, 95, [], 42),
   (97, 122, [], 42),
   (126, 126, [], 42)]
/-- `ron/text-parser.cc:3797` state 49. -/
def row49 : List (Nat × Nat × List Act × Nat) :=
  [(9, 10, [end_float, end_value, end_uuid, end_bare_uuid, newline], 4),
   (13, 13, [end_float, end_value, end_uuid, end_bare_uuid, newline], 4),
   (32, 32, [end_float, end_value, end_uuid, end_bare_uuid, newline], 4),
   (33, 33, [end_float, end_value, end_uuid, end_bare_uuid, op_term], 74),
   (36, 37, [end_value, version], 41),
   (39, 39, [end_float, end_value, end_uuid, end_bare_uuid], 1),
   (40, 40, [end_float, end_value, end_uuid, end_bare_uuid], 5),
   (43, 43, [end_value, version], 41),
   (44, 44, [end_float, end_value, end_uuid, end_bare_uuid, op_term], 74),
   (45, 45, [end_value, version], 41),
   (48, 57, [], 49),
   (59, 59, [end_float, end_value, end_uuid, end_bare_uuid, op_term], 74),
   (61, 61, [end_float, end_value, end_uuid, end_bare_uuid], 25),
   (62, 62, [end_float, end_value, end_uuid, end_bare_uuid], 28),
   (63, 63, [end_float, end_value, end_uuid, end_bare_uuid, op_term], 74),
   (65, 90, [], 44),
   (94, 94, [end_float, end_value, end_uuid, end_bare_uuid], 32),
   (95, 95, [], 44),
   (97, 122, [], 44),
   (126, 126, [], 44)]
/-- `ron/text-parser.cc:3854` state 50. -/
def row50 : List (Nat × Nat × List Act × Nat) :=
  [(9, 10, [end_value, end_uuid, end_bare_uuid, newline], 4),
   (13, 13, [end_value, end_uuid, end_bare_uuid, newline], 4),
   (32, 32, [end_value, end_uuid, end_bare_uuid, newline], 4),
   (33, 33, [end_value, end_uuid, end_bare_uuid, op_term], 74),
   (36, 37, [end_value, version], 41),
   (39, 39, [end_value, end_uuid, end_bare_uuid], 1),
   (40, 40, [end_value, end_uuid, end_bare_uuid], 5),
   (43, 43, [end_value, version], 41),
   (44, 44, [end_value, end_uuid, end_bare_uuid, op_term], 74),
   (45, 45, [end_value, version], 41),
   (47, 47, [variety], 43),
   (48, 57, [], 44),
   (59, 59, [end_value, end_uuid, end_bare_uuid, op_term], 74),
   (61, 61, [end_value, end_uuid, end_bare_uuid], 25),
   (62, 62, [end_value, end_uuid, end_bare_uuid], 28),
   (63, 63, [end_value, end_uuid, end_bare_uuid, op_term], 74),
   (65, 90, [], 44),
   (94, 94, [end_value, end_uuid, end_bare_uuid], 32),
   (95, 95, [], 44),
   (97, 122, [], 44),
   (126, 126, [], 44)]
/-- `ron/text-parser.cc:3924` state 51. -/
def row51 : List (Nat × Nat × List Act × Nat) :=
  [(34, 34, [string_esc], 2),
   (39, 39, [string_esc], 2),
   (47, 47, [string_esc], 2),
   (92, 92, [string_esc], 2),
   (98, 98, [string_esc], 2),
   (110, 110, [string_esc], 2),
   (114, 114, [string_esc], 2),
   (116, 116, [string_esc], 2),
   (117, 117, [], 52)]
/-- `ron/text-parser.cc:3949` state 52. -/
def row52 : List (Nat × Nat × List Act × Nat) :=
  [(48, 57, [], 53),
   (65, 70, [], 53),
   (97, 102, [], 53)]
/-- `ron/text-parser.cc:3959` state 53. -/
def row53 : List (Nat × Nat × List Act × Nat) :=
  [(48, 57, [], 54),
   (65, 70, [], 54),
   (97, 102, [], 54)]
/-- `ron/text-parser.cc:3969` state 54. -/
def row54 : List (Nat × Nat × List Act × Nat) :=
  [(48, 57, [], 55),
   (65, 70, [], 55),
   (97, 102, [], 55)]
/-- `ron/text-parser.cc:3979` state 55. -/
def row55 : List (Nat × Nat × List Act × Nat) :=
  [(48, 57, [], 56),
   (65, 70, [], 56),
   (97, 102, [], 56)]
/-- `ron/text-parser.cc:3989` state 56. -/
def row56 : List (Nat × Nat × List Act × Nat) :=
  [(1, 9, [string_uesc, end_cp, string_lead1], 2),
   (11, 12, [string_uesc, end_cp, string_lead1], 2),
   (14, 38, [string_uesc, end_cp, string_lead1], 2),
   (39, 39, [string_uesc, end_cp, end_string], 3),
   (40, 91, [string_uesc, end_cp, string_lead1], 2),
   (92, 92, [string_uesc, end_cp], 51),
   (93, 127, [string_uesc, end_cp, string_lead1], 2),
   (192, 223, [string_uesc, end_cp, string_lead2], 57),
   (224, 239, [string_uesc, end_cp, string_lead3], 58),
   (240, 247, [string_uesc, end_cp, string_lead4], 59)]
/-- `ron/text-parser.cc:4050` state 57. -/
def row57 : List (Nat × Nat × List Act × Nat) :=
  [(128, 191, [string_cont], 2)]
/-- `ron/text-parser.cc:4089` state 58. -/
def row58 : List (Nat × Nat × List Act × Nat) :=
  [(128, 191, [string_cont], 57)]
/-- `ron/text-parser.cc:4122` state 59. -/
def row59 : List (Nat × Nat × List Act × Nat) :=
  [(128, 191, [string_cont], 58)]
/-- `ron/text-parser.cc:4128` state 60. -/
def row60 : List (Nat × Nat × List Act × Nat) :=
  [(10, 10, [], 75)]
/-- `ron/text-parser.cc:4137` state 61. -/
def row61 : List (Nat × Nat × List Act × Nat) :=
  [(48, 57, [begin_uuid, begin_value], 62),
   (65, 70, [begin_uuid, begin_value], 62),
   (71, 90, [begin_uuid, begin_value], 73),
   (95, 95, [begin_uuid, begin_value], 73),
   (97, 122, [begin_uuid, begin_value], 73),
   (126, 126, [begin_uuid, begin_value], 73)]
/-- `ron/text-parser.cc:4167` state 62. -/
def row62 : List (Nat × Nat × List Act × Nat) :=
  [(9, 10, [end_value, end_uuid, end_id, newline], 63),
   (13, 13, [end_value, end_uuid, end_id, newline], 63),
   (32, 32, [end_value, end_uuid, end_id, newline], 63),
   (33, 33, [end_value, end_uuid, end_id, op_term], 74),
   (36, 37, [end_value, version], 70),
   (39, 39, [end_value, end_uuid, end_id], 1),
   (40, 40, [end_value, end_uuid, end_id], 5),
   (43, 43, [end_value, version], 70),
   (44, 44, [end_value, end_uuid, end_id, op_term], 74),
   (45, 45, [end_value, version], 70),
   (47, 47, [variety], 72),
   (48, 57, [], 73),
   (58, 58, [end_value, end_uuid, end_id], 64),
   (59, 59, [end_value, end_uuid, end_id, op_term], 74),
   (61, 61, [end_value, end_uuid, end_id], 25),
   (62, 62, [end_value, end_uuid, end_id], 28),
   (63, 63, [end_value, end_uuid, end_id, op_term], 74),
   (65, 90, [], 73),
   (94, 94, [end_value, end_uuid, end_id], 32),
   (95, 95, [], 73),
   (97, 122, [], 73),
   (126, 126, [], 73)]
/-- `ron/text-parser.cc:4261` state 63. -/
def row63 : List (Nat × Nat × List Act × Nat) :=
  [(9, 10, [newline], 63),
   (13, 13, [newline], 63),
   (32, 32, [newline], 63),
   (33, 33, [op_term], 74),
   (39, 39, [], 1),
   (40, 40, [], 5),
   (43, 43, [begin_int, begin_float], 21),
   (44, 44, [op_term], 74),
   (45, 45, [begin_int, begin_float], 21),
   (48, 57, [begin_int, begin_float, begin_uuid, begin_value], 40),
   (58, 58, [], 64),
   (59, 59, [op_term], 74),
   (61, 61, [], 25),
   (62, 62, [], 28),
   (63, 63, [op_term], 74),
   (65, 70, [begin_uuid, begin_value], 50),
   (71, 90, [begin_uuid, begin_value], 44),
   (94, 94, [], 32),
   (95, 95, [begin_uuid, begin_value], 44),
   (97, 122, [begin_uuid, begin_value], 44),
   (126, 126, [begin_uuid, begin_value], 44)]
/-- `ron/text-parser.cc:4330` state 64. -/
def row64 : List (Nat × Nat × List Act × Nat) :=
  [(48, 57, [begin_uuid, begin_value], 65),
   (65, 70, [begin_uuid, begin_value], 65),
   (71, 90, [begin_uuid, begin_value], 69),
   (95, 95, [begin_uuid, begin_value], 69),
   (97, 122, [begin_uuid, begin_value], 69),
   (126, 126, [begin_uuid, begin_value], 69)]
/-- `ron/text-parser.cc:4361` state 65. -/
def row65 : List (Nat × Nat × List Act × Nat) :=
  [(9, 10, [end_value, end_uuid, end_ref, newline], 4),
   (13, 13, [end_value, end_uuid, end_ref, newline], 4),
   (32, 32, [end_value, end_uuid, end_ref, newline], 4),
   (33, 33, [end_value, end_uuid, end_ref, op_term], 74),
   (36, 37, [end_value, version], 66),
   (39, 39, [end_value, end_uuid, end_ref], 1),
   (40, 40, [end_value, end_uuid, end_ref], 5),
   (43, 43, [end_value, version], 66),
   (44, 44, [end_value, end_uuid, end_ref, op_term], 74),
   (45, 45, [end_value, version], 66),
   (47, 47, [variety], 68),
   (48, 57, [], 69),
   (59, 59, [end_value, end_uuid, end_ref, op_term], 74),
   (61, 61, [end_value, end_uuid, end_ref], 25),
   (62, 62, [end_value, end_uuid, end_ref], 28),
   (63, 63, [end_value, end_uuid, end_ref, op_term], 74),
   (65, 90, [], 69),
   (94, 94, [end_value, end_uuid, end_ref], 32),
   (95, 95, [], 69),
   (97, 122, [], 69),
   (126, 126, [], 69)]
/-- `ron/text-parser.cc:4418` state 66. -/
def row66 : List (Nat × Nat × List Act × Nat) :=
  [(48, 57, [begin_origin], 67),
   (65, 90, [begin_origin], 67),
   (95, 95, [begin_origin], 67),
   (97, 122, [begin_origin], 67),
   (126, 126, [begin_origin], 67)]
/-- `ron/text-parser.cc:4441` state 67. -/
def row67 : List (Nat × Nat × List Act × Nat) :=
  [(9, 10, [end_origin, end_uuid, end_ref, newline], 4),
   (13, 13, [end_origin, end_uuid, end_ref, newline], 4),
   (32, 32, [end_origin, end_uuid, end_ref, newline], 4),
   (33, 33, [end_origin, end_uuid, end_ref, op_term], 74),
   (39, 39, [end_origin, end_uuid, end_ref], 1),
   (40, 40, [end_origin, end_uuid, end_ref], 5),
   (44, 44, [end_origin, end_uuid, end_ref, op_term], 74),
   (48, 57, [], 67),
   (59, 59, [end_origin, end_uuid, end_ref, op_term], 74),
   (61, 61, [end_origin, end_uuid, end_ref], 25),
   (62, 62, [end_origin, end_uuid, end_ref], 28),
   (63, 63, [end_origin, end_uuid, end_ref, op_term], 74),
   (65, 90, [], 67),
   (94, 94, [end_origin, end_uuid, end_ref], 32),
   (95, 95, [], 67),
   (97, 122, [], 67),
   (126, 126, [], 67)]
/-- `ron/text-parser.cc:4489` state 68. -/
def row68 : List (Nat × Nat × List Act × Nat) :=
  [(48, 57, [begin_value], 69),
   (65, 90, [begin_value], 69),
   (95, 95, [begin_value], 69),
   (97, 122, [begin_value], 69),
   (126, 126, [begin_value], 69)]
/-- `ron/text-parser.cc:4523` state 69. -/
def row69 : List (Nat × Nat × List Act × Nat) :=
  [(9, 10, [end_value, end_uuid, end_ref, newline], 4),
   (13, 13, [end_value, end_uuid, end_ref, newline], 4),
   (32, 32, [end_value, end_uuid, end_ref, newline], 4),
   (33, 33, [end_value, end_uuid, end_ref, op_term], 74),
   (36, 37, [end_value, version], 66),
   (39, 39, [end_value, end_uuid, end_ref], 1),
   (40, 40, [end_value, end_uuid, end_ref], 5),
   (43, 43, [end_value, version], 66),
   (44, 44, [end_value, end_uuid, end_ref, op_term], 74),
   (45, 45, [end_value, version], 66),
   (48, 57, [], 69),
   (59, 59, [end_value, end_uuid, end_ref, op_term], 74),
   (61, 61, [end_value, end_uuid, end_ref], 25),
   (62, 62, [end_value, end_uuid, end_ref], 28),
   (63, 63, [end_value, end_uuid, end_ref, op_term], 74),
   (65, 90, [], 69),
   (94, 94, [end_value, end_uuid, end_ref], 32),
   (95, 95, [], 69),
   (97, 122, [], 69),
   (126, 126, [], 69)]
/-- `ron/text-parser.cc:4578` state 70. -/
def row70 : List (Nat × Nat × List Act × Nat) :=
  [(48, 57, [begin_origin], 71),
   (65, 90, [begin_origin], 71),
   (95, 95, [begin_origin], 71),
   (97, 122, [begin_origin], 71),
   (126, 126, [begin_origin], 71)]
/-- `ron/text-parser.cc:4601` state 71. -/
def row71 : List (Nat × Nat × List Act × Nat) :=
  [(9, 10, [end_origin, end_uuid, end_id, newline], 63),
   (13, 13, [end_origin, end_uuid, end_id, newline], 63),
   (32, 32, [end_origin, end_uuid, end_id, newline], 63),
   (33, 33, [end_origin, end_uuid, end_id, op_term], 74),
   (39, 39, [end_origin, end_uuid, end_id], 1),
   (40, 40, [end_origin, end_uuid, end_id], 5),
   (44, 44, [end_origin, end_uuid, end_id, op_term], 74),
   (48, 57, [], 71),
   (58, 58, [end_origin, end_uuid, end_id], 64),
   (59, 59, [end_origin, end_uuid, end_id, op_term], 74),
   (61, 61, [end_origin, end_uuid, end_id], 25),
   (62, 62, [end_origin, end_uuid, end_id], 28),
   (63, 63, [end_origin, end_uuid, end_id, op_term], 74),
   (65, 90, [], 71),
   (94, 94, [end_origin, end_uuid, end_id], 32),
   (95, 95, [], 71),
   (97, 122, [], 71),
   (126, 126, [], 71)]
/-- `ron/text-parser.cc:4651` state 72. -/
def row72 : List (Nat × Nat × List Act × Nat) :=
  [(48, 57, [begin_value], 73),
   (65, 90, [begin_value], 73),
   (95, 95, [begin_value], 73),
   (97, 122, [begin_value], 73),
   (126, 126, [begin_value], 73)]
/-- `ron/text-parser.cc:4685` state 73. -/
def row73 : List (Nat × Nat × List Act × Nat) :=
  [(9, 10, [end_value, end_uuid, end_id, newline], 63),
   (13, 13, [end_value, end_uuid, end_id, newline], 63),
   (32, 32, [end_value, end_uuid, end_id, newline], 63),
   (33, 33, [end_value, end_uuid, end_id, op_term], 74),
   (36, 37, [end_value, version], 70),
   (39, 39, [end_value, end_uuid, end_id], 1),
   (40, 40, [end_value, end_uuid, end_id], 5),
   (43, 43, [end_value, version], 70),
   (44, 44, [end_value, end_uuid, end_id, op_term], 74),
   (45, 45, [end_value, version], 70),
   (48, 57, [], 73),
   (58, 58, [end_value, end_uuid, end_id], 64),
   (59, 59, [end_value, end_uuid, end_id, op_term], 74),
   (61, 61, [end_value, end_uuid, end_id], 25),
   (62, 62, [end_value, end_uuid, end_id], 28),
   (63, 63, [end_value, end_uuid, end_id, op_term], 74),
   (65, 90, [], 73),
   (94, 94, [end_value, end_uuid, end_id], 32),
   (95, 95, [], 73),
   (97, 122, [], 73),
   (126, 126, [], 73)]
/-- `ron/text-parser.cc:481` state 74. -/
def row74 : List (Nat × Nat × List Act × Nat) :=
  [(9, 10, [newline], 74),
   (13, 13, [newline], 74),
   (32, 32, [newline], 74),
   (33, 33, [op_term], 74),
   (39, 39, [], 1),
   (40, 40, [], 5),
   (43, 43, [begin_int, begin_float], 21),
   (44, 44, [op_term], 74),
   (45, 45, [begin_int, begin_float], 21),
   (46, 46, [], 60),
   (48, 57, [begin_int, begin_float, begin_uuid, begin_value], 40),
   (59, 59, [op_term], 74),
   (61, 61, [], 25),
   (62, 62, [], 28),
   (63, 63, [op_term], 74),
   (64, 64, [], 61),
   (65, 70, [begin_uuid, begin_value], 50),
   (71, 90, [begin_uuid, begin_value], 44),
   (94, 94, [], 32),
   (95, 95, [begin_uuid, begin_value], 44),
   (97, 122, [begin_uuid, begin_value], 44),
   (126, 126, [begin_uuid, begin_value], 44)]
/-- `ron/text-parser.cc:4133` state 75. -/
def row75 : List (Nat × Nat × List Act × Nat) :=
  []

/-- All states. -/
def rows : Nat → List (Nat × Nat × List Act × Nat)
  | 1 => row1
  | 2 => row2
  | 3 => row3
  | 4 => row4
  | 5 => row5
  | 6 => row6
  | 7 => row7
  | 8 => row8
  | 9 => row9
  | 10 => row10
  | 11 => row11
  | 12 => row12
  | 13 => row13
  | 14 => row14
  | 15 => row15
  | 16 => row16
  | 17 => row17
  | 18 => row18
  | 19 => row19
  | 20 => row20
  | 21 => row21
  | 22 => row22
  | 23 => row23
  | 24 => row24
  | 25 => row25
  | 26 => row26
  | 27 => row27
  | 28 => row28
  | 29 => row29
  | 30 => row30
  | 31 => row31
  | 32 => row32
  | 33 => row33
  | 34 => row34
  | 35 => row35
  | 36 => row36
  | 37 => row37
  | 38 => row38
  | 39 => row39
  | 40 => row40
  | 41 => row41
  | 42 => row42
  | 43 => row43
  | 44 => row44
  | 45 => row45
  | 46 => row46
  | 47 => row47
  | 48 => row48
  | 49 => row49
  | 50 => row50
  | 51 => row51
  | 52 => row52
  | 53 => row53
  | 54 => row54
  | 55 => row55
  | 56 => row56
  | 57 => row57
  | 58 => row58
  | 59 => row59
  | 60 => row60
  | 61 => row61
  | 62 => row62
  | 63 => row63
  | 64 => row64
  | 65 => row65
  | 66 => row66
  | 67 => row67
  | 68 => row68
  | 69 => row69
  | 70 => row70
  | 71 => row71
  | 72 => row72
  | 73 => row73
  | 74 => row74
  | 75 => row75
  | _ => []

/-- Actions run at the end of input (`p == eof`) in a state. -/
def eofActs : Nat → List Act
  | _ => []

end Ron.TextTable
