/-!
Bytes and the constant tables of `ron/const.hpp` and `ron/uuid.cc`.
-/

namespace Ron

/-- `ron/slice.hpp:21` `using Char = unsigned char`. -/
abbrev Byte := UInt8

/-- An ASCII character literal of the C++ source as a byte. -/
def ch (c : Char) : Byte := UInt8.ofNat c.toNat

/-- An ASCII string literal of the C++ source as bytes. -/
def lit (s : String) : List Byte := s.toList.map ch

/-- `ron/const.hpp:63-64` `BASE_PUNCT`, the Base64 alphabet of RON. -/
def BASE_PUNCT : List Byte :=
  [48, 49, 50, 51, 52, 53, 54, 55, 56, 57, 65, 66, 67, 68, 69, 70, 71, 72, 73, 74, 75, 76,
   77, 78, 79, 80, 81, 82, 83, 84, 85, 86, 87, 88, 89, 90, 95, 97, 98, 99, 100, 101, 102,
   103, 104, 105, 106, 107, 108, 109, 110, 111, 112, 113, 114, 115, 116, 117, 118, 119,
   120, 121, 122, 126]

/-- `ron/const.hpp:26` `UUID_PUNCT`. -/
def UUID_PUNCT : List Byte :=
  [36, 37, 43, 45]

/-- `ron/const.hpp:29` `ATOM_PUNCT`. -/
def ATOM_PUNCT : List Byte :=
  [62, 61, 39, 94]

/-- `ron/const.hpp:44` `TERM_PUNCT`. -/
def TERM_PUNCT : List Byte :=
  [59, 44, 33, 63]

/-- `ron/const.hpp:42` `HEX_PUNCT`. -/
def HEX_PUNCT : List Byte :=
  [48, 49, 50, 51, 52, 53, 54, 55, 56, 57, 97, 98, 99, 100, 101, 102]

/-- `ron/uuid.cc:97-106` `ABC[128]`, character to code. -/
def ABC_TABLE : List Nat := [
    255, 255, 255, 255, 255, 255, 255, 255, 255, 255, 255, 255, 255, 255, 255,
    255, 255, 255, 255, 255, 255, 255, 255, 255, 255, 255, 255, 255, 255, 255,
    255, 255, 255, 2,   255, 1,   0,   1,   255, 2,   0,   5,   0,   2,   1,
    3,   0,   255, 0,   1,   2,   3,   4,   5,   6,   7,   8,   9,   3,   0,
    255, 1,   0,   3,   2,   10,  11,  12,  13,  14,  15,  16,  17,  18,  19,
    20,  21,  22,  23,  24,  25,  26,  27,  28,  29,  30,  31,  32,  33,  34,
    35,  1,   255, 4,   3,   36,  0,   37,  38,  39,  40,  41,  42,  43,  44,
    45,  46,  47,  48,  49,  50,  51,  52,  53,  54,  55,  56,  57,  58,  59,
    60,  61,  62,  2,   255, 3,   63,  255]

/-- `ABC[c]`; `none` is a read past the 128-entry table (undefined behaviour). -/
def ABC (c : Byte) : Option Nat := ABC_TABLE[c.toNat]?

/-- `ron/uuid.cc:109-123` `ABC64[256]` (`none` stands for -1). -/
def ABC64 (c : Byte) : Option Nat :=
  let n := c.toNat
  if 48 ≤ n ∧ n ≤ 57 then some (n - 48)
  else if 65 ≤ n ∧ n ≤ 90 then some (n - 65 + 10)
  else if n = 95 then some 36
  else if 97 ≤ n ∧ n ≤ 122 then some (n - 97 + 37)
  else if n = 126 then some 63
  else none

/-- `ron/uuid.cc:125-139` `ABC16[256]` (`none` stands for -1). -/
def ABC16 (c : Byte) : Option Nat :=
  let n := c.toNat
  if 48 ≤ n ∧ n ≤ 57 then some (n - 48)
  else if 65 ≤ n ∧ n ≤ 70 then some (n - 65 + 10)
  else if 97 ≤ n ∧ n ≤ 102 then some (n - 97 + 10)
  else none

/-- The numeric tables above are the string literals of the source. -/
theorem punct_literals :
    BASE_PUNCT = lit "0123456789ABCDEFGHIJKLMNOPQRSTUVWXYZ_abcdefghijklmnopqrstuvwxyz~" ∧
    UUID_PUNCT = lit "$%+-" ∧ ATOM_PUNCT = lit ">='^" ∧ TERM_PUNCT = lit ";,!?" ∧
    HEX_PUNCT = lit "0123456789abcdef" := by decide +kernel

end Ron
