import Verif.Model.Bytes
/-!
Integer literals: `ron/text.cc` (`int_too_big`, `ParseInteger`), `ron/text-builder.cc`
(`WriteInt`).
-/
namespace Ron

/-- `memcmp(a, b, n) > 0` on byte strings of the same length: the first difference
decides (bytes compared as unsigned). -/
def memcmpGt : List Byte → List Byte → Bool
  | a :: as, b :: bs =>
    if b.toNat < a.toNat then true
    else if a.toNat < b.toNat then false
    else memcmpGt as bs
  | _, _ => false

/-- The literal of `ron/text.cc:71`. -/
def MAXINTSTR : List Byte :=
  [57, 50, 50, 51, 51, 55, 50, 48, 51, 54, 56, 53, 52, 55, 55, 53, 56, 48, 55]

/-- `*mem == '-' || *mem == '+'`. -/
def isSign (c : Byte) : Bool := c.toNat == 45 || c.toNat == 43

/-- `TextFrame::Cursor::int_too_big`, `ron/text.cc:70-86`. `memcmp` looks at the first
`sz` bytes of `MAXINTSTR` (`sz ≤ 19` there). -/
def intTooBig (data : List Byte) : Bool :=
  if data.length < 19 then false
  else
    let mem := match data with
      | c :: rest => if isSign c then rest else data
      | [] => data
    if mem.length > 19 then true
    else memcmpGt mem (MAXINTSTR.take mem.length)

/-- The check of the `end_int` action, `ragel/text-grammar.rl:18-21`: the literal is
accepted. -/
def intAccepted (data : List Byte) : Bool :=
  !(decide (data.length ≥ 19) && intTooBig data)

/-- Values of `int64_t`. -/
def isInt64 (i : Int) : Bool := decide (-2 ^ 63 ≤ i ∧ i < 2 ^ 63)

/-- The loop of `ParseInteger`, `ron/text.cc:19-23`: `ret *= 10; ret += *i - '0'` on
`int64_t`. `none`: signed overflow (undefined behaviour). -/
def parseIntLoop (ret : Int) : List Byte → Option Int
  | [] => some ret
  | c :: rest =>
    if isInt64 (ret * 10) = true ∧ isInt64 (ret * 10 + ((c.toNat : Int) - 48)) = true then
      parseIntLoop (ret * 10 + ((c.toNat : Int) - 48)) rest
    else none

/-- `TextFrame::Cursor::ParseInteger`, `ron/text.cc:7-26`, on the bytes of the atom's
range. `none`: read of an empty range or signed overflow. -/
def parseInteger : List Byte → Option Int
  | [] => none
  | c :: rest =>
    if c.toNat = 45 then
      (parseIntLoop 0 rest).bind fun r => if isInt64 (-r) then some (-r) else none
    else if c.toNat = 43 then parseIntLoop 0 rest
    else parseIntLoop 0 (c :: rest)

/-- Decimal digits of a number, most significant first (`sprintf` of the C library, not
part of the repository; `fuel` 20 is enough for 64-bit numbers). -/
def decDigits : Nat → Nat → List Byte
  | 0, _ => []
  | fuel + 1, n =>
    if n < 10 then [UInt8.ofNat (48 + n)]
    else decDigits fuel (n / 10) ++ [UInt8.ofNat (48 + n % 10)]

/-- `sprintf("%" PRId64, value)`. -/
def sprintfInt (v : Int) : List Byte :=
  if v < 0 then 45 :: decDigits 20 v.natAbs else decDigits 20 v.natAbs

/-- `TextFrame::Builder::WriteInt`, `ron/text-builder.cc:39-43`: the bytes appended.
`none`: `sprintf` writes the text and the final zero past `char tmp[20]`. -/
def writeInt (v : Int) : Option (List Byte) :=
  if (sprintfInt v).length + 1 ≤ 20 then some (sprintfInt v) else none

end Ron
