import Verif.Model.Bytes
import Verif.Model.Utf8Table
/-!
UTF-8 and UTF-16 conversions: `ron/encdec.hpp`, `ron/utf8-parser.cc`.
A code point is a natural number below 2^32 (`Codepoint = uint32_t`, `ron/slice.hpp:18`).
-/
namespace Ron

/-- `static_cast<Char>` of an `uint32_t`, as done by `String::push_back`. -/
def toChar (n : Nat) : Byte := UInt8.ofNat (n % 256)

/-- `utf8append`, `ron/encdec.hpp:78-94`: the bytes it pushes. -/
def utf8append (cp : Nat) : List Byte :=
  if cp < 128 then [toChar cp]
  else if cp < 2048 then [toChar ((cp >>> 6) ||| 192), toChar ((cp &&& 63) ||| 128)]
  else if cp < 65536 then
    [toChar ((cp >>> 12) ||| 224), toChar (((cp >>> 6) &&& 63) ||| 128),
     toChar ((cp &&& 63) ||| 128)]
  else
    [toChar (((cp >>> 18) &&& 7) ||| 240), toChar (((cp >>> 12) &&& 63) ||| 128),
     toChar (((cp >>> 6) &&& 63) ||| 128), toChar ((cp &&& 63) ||| 128)]

/-- `utf8esc_append`, `ron/encdec.hpp:96-150`: like `utf8append`, the eight special
ASCII characters are escaped with a backslash. -/
def utf8escAppend (cp : Nat) : List Byte :=
  if cp < 128 then
    if cp = 34 then [92, 34]
    else if cp = 39 then [92, 39]
    else if cp = 92 then [92, 92]
    else if cp = 8 then [92, 98]
    else if cp = 12 then [92, 102]
    else if cp = 10 then [92, 110]
    else if cp = 13 then [92, 114]
    else if cp = 9 then [92, 116]
    else [toChar cp]
  else utf8append cp

/-- `utf16append`, `ron/encdec.hpp:152-159`: the 16-bit code units it pushes
(`static_cast<char16_t>` is reduction modulo 2^16). -/
def utf16append (cp : Nat) : List Nat :=
  if cp < 0xd7ff ∨ (cp < 0x10000 ∧ cp ≥ 0xe000) then [cp % 2 ^ 16]
  else [(0xd800 + cp >>> 10) % 2 ^ 16, (0xdc00 + (cp &&& 1023)) % 2 ^ 16]

/-- The fallthrough `switch (sz)` of `utf8read`, `ron/encdec.hpp:188-201`: `k = sz - 1`
bytes are read, without looking at their class. -/
def utf8readCont (ret : Nat) : Nat → List Byte → Option (Nat × List Byte)
  | 0, at_ => some (ret, at_)
  | k + 1, c :: at_ => utf8readCont ((ret * 2 ^ 6) % 2 ^ 32 ||| (c.toNat &&& 0x3f)) k at_
  | _ + 1, [] => none

/-- `utf8read`, `ron/encdec.hpp:161-203`, on the remaining bytes: the code point and the
bytes left. `none`: read at the end of the string. Result 0 is also `CP_ERROR`
(`ron/slice.hpp:25`). -/
def utf8read : List Byte → Option (Nat × List Byte)
  | [] => none
  | h :: at_ =>
    let head := h.toNat
    if head < 128 then some (head, at_)
    else if head ≤ 0xdf then
      if at_.length < 1 then some (0, []) else utf8readCont (head &&& 0x1f) 1 at_
    else if head ≤ 0xef then
      if at_.length < 2 then some (0, []) else utf8readCont (head &&& 0xf) 2 at_
    else if head ≤ 0xf7 then
      if at_.length < 3 then some (0, []) else utf8readCont (head &&& 0x7) 3 at_
    else some (0, at_)

/-- `utf16read`, `ron/encdec.hpp:205-222`, on the remaining code units. `none`: the read
of the second unit of a pair past the end of the string (there is no check). The unit is
subtracted as `int` and or-ed as `uint32_t`. -/
def utf16read : List Nat → Option (Nat × List Nat)
  | [] => none
  | u :: at_ =>
    if u < 0xd800 then some (u, at_)
    else if u ≥ 0xe000 then some (u, at_)
    else
      match at_ with
      | [] => none
      | next :: rest =>
        some (((u - 0xd800) * 2 ^ 10) ||| ((next + 2 ^ 32 - 0xdc00) % 2 ^ 32), rest)

namespace Utf8Parser

/-- Locals of `ParseUtf8`, `ron/utf8-parser.cc:21-27`: `cp` and the output `into`. -/
structure Regs where
  cp : Nat
  into : List Nat
  deriving DecidableEq, Repr

/-- One embedded action (`ragel/utf8-grammar.rl:7-11`, `ragel/utf8-parser.rl:21-24`); `c`
is `*p`. `none`: an action that does not belong to this automaton. -/
def act (c : Byte) (r : Regs) : Act → Option Regs
  | .string_cont => some { r with cp := (r.cp * 2 ^ 6) % 2 ^ 32 ||| (c.toNat &&& 0x3f) }
  | .string_lead1 => some { r with cp := c.toNat }
  | .string_lead2 => some { r with cp := c.toNat &&& 0x1f }
  | .string_lead3 => some { r with cp := c.toNat &&& 0xf }
  | .string_lead4 => some { r with cp := c.toNat &&& 7 }
  | .push_cp => some { r with cp := 0, into := r.into ++ [r.cp] }
  | _ => none

/-- One byte, `ron/utf8-parser.cc:33-175`; state 0 is the error state (`goto _out`). -/
def step (st : Option (Nat × Regs)) (c : Byte) : Option (Nat × Regs) :=
  match st with
  | none => none
  | some (0, r) => some (0, r)
  | some (s, r) =>
    match stepIn Utf8Table.rows s c with
    | none => some (0, r)
    | some (as, t) =>
      match as.foldlM (act c) r with
      | none => none
      | some r' => some (t, r')

/-- `ParseUtf8(into, from)`, `ron/utf8-parser.cc:21-203`: the code points appended to
`into` and whether `OK` is returned (`cs >= first_final`). End-of-input actions run unless
the automaton stopped in the error state. -/
def parse (into : List Nat) (from_ : List Byte) : Option (List Nat × Bool) :=
  match from_.foldl step (some (Utf8Table.start, ⟨0, into⟩)) with
  | none => none
  | some (0, r) => some (r.into, false)
  | some (s, r) =>
    match (Utf8Table.eofActs s).foldlM (act 0) r with
    | none => none
    | some r' => some (r'.into, decide (Utf8Table.firstFinal ≤ s))

end Utf8Parser
end Ron
