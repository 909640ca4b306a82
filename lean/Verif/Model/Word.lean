import Verif.Model.Bytes
/-!
`Word` and `Uuid`: `ron/uuid.hpp`, `ron/uuid.cc`.
-/

namespace Ron

/-- `ron/uuid.hpp:15-29` `union Word`, the `as_u64` view. -/
abbrev Word := BitVec 64

namespace Word

/-- `ron/uuid.hpp:89` `flags()`: the four most significant bits. -/
def flags (w : Word) : Nat := w.toNat / 2 ^ 60

/-- `ron/uuid.hpp:92` `payload()`: `as_u64 & MAX_VALUE`. -/
def payload (w : Word) : Nat := w.toNat % 2 ^ 60

/-- `ron/uuid.hpp:94` `inc(by)`; wraps modulo 2^64 as `uint64_t` does. -/
def inc (w : Word) (by_ : Nat := 1) : Word := w + BitVec.ofNat 64 by_

/-- `ron/uuid.hpp:95` `dec()`; wraps. -/
def dec (w : Word) : Word := w - 1#64

/-- `ron/uuid.hpp:69` `MAX_VALUE = (1<<60)-1`. -/
def MAX_VALUE : Word := BitVec.ofNat 64 (2 ^ 60 - 1)

/-- `0x3fU & (as_u64 >> OFFSET6[len])`, `ron/uuid.cc:32` with
`OFFSET6[len] = 60 - 6*(len+1)` (`ron/uuid.hpp:71-74`). Used with `len ≤ 9` only. -/
def digit (w : Word) (len : Nat) : Nat := (w.toNat / 2 ^ (60 - 6 * (len + 1))) % 64

/-- `as_u64 & LOWER6[len]` (`ron/uuid.hpp:77-87`): `LOWER6[len] = (1<<(60-6*len))-1`,
which is `0` for `len = 10`. -/
def lower6 (w : Word) (len : Nat) : Nat := w.toNat % 2 ^ (60 - 6 * len)

/-- The `do … while (as_u64 & LOWER6[len])` loop of `Word::write_base64`,
`ron/uuid.cc:29-35`, started at position `len`. The loop reads `OFFSET6[len]` for
`len ≤ 9` only, since `LOWER6[10] = 0`; `fuel` is `10 - len`. -/
def writeFrom (w : Word) (len : Nat) : Nat → List Byte
  | 0 => []
  | fuel + 1 =>
    (BASE_PUNCT.getD (digit w len) 0) ::
      (if lower6 w (len + 1) ≠ 0 then writeFrom w (len + 1) fuel else [])

/-- `Word::write_base64` / `Word::str`, `ron/uuid.cc:29-35`, `ron/uuid.hpp:116-121`. -/
def str (w : Word) : List Byte := writeFrom w 0 10

/-- The first loop of the parsing constructor, `ron/uuid.hpp:40-44`:
`as_u64 <<= 6; as_u64 |= ABC[data[i]]`. `none`: out-of-table read. -/
def parseLoop (acc : Word) : List Byte → Option Word
  | [] => some acc
  | c :: cs =>
    match ABC c with
    | none => none
    | some d => parseLoop ((acc <<< 6) ||| BitVec.ofNat 64 d) cs

/-- The parsing constructor `Word(uint8_t flags, const Slice& data)`,
`ron/uuid.hpp:36-49`. `none`: the `assert(data.size() <= 10)` fails or `ABC` is read
out of bounds. -/
def parse (flags : Nat) (data : List Byte) : Option Word :=
  if data.length ≤ 10 then
    (parseLoop (BitVec.ofNat 64 (flags % 16)) data).map
      (fun w : Word => w <<< (6 * (10 - data.length)))
  else none

/-- The loop of `Word::is_all_digits`, `ron/uuid.cc:37-45`. -/
def allDigitsFrom (w : Word) (len : Nat) : Nat → Bool
  | 0 => true
  | fuel + 1 =>
    if 48 ≤ (BASE_PUNCT.getD (digit w len) 0).toNat ∧
       (BASE_PUNCT.getD (digit w len) 0).toNat ≤ 57 then
      (if lower6 w (len + 1) ≠ 0 then allDigitsFrom w (len + 1) fuel else true)
    else false

/-- `Word::is_all_digits`, `ron/uuid.cc:37-45`. -/
def isAllDigits (w : Word) : Bool := allDigitsFrom w 0 10

/-- `char_case`, `ron/uuid.cc:13-18`: bit 1 is CAPS, bit 0 is SNAKE. `v` is `v & 63`. -/
def charCase (v : Nat) : Nat :=
  let caps := (((2 ^ 36 - 2 ^ 10) ||| 2 ^ 63) >>> (v % 64)) % 2
  let snake := ((2 ^ 63 - 2 ^ 36) >>> (v % 64)) % 2
  2 * caps + snake

/-- The loop of `Word::base64_case`, `ron/uuid.cc:20-27`. -/
def base64CaseLoop (u : Nat) (ret : Nat) : Nat → Nat
  | 0 => ret
  | fuel + 1 => if u ≠ 3 then base64CaseLoop (u / 64) (ret ||| charCase u) fuel else ret

/-- `Word::base64_case`, `ron/uuid.cc:20-27`. -/
def base64Case (w : Word) : Nat := base64CaseLoop w.toNat 0 10

end Word

/-- `ron/uuid.hpp:194-265` `struct Uuid`: a value word and an origin word. -/
structure Uuid where
  value : Word
  origin : Word
  deriving DecidableEq, Repr, Inhabited

namespace Uuid

/-- `ron/uuid.cc:8`. -/
def NIL : Uuid := ⟨0#64, 0#64⟩
/-- `ron/uuid.cc:9`. -/
def FATAL : Uuid := ⟨Word.MAX_VALUE, Word.MAX_VALUE⟩

/-- `ron/uuid.hpp:206-208` `version() = origin.flags() & 3`. -/
def version (u : Uuid) : Nat := u.origin.flags % 4
/-- `ron/uuid.hpp:209` `variety() = value.flags()`. -/
def variety (u : Uuid) : Nat := u.value.flags
/-- `ron/uuid.hpp:212` `zero()`. -/
def zero (u : Uuid) : Bool := u.value == 0#64
/-- `ron/uuid.hpp:216` `is_error()`. -/
def isError (u : Uuid) : Bool := u.origin == Word.MAX_VALUE
/-- `ron/uuid.hpp:213-215` `is_ambiguous()`. -/
def isAmbiguous (u : Uuid) : Bool := u.origin == 0#64 && u.value.isAllDigits

/-- The version codes of `ron/const.hpp:27`. -/
def vNAME : Nat := 0
def vHASH : Nat := 1
def vTIME : Nat := 2
def vDERIVED : Nat := 3

/-- `ron/uuid.hpp:217-220` `Uuid::Time`. -/
def time (value origin : Word) : Uuid :=
  ⟨value, BitVec.ofNat 64 (origin.payload + 2 * 2 ^ 60)⟩
/-- `ron/uuid.hpp:221-224` `Uuid::Derived`. -/
def derivedOf (value origin : Word) : Uuid :=
  ⟨value, BitVec.ofNat 64 (origin.payload + 3 * 2 ^ 60)⟩
/-- `ron/uuid.hpp:225` `derived()`. -/
def derived (u : Uuid) : Uuid := derivedOf u.value u.origin
/-- `ron/uuid.hpp:226` `event()`. -/
def event (u : Uuid) : Uuid := time u.value u.origin
/-- `ron/uuid.hpp:227-229` `inc(by)`. -/
def inc (u : Uuid) (by_ : Nat := 1) : Uuid := ⟨u.value.inc by_, u.origin⟩
/-- `ron/uuid.hpp:230` `dec()`. -/
def dec (u : Uuid) : Uuid := ⟨u.value.dec, u.origin⟩

/-- `ron/uuid.hpp:232-234` `operator<` (on `as_u64`, `ron/uuid.hpp:96,100`). -/
def lt (a b : Uuid) : Bool :=
  decide (a.value.toNat < b.value.toNat) ||
    (decide (a.value = b.value) && decide (a.origin.toNat < b.origin.toNat))
/-- `ron/uuid.hpp:235` `operator>`. -/
def gt (a b : Uuid) : Bool := lt b a
/-- `ron/uuid.hpp:240` `operator<=`. -/
def le (a b : Uuid) : Bool := !(lt b a)
/-- `ron/uuid.hpp:241` `operator>=`. -/
def ge (a b : Uuid) : Bool := !(lt a b)

/-- `Uuid::write_base64`, `Uuid::str`, `ron/uuid.cc:47-67`. -/
def str (u : Uuid) : List Byte :=
  (if u.variety ≠ 0 then [BASE_PUNCT.getD u.variety 0, ch '/'] else []) ++
  u.value.str ++
  (if u.version ≠ 0 ∨ u.origin ≠ 0#64 then
    UUID_PUNCT.getD u.version 0 :: u.origin.str
   else [])

/-- The "pre-parsed" constructor, `ron/uuid.hpp:199-201`:
`Uuid{Word{ABC[variety], value}, Word{ABC[version], origin}}`. -/
def parts (variety : Byte) (value : List Byte) (version : Byte) (origin : List Byte) :
    Option Uuid :=
  match ABC variety, ABC version with
  | some v, some s =>
    match Word.parse v value, Word.parse s origin with
    | some a, some b => some ⟨a, b⟩
    | _, _ => none
  | _, _ => none

end Uuid
end Ron
