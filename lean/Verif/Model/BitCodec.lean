import Verif.Model.Bytes
/-!
The bit codec and hash text forms: `ron/encdec.hpp:12-55`, `ron/hash.hpp:13-97`.
-/
namespace Ron

/-- The inner loop `while (bc >= w) { bc -= w; push((bits >> bc) & MASK); }`
(`ron/encdec.hpp:23-26` with `w = bit_width`, `:46-49` with `w = 8`). `fuel` bounds the number
of turns (`bc` suffices, as `w > 0`). -/
def drain (w bits : Nat) : Nat → Nat → List Nat × Nat
  | 0, bc => ([], bc)
  | fuel + 1, bc =>
    if w ≤ bc then
      let r := drain w bits fuel (bc - w)
      ((bits / 2 ^ (bc - w)) % 2 ^ w :: r.1, r.2)
    else ([], bc)

/-- One turn of an outer loop after a unit of `wi` bits has been read (`ron/encdec.hpp:18-26`,
`:39-49`): `bits <<= wi; bc += wi; bits |= v;` on a `uint32_t`, then the inner loop.
Returns what is pushed, and the new `bits` and `bc`. -/
def codecTurn (wi wo bits bc v : Nat) : List Nat × Nat × Nat :=
  let bits := (bits * 2 ^ wi % 2 ^ 32) ||| v
  let bc := bc + wi
  let r := drain wo bits bc bc
  (r.1, bits, r.2)

/-- The outer loop of `encode`, `ron/encdec.hpp:17-27`, and its tail, `:28-31`. The first
argument counts the whole bytes left in `bit_size`. `none`: a read past the end of `raw`. -/
def encodeLoop (w : Nat) (coding : List Byte) :
    Nat → Nat → Nat → List Byte → Option (List Byte)
  | 0, bits, bc, _ =>
    if 0 < bc then
      some [coding.getD (bits * 2 ^ (w - bc) % 2 ^ 32 % 2 ^ w) 0]
    else some []
  | _ + 1, _, _, [] => none
  | n + 1, bits, bc, b :: raw =>
    let r := codecTurn 8 w bits bc b.toNat
    (encodeLoop w coding n r.2.1 r.2.2 raw).map
      (fun rest : List Byte => r.1.map (fun d => coding.getD d 0) ++ rest)

/-- `encode<w, coding>(coded, raw, bit_size)`, `ron/encdec.hpp:12-32`: the text appended to
`coded`. -/
def encode (w : Nat) (coding : List Byte) (raw : List Byte) (bitSize : Nat) :
    Option (List Byte) := encodeLoop w coding (bitSize / 8) 0 0 raw

/-- The outer loop of `decode`, `ron/encdec.hpp:38-50`, and its tail, `:51-54`. The first
argument counts the `bit_width` units left in `bit_size`. Returns success and the bytes
appended to `raw`; `none`: a read past the end of `coded`. -/
def decodeLoop (w : Nat) (table : Byte → Option Nat) :
    Nat → Nat → Nat → List Byte → Option (Bool × List Byte)
  | 0, bits, bc, _ =>
    if 0 < bc then some (true, [UInt8.ofNat (bits * 2 ^ (8 - bc) % 2 ^ 32)]) else some (true, [])
  | _ + 1, _, _, [] => none
  | n + 1, bits, bc, c :: coded =>
    match table c with
    | none => some (false, [])
    | some v =>
      let r := codecTurn w 8 bits bc v
      (decodeLoop w table n r.2.1 r.2.2 coded).map
        (fun rest : Bool × List Byte => (rest.1, r.1.map UInt8.ofNat ++ rest.2))

/-- `decode<w, table>(raw, coded, bit_size)`, `ron/encdec.hpp:34-55`. -/
def decode (w : Nat) (table : Byte → Option Nat) (coded : List Byte) (bitSize : Nat) :
    Option (Bool × List Byte) := decodeLoop w table (bitSize / w) 0 0 coded

/-- `ron/hash.hpp:13-21` `struct SHA2`: `known_bits_` and the byte string `bits_`. -/
structure SHA2 where
  known : Nat
  bits : List Byte
  deriving DecidableEq, Repr

namespace SHA2

/-- `ron/hash.hpp:23` `SHA2()`. -/
def new : SHA2 := ⟨0, List.replicate 32 0⟩

/-- `ron/hash.hpp:40` `operator==`: the byte strings only. -/
def eq (a b : SHA2) : Bool := a.bits == b.bits

/-- `ron/hash.hpp:43-55` `matches`. The byte at index `bytes` is read only if there are tail
bits; `none` is a read past the end. `memcmp` past the end is `none` too. -/
def «matches» (a b : SHA2) : Option Bool :=
  let n := min a.known b.known
  let bytes := n / 8
  if a.bits.length < bytes ∨ b.bits.length < bytes then none
  else if a.bits.take bytes ≠ b.bits.take bytes then some false
  else
    let tail := n % 8
    if tail = 0 then some true
    else
      match a.bits[bytes]?, b.bits[bytes]? with
      | some x, some y => some (decide (x.toNat / 2 ^ (8 - tail) = y.toNat / 2 ^ (8 - tail)))
      | _, _ => none

/-- `ron/hash.hpp:56-61` `hex()`. -/
def hex (h : SHA2) : Option (List Byte) := encode 4 HEX_PUNCT h.bits h.known

/-- `ron/hash.hpp:86-91` `base64()`. -/
def base64 (h : SHA2) : Option (List Byte) := encode 6 BASE_PUNCT h.bits h.known

/-- The common part of `ParseHex` and `ParseBase64`, `ron/hash.hpp:63-81`: `decode` is called
with `ret.known_bits_` (which is 0 at this point) as the bit size and appends to `ret.bits_`,
which already holds 32 zero bytes. `none`: the size assertion fails. -/
def parseWith (w : Nat) (table : Byte → Option Nat) (maxSize : Nat) (hash : List Byte) :
    Option SHA2 :=
  if hash.length ≤ maxSize then
    let b := min (hash.length * w) 256
    match decode w table hash new.known with
    | none => none
    | some (true, app) => some ⟨b, new.bits ++ app⟩
    | some (false, app) => some ⟨new.known, new.bits ++ app⟩
  else none

/-- `ron/hash.hpp:63-71` `ParseHex`. -/
def parseHex (hash : List Byte) : Option SHA2 := parseWith 4 ABC16 64 hash

/-- `ron/hash.hpp:73-81` `ParseBase64`. -/
def parseBase64 (hash : List Byte) : Option SHA2 := parseWith 6 ABC64 43 hash

/-- `ron/hash.hpp:32-37` `valid`. -/
def valid (t : List Byte) : Bool :=
  t.length == 43 && t.all (fun c => (ABC64 c).isSome) &&
    (match t.getLast? with
     | some c => (match ABC64 c with | some v => v % 4 == 0 | none => false)
     | none => false)

end SHA2
end Ron
