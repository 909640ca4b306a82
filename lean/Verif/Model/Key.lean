import Verif.Model.Forms
/-!
Storage keys: `db/key.hpp`, and their byte form, `db/rocks_store.cc:28-32`.
-/
namespace Ron

/-- `db/key.hpp:19-22` `struct Key`: a pair of 64-bit integers. -/
structure Key where
  hi : BitVec 64
  lo : BitVec 64
  deriving DecidableEq, Repr, Inhabited

namespace Key

/-- `Word::PAYLOAD_BITS`, `ron/uuid.hpp:75`. -/
def PAYLOAD : BitVec 64 := BitVec.ofNat 64 (2 ^ 60 - 1)

/-- `db/key.hpp:30-36` `Key(Uuid, FORM)`. -/
def mk' (id : Uuid) (form : Form) : Key :=
  let first := id.origin &&& PAYLOAD
  let second := id.value &&& PAYLOAD
  let second := second ||| (first <<< 60)
  let first := first >>> 4
  ⟨first ||| (BitVec.ofNat 64 form.toNat <<< 56), second⟩

/-- `db/key.hpp:38` `Key(Uuid, Uuid)`. -/
def ofUuids (id form : Uuid) : Key := mk' id (uuid2form form)

/-- `db/key.hpp:55` `form()`. -/
def form (k : Key) : Form := UInt8.ofNat (k.hi >>> 56).toNat

/-- `db/key.hpp:57-61` `id(flags)`. -/
def id (k : Key) (flags : Nat := Uuid.vTIME) : Uuid :=
  ⟨k.lo &&& PAYLOAD,
   ((k.hi <<< 4) &&& PAYLOAD) ||| (k.lo >>> 60) ||| (BitVec.ofNat 64 flags <<< 60)⟩

/-- `db/key.hpp:50` `operator<`: `std::pair` comparison. -/
def lt (a b : Key) : Bool :=
  decide (a.hi.toNat < b.hi.toNat) ||
    (!(decide (b.hi.toNat < a.hi.toNat)) && decide (a.lo.toNat < b.lo.toNat))

/-- `db/key.cc:5` `Key::ZERO`. -/
def ZERO : Key := mk' Uuid.NIL Form.ZERO
/-- `db/key.cc:6` `Key::END`. -/
def END : Key := mk' ⟨Word.MAX_VALUE, Word.MAX_VALUE⟩ Form.ERROR

/-- The `n` low bytes of an integer, least significant first. -/
def leBytes : Nat → Nat → List Byte
  | 0, _ => []
  | n + 1, x => UInt8.ofNat x :: leBytes n (x / 256)

/-- The memory image of a `uint64_t` on a little-endian host. -/
def memLE (w : BitVec 64) : List Byte := leBytes 8 w.toNat

/-- The integer with a given little-endian memory image. -/
def loadLE : List Byte → Nat
  | [] => 0
  | b :: bs => b.toNat + 256 * loadLE bs

/-- `htobe64` / `be64toh` on a little-endian host: reverse the bytes. -/
def bswap (w : BitVec 64) : BitVec 64 := BitVec.ofNat 64 (loadLE (memLE w).reverse)

/-- `db/key.hpp:40-42` `be()` followed by `key2slice` (`db/rocks_store.cc:28-30`): the 16 bytes
handed to the storage engine (little-endian host). -/
def bytes (k : Key) : List Byte := memLE (bswap k.hi) ++ memLE (bswap k.lo)

/-- `db/key.hpp:44-48` `Key::be(Slice)`; `none`: the size assertion fails. -/
def ofBytes (d : List Byte) : Option Key :=
  if d.length = 16 then
    some ⟨bswap (BitVec.ofNat 64 (loadLE (d.take 8))), bswap (BitVec.ofNat 64 (loadLE (d.drop 8)))⟩
  else none

end Key
end Ron
