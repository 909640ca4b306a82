import Verif.Model.TextCursor
import Verif.Model.Key
/-!
The strings that are hashed: `ron/hash.hpp:99-195`.

The hash function itself (`Botan::SHA_512_256`) is a parameter.
-/
namespace Ron

/-- An atom as `WriteOpHashable` sees it: parsed, its string read. `hi` are the two bits of the
range that `WriteAtomRangeless` takes for flags (`ron/hash.hpp:118-122`, `FLAG_BITS` has four bits,
an atom's type only two). -/
inductive HAtom where
  | uuid (u : Uuid)
  | int (hi : Nat) (value : Word)
  | float (hi : Nat) (value : Word)
  /-- A string to be read: the number of its code points as the parser counted them, and the code
  points that `ReadString` finds. -/
  | str (hi : Nat) (count : Nat) (cps : List Nat)
  /-- One code point of a spread; `atom(i)` keeps nothing else of it (`ron/text.hpp:54-57`). -/
  | chr (cp : Nat)
  deriving DecidableEq, Repr

/-- A word in network order, `be()`, `ron/uuid.hpp`, and `htobe64`. -/
def be64 (w : Word) : List Byte := Key.memLE (Key.bswap w)

/-- `WriteAtom`, `WriteUuid`, `ron/hash.hpp:109-112,117`. -/
def atomBytes (a : Atom) : List Byte := be64 a.value ++ be64 a.origin

/-- `WriteAtomRangeless`, `ron/hash.hpp:118-122`. -/
def rangelessBytes (t hi : Nat) (value : Word) : List Byte :=
  be64 value ++ be64 (BitVec.ofNat 64 ((t * 4 + hi) * 2 ^ 60))

/-- One turn of the loop of `WriteOpHashable`, `ron/hash.hpp:139-157`. -/
def HAtom.bytes : HAtom → List Byte
  | .uuid u => atomBytes u
  | .int hi w => rangelessBytes Atom.tINT hi w
  | .float hi w => rangelessBytes Atom.tFLOAT hi w
  | .str hi n cps => rangelessBytes Atom.tSTRING hi (Atom.valueWord n 0) ++ cps.flatMap utf8append
  | .chr cp => rangelessBytes Atom.tSTRING 0 (Atom.valueWord 0 cp) ++ utf8append cp

/-- `WriteOpHashable`, `ron/hash.hpp:132-158`. -/
def opBytes (id ref : Uuid) (vals : List HAtom) (prev refd : List Byte) : List Byte :=
  atomBytes id ++ (prev ++ (atomBytes ref ++ (refd ++ vals.flatMap HAtom.bytes)))

/-! ### Out of a text frame -/
namespace Cursor

/-- The loop of `ReadString`, `ron/frames.hpp:132-136`; the count bounds the number of turns. -/
def readCps (buf : List Byte) : Nat → Atom → Out (List Nat)
  | 0, _ => .ok []
  | fuel + 1, a =>
    (nextCodepoint buf a).bind fun r =>
      if r.2 then (readCps buf fuel r.1).bind fun cs => .ok (r.1.cp :: cs) else .ok []

/-- `cursor.atom(i)` and `ReadString`, `ron/hash.hpp:141-156`, `ron/frames.hpp:122-137`. `flt` is
`strtod` with the result as a bit pattern. -/
def hashAtom (flt : List Byte → Word) (buf : List Byte) (a : Atom) : Out HAtom :=
  let hi := a.origin.toNat / 2 ^ 60 % 4
  if a.type = Atom.tINT then
    (atomData buf a).bind fun d => (Out.ofOption (parseInteger d)).bind fun v =>
      .ok (.int hi (BitVec.ofInt 64 v))
  else if a.type = Atom.tFLOAT then (floatText buf a).bind fun d => .ok (.float hi (flt d))
  else if a.type = Atom.tSTRING then
    if a.cp ≠ 0 then .ok (.chr a.cp)
    else (readCps buf (a.cpSize + 1) a).bind fun cs => .ok (.str hi a.cpSize cs)
  else .ok (.uuid a)

/-- The atoms of an op from the third on. -/
def hashAtoms (flt : List Byte → Word) (buf : List Byte) : List Atom → Out (List HAtom)
  | [] => .ok []
  | a :: as =>
    (hashAtom flt buf a).bind fun h => (hashAtoms flt buf as).bind fun hs => .ok (h :: hs)

/-- `WriteOpHashable` on a cursor. -/
def hashable (flt : List Byte → Word) (cur : Cursor) (prev refd : List Byte) : Out (List Byte) :=
  match cur.op with
  | id :: ref :: vals =>
    (hashAtoms flt cur.buf vals).bind fun hs => .ok (opBytes id ref hs prev refd)
  | _ => .abort

end Cursor
end Ron
