import Verif.Model.Bytes
/-!
Specification of UTF-8 and UTF-16, by ranges and arithmetic (no bit operations, nothing
from the model but the type of bytes). The UTF-8 here is the generalised one (RFC 2279
shape up to 21 bits): leads C0..F7, no canonicity.
-/
namespace Ron.Spec

/-- `Utf8Char bs cp`: the bytes `bs` have the shape of one encoded code point and the
payload bits are the number `cp`. -/
inductive Utf8Char : List Byte → Nat → Prop
  | one (a : Byte) (h : a.toNat < 0x80) : Utf8Char [a] a.toNat
  | two (a b : Byte) (ha : 0xc0 ≤ a.toNat ∧ a.toNat < 0xe0)
      (hb : 0x80 ≤ b.toNat ∧ b.toNat < 0xc0) :
      Utf8Char [a, b] ((a.toNat - 0xc0) * 64 + (b.toNat - 0x80))
  | three (a b c : Byte) (ha : 0xe0 ≤ a.toNat ∧ a.toNat < 0xf0)
      (hb : 0x80 ≤ b.toNat ∧ b.toNat < 0xc0) (hc : 0x80 ≤ c.toNat ∧ c.toNat < 0xc0) :
      Utf8Char [a, b, c]
        ((a.toNat - 0xe0) * 4096 + (b.toNat - 0x80) * 64 + (c.toNat - 0x80))
  | four (a b c d : Byte) (ha : 0xf0 ≤ a.toNat ∧ a.toNat < 0xf8)
      (hb : 0x80 ≤ b.toNat ∧ b.toNat < 0xc0) (hc : 0x80 ≤ c.toNat ∧ c.toNat < 0xc0)
      (hd : 0x80 ≤ d.toNat ∧ d.toNat < 0xc0) :
      Utf8Char [a, b, c, d]
        ((a.toNat - 0xf0) * 262144 + (b.toNat - 0x80) * 4096 + (c.toNat - 0x80) * 64 +
          (d.toNat - 0x80))

/-- A byte string which is a sequence of encoded code points. -/
inductive Utf8Text : List Byte → List Nat → Prop
  | nil : Utf8Text [] []
  | cons {c : List Byte} {cp : Nat} {s : List Byte} {cps : List Nat} :
      Utf8Char c cp → Utf8Text s cps → Utf8Text (c ++ s) (cp :: cps)

/-- A Unicode scalar value. -/
def Scalar (cp : Nat) : Prop := cp < 0xd800 ∨ (0xe000 ≤ cp ∧ cp < 0x110000)

/-- Standard UTF-16 (RFC 2781) encoding of a scalar value. -/
def utf16 (cp : Nat) : List Nat :=
  if cp < 0x10000 then [cp]
  else [0xd800 + (cp - 0x10000) / 1024, 0xdc00 + (cp - 0x10000) % 1024]

/-- The canonical (shortest) UTF-8 length of a code point below 2^21. -/
def utf8len (cp : Nat) : Nat :=
  if cp < 0x80 then 1 else if cp < 0x800 then 2 else if cp < 0x10000 then 3 else 4

end Ron.Spec
