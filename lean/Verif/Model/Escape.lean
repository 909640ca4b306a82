import Verif.Model.Bytes
import Verif.Model.Utf
/-!
String escaping: `ron/text-builder.cc`, `ron/text.cc`, `ron/text.hpp`.
-/
namespace Ron

/-- One turn of `TextFrame::Builder::escape`, `ron/text-builder.cc:67-105`. -/
def escapeByte (i : Byte) : List Byte :=
  if i.toNat = 34 then [92, 34]
  else if i.toNat = 39 then [92, 39]
  else if i.toNat = 92 then [92, 92]
  else if i.toNat = 8 then [92, 98]
  else if i.toNat = 12 then [92, 102]
  else if i.toNat = 10 then [92, 110]
  else if i.toNat = 13 then [92, 114]
  else if i.toNat = 9 then [92, 116]
  else [i]

/-- `TextFrame::Builder::escape`, `ron/text-builder.cc:66-106`. -/
def escape (buf : List Byte) : List Byte := buf.flatMap escapeByte

/-- `TextFrame::decode_esc`, `ron/text.hpp:372-391`. -/
def decodeEsc (e : Byte) : Byte :=
  if e.toNat = 97 then 7
  else if e.toNat = 98 then 8
  else if e.toNat = 102 then 12
  else if e.toNat = 110 then 10
  else if e.toNat = 114 then 13
  else if e.toNat = 116 then 9
  else if e.toNat = 118 then 11
  else e

/-- `TextFrame::unescape`, `ron/text.cc:38-50`. `none`: the read `*(c + 1)` past the end of
the slice when its last byte is a backslash. -/
def unescape : List Byte → Option (List Byte)
  | [] => some []
  | c :: rest =>
    if c.toNat ≠ 92 then (unescape rest).map (c :: ·)
    else match rest with
      | [] => none
      | e :: rest' => (unescape rest').map (decodeEsc e :: ·)

/-- `TextFrame::decode_hex_cp`, `ron/text.cc:88-98`. `ABC16` is indexed with an unsigned
char; a non-hex character gives 0. -/
def decodeHexCp (acc : Nat) : List Byte → Nat
  | [] => acc
  | c :: rest =>
    match ABC16 c with
    | none => 0
    | some i => decodeHexCp ((acc * 2 ^ 4) % 2 ^ 32 ||| i) rest

end Ron
