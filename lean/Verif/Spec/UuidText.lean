import Verif.Model.Word
import Verif.Lemmas.Bytes
/-!
Specification of UUID texts, independent of the automaton: `ragel/uuid-grammar.rl:24-44`
read as a grammar.
-/
namespace Ron.Spec

/-- `HEX = [0-9A-F]`. -/
def isHex (c : Byte) : Bool :=
  (Nat.ble 48 c.toNat && Nat.ble c.toNat 57) || (Nat.ble 65 c.toNat && Nat.ble c.toNat 70)

/-- `[\$\%\+\-]`. -/
def isSep (c : Byte) : Bool :=
  Nat.beq c.toNat 36 || Nat.beq c.toNat 37 || Nat.beq c.toNat 43 || Nat.beq c.toNat 45

/-- A Base64 word text: `DGT+`. -/
def IsWord (w : List Byte) : Prop := w ≠ [] ∧ ∀ c ∈ w, isB64 c = true

/-- The optional variety prefix. -/
inductive IsVariety : List Byte → Nat → Prop
  | none : IsVariety [] 0
  | some (h : Byte) (hh : isHex h = true) : IsVariety [h, ch '/'] (b64digit h)

/-- The number denoted by a version character: position in `$%+-`. -/
def sepCode (c : Byte) : Nat := if c.toNat = 36 then 0 else if c.toNat = 37 then 1
  else if c.toNat = 43 then 2 else 3

/-- The optional origin part: text, version code, origin digits. -/
inductive IsTail : List Byte → Nat → List Byte → Prop
  | none : IsTail [] 0 []
  | some (s : Byte) (o : List Byte) (hs : isSep s = true) (ho : IsWord o) :
      IsTail (s :: o) (sepCode s) o

/-- The number a left-aligned Base64 numeral of up to ten digits denotes within 60 bits. -/
def wordVal (w : List Byte) : Nat := b64nat w * 64 ^ (10 - w.length)

/-- `s` is a complete UUID text of the grammar; `vr`, `v`, `ver`, `o` are its parts. -/
structure UuidText (s : List Byte) (vr : Nat) (v : List Byte) (ver : Nat) (o : List Byte) :
    Prop where
  split : ∃ pre tail, s = pre ++ v ++ tail ∧ IsVariety pre vr ∧ IsTail tail ver o
  word : IsWord v

/-- The UUID denoted by the parts of a text. -/
def denote (vr : Nat) (v : List Byte) (ver : Nat) (o : List Byte) : Uuid :=
  ⟨BitVec.ofNat 64 (vr * 2 ^ 60 + wordVal v), BitVec.ofNat 64 (ver * 2 ^ 60 + wordVal o)⟩

/-- A truncated UUID text: nothing, a variety prefix alone, or a text cut right after the
version character. -/
inductive Truncated : List Byte → Prop
  | empty : Truncated []
  | prefix (h : Byte) (hh : isHex h = true) : Truncated [h, ch '/']
  | noOrigin (pre : List Byte) (vr : Nat) (v : List Byte) (s : Byte)
      (hp : IsVariety pre vr) (hv : IsWord v) (hs : isSep s = true) :
      Truncated (pre ++ v ++ [s])

/-- Byte-wise (unsigned, `memcmp`) lexicographic order of strings. -/
def lexLt : List Byte → List Byte → Prop
  | _, [] => False
  | [], _ :: _ => True
  | a :: as, b :: bs => a.toNat < b.toNat ∨ (a = b ∧ lexLt as bs)

instance lexLtDec : ∀ a b : List Byte, Decidable (lexLt a b)
  | [], [] => isFalse (by simp [lexLt])
  | _ :: _, [] => isFalse (by simp [lexLt])
  | [], _ :: _ => isTrue (by simp [lexLt])
  | a :: as, b :: bs =>
    have := lexLtDec as bs
    decidable_of_iff (a.toNat < b.toNat ∨ (a = b ∧ lexLt as bs)) (by simp [lexLt])

end Ron.Spec
