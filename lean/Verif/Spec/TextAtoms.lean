import Verif.Model.TextCursor
import Verif.Spec.Literals
import Verif.Spec.UuidText
/-!
Specification: when the positions recorded for an atom of a parsed op are sound.
-/
namespace Ron.Spec

/-- The range of an integer atom holds an integer literal accepted by the size check;
a float's range is in the frame and short enough for the conversion buffer; a string's range
lies within a quoted string of the frame and ends right before its closing quote. `b` is the
place right after the opening quote; the range starts there and moves on as a spread string
is read. -/
structure AtomOk (buf : List Byte) (a : Atom) : Prop where
  int : Atom.type a = Atom.tINT → Atom.rBegin a ≤ Atom.rEnd a ∧ Atom.rEnd a ≤ buf.length ∧
    (∃ v, IntText (slice buf (Atom.rBegin a) (Atom.rEnd a)) v) ∧
    intAccepted (slice buf (Atom.rBegin a) (Atom.rEnd a)) = true
  float : Atom.type a = Atom.tFLOAT → Atom.rBegin a ≤ Atom.rEnd a ∧ Atom.rEnd a ≤ buf.length ∧
    Atom.rEnd a - Atom.rBegin a ≤ 24
  string : Atom.type a = Atom.tSTRING → ∃ b, 1 ≤ b ∧ b ≤ Atom.rBegin a ∧
    Atom.rBegin a ≤ Atom.rEnd a ∧ Atom.rEnd a < buf.length ∧
    buf[b - 1]? = some (ch '\'') ∧
    scanQuoted (buf.drop b) = some (slice buf b (Atom.rEnd a), buf.drop (Atom.rEnd a + 1))

/-- Where the next byte stands: 0 outside of quotes, 1 within them, 2 within and right after a
backslash. -/
def quoteStep (q : Nat) (c : Byte) : Nat :=
  if q = 0 then (if c.toNat = 39 then 1 else 0)
  else if q = 2 then 1
  else if c.toNat = 39 then 0
  else if c.toNat = 92 then 2
  else 1

/-- The text with all the bytes in quotes replaced by quotes. -/
def outside : Nat → List Byte → List Byte
  | _, [] => []
  | q, c :: cs => (if q = 0 then c else ch '\'') :: outside (quoteStep q c) cs

/-- The frame has, outside of quotes, a Base64 word of more than ten characters: more than a UUID
can hold. -/
def LongWord (buf : List Byte) : Prop :=
  ∃ w, w <:+: outside 0 buf ∧ 10 < w.length ∧ ∀ x ∈ w, isB64 x = true

/-- The cursors that any number of `Next` calls can produce on a frame. -/
inductive Reach (buf : List Byte) : Cursor → Prop
  | init : Reach buf (Cursor.init buf)
  | next {cur cur' : Cursor} {st : Cursor.NextStatus} :
    Reach buf cur → Cursor.next cur = .ok (cur', st) → Reach buf cur'

/-- The cursors that further `Next` calls can produce from a given one. -/
inductive Later (c : Cursor) : Cursor → Prop
  | refl : Later c c
  | next {cur cur' : Cursor} {st : Cursor.NextStatus} :
    Later c cur → Cursor.next cur = .ok (cur', st) → Later c cur'

end Ron.Spec
