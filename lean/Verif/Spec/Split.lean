import Verif.Spec.TextAtoms
/-!
Specification: texts made of several frames.
-/
namespace Ron.Spec

/-- White space: tab, line feed, vertical tab, form feed, carriage return, space. -/
def White (w : List Byte) : Prop := ∀ c ∈ w, c ∈ ([9, 10, 11, 12, 13, 32] : List Byte)

/-- The frame terminator: a dot and a line feed. -/
def frameTerm : List Byte := [46, 10]

/-- A text that ends with the frame terminator. -/
def Terminated (p : List Byte) : Prop := ∃ g, p = g ++ frameTerm

/-- The frame terminator occurs in the text nowhere but at its end. -/
def OneTerm (p : List Byte) : Prop := ∀ u v, p = u ++ frameTerm ++ v → v = []

/-- Frames and the texts between them. -/
def joinFrames (l : List (List Byte × List Byte)) : List Byte := l.flatMap fun x => x.1 ++ x.2

/-- Iterating the frame ends with the end-of-frame status after the last byte. -/
def Accepted (buf : List Byte) : Prop := ∃ cur cur', Reach buf cur ∧
  Cursor.next cur = .ok (cur', .endOfFrame) ∧ cur'.beg = buf.length

end Ron.Spec
