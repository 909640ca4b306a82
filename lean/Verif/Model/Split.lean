import Verif.Model.Bytes
/-!
`TextFrame::Split`: a text of several frames is cut at the frame terminators.
-/
namespace Ron.Split

/-- `isspace` in the "C" locale (`ron/text.cc:65`), as a function of the byte. The call passes a
`char`, so a byte of 128 or more is a negative argument; the C library tables cover it and
answer no. -/
def isSpace (c : Byte) : Bool := c.toNat == 32 || (9 ≤ c.toNat && c.toNat ≤ 13)

/-- `at = d.find(FRAME_TERM, pos)`, then `at = s` or `at += 2`, `ron/text.cc:57-62`
(`FRAME_TERM` is `".\n"`, `ron/const.hpp:98`): the text from `pos` up to `at`, and the rest. -/
def cut : List Byte → List Byte × List Byte
  | [] => ([], [])
  | [a] => ([a], [])
  | a :: b :: rest =>
    if a.toNat = 46 ∧ b.toNat = 10 then ([a, b], rest)
    else (a :: (cut (b :: rest)).1, (cut (b :: rest)).2)

/-- The loop, `ron/text.cc:56-66`, on the text from `pos` on. `fuel` bounds the passes; `none`:
out of fuel. -/
def loop : Nat → List Byte → Option (List (List Byte))
  | 0, _ => none
  | fuel + 1, d =>
    let rest := (cut d).2.dropWhile isSpace
    if rest.isEmpty then some [(cut d).1]
    else (loop fuel rest).map ((cut d).1 :: ·)

end Ron.Split

namespace Ron

/-- `TextFrame::Split`, `ron/text.cc:52-68`: the texts of the frames pushed to `to`. Every pass
but the last takes at least a byte. -/
def split (d : List Byte) : Option (List (List Byte)) := Split.loop (d.length + 1) d

end Ron
