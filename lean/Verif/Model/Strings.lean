import Verif.Model.Compare
import Verif.Model.TextBuilder
/-!
Strings taken out of ops: `Op::Amend` (`ron/op.hpp:81-110`), `ReadString` and `ReadString16`
(`ron/frames.hpp:122-160`), for text cursors.
-/
namespace Ron

namespace Op

/-- The loop of `WriteValues`, `ron/op.hpp:92-96`. If `NextCodepoint` fails, `cp_size` stays as it is
and the loop goes on until the memory is exhausted: `.abort`. -/
def amendCps (buf : List Byte) : Nat → Atom → List Nat → Out (List Nat)
  | 0, _, _ => .abort
  | n + 1, a, s =>
    if a.cpSize = 0 then .ok s
    else (Ron.nextCodepoint buf a).bind fun r => amendCps buf n r.1 (s ++ [a.cp])

/-- `WriteValues(cur)`, `ron/op.hpp:81-102`: the atoms are those of `cur.op()`, which are not parsed.
`strings_[b]` with nothing at `b` is a bad access. -/
def writeValues (buf : List Byte) : List Atom → Op → Out Op
  | [], o => .ok o
  | a :: as, o =>
    if a.type ≠ Atom.tSTRING then writeValues buf as { o with atoms := o.atoms ++ [a] }
    else
      (amendCps buf (a.cpSize + 1) a o.strings).bind fun s =>
        match s[o.strings.length]? with
        | none => .ub
        | some c =>
          writeValues buf as
            ⟨o.atoms ++ [Atom.string c o.strings.length s.length (s.length - o.strings.length)], s⟩

/-- `Op::Amend(id, ref, cur)`, `ron/op.hpp:104-109`. -/
def amend (id ref : Uuid) (cur : Cursor) : Out Op := writeValues cur.buf (cur.op.drop 2) ⟨[id, ref], []⟩

end Op

namespace Cursor

/-- The loop of `ReadString` and `ReadString16`, `ron/frames.hpp:132-136,143-147`, with what a code
point is written as. The flag: the result is `OK`, not `BADSYNTAX`. A turn makes `cp_size` smaller, so
the count is enough. -/
def readLoop {α : Type} (enc : Nat → List α) (buf : List Byte) : Nat → Atom → Out (List α × Bool)
  | 0, _ => .abort
  | n + 1, a =>
    (nextCodepoint buf a).bind fun r =>
      if r.2 then (readLoop enc buf n r.1).bind fun q => .ok (enc r.1.cp ++ q.1, q.2)
      else .ok ([], decide (a.cpSize = 0))

/-- `ReadString(to, c, a)`, `ron/frames.hpp:125-137`. -/
def readStr (buf : List Byte) (a : Atom) : Out (List Byte × Bool) :=
  if a.cp ≠ 0 then .ok (utf8append a.cp, true) else readLoop utf8append buf (a.cpSize + 1) a

/-- `ReadString16(to, c, a)`, `ron/frames.hpp:139-148`. -/
def readStr16 (buf : List Byte) (a : Atom) : Out (List Nat × Bool) :=
  readLoop utf16append buf (a.cpSize + 1) a

/-- `c.atom(i)` of a string: `ParseAtom`, `ron/text.hpp:54-58`. -/
def parsedStr (a : Atom) : Atom :=
  if a.cp ≠ 0 then ⟨BitVec.ofNat 64 a.cp, BitVec.ofNat 64 (2 * 2 ^ 62)⟩ else a

end Cursor
end Ron
