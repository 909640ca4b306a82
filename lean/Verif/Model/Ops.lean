import Verif.Model.Word
import Verif.Model.Forms
/-!
Ops as the reducers, stores and replicas see them.

These layers are templates over `Frame`; they use a cursor's `id()`, `ref()`, `atom(i)`,
`term()` and a builder's `AppendOp`/`EndChunk`. Here a frame is the list of its ops, with
values already parsed. How this list relates to the bytes of a text frame is the subject of
`Verif.Model.TextCursor` (`Cursor.iterate`) and `Verif.Model.TextBuilder`.
-/
namespace Ron

/-- A parsed value of an op (`Atom` with its string data resolved: `ron/uuid.hpp:162-192`,
`ParseAtom`, `ron/text.hpp:48-62`, `ReadString`, `ron/frames.hpp:122-137`). A float is kept
as an opaque 64-bit pattern. -/
inductive AVal where
  | uuid (u : Uuid)
  | int (i : Int)
  | float (bits : Word)
  | str (cps : List Nat)
  deriving DecidableEq, Repr

/-- `ron/const.hpp:36` `enum TERM`: `RAW ;`, `REDUCED ,`, `HEADER !`, `QUERY ?`. -/
inductive Term where
  | raw
  | reduced
  | header
  | query
  deriving DecidableEq, Repr

/-- One op: `op()[0]`, `op()[1]`, the values, `term()`. -/
structure AOp where
  id : Uuid
  ref : Uuid
  vals : List AVal
  term : Term
  deriving DecidableEq, Repr

namespace AOp
/-- The op without its punctuation: what is an event and what a merge must preserve. -/
def body (o : AOp) : Uuid × Uuid × List AVal := (o.id, o.ref, o.vals)
end AOp

/-- What a builder has been fed: ops closed by a terminator, and possibly an open one
(`span_size_ != 0`, `ron/text.hpp:133-347`). -/
structure ABuilder where
  done : List AOp
  pending : Option AOp
  deriving DecidableEq, Repr

namespace ABuilder
/-- `Builder()`. -/
def empty : ABuilder := ⟨[], none⟩

/-- `WriteTerm(term)`, `ron/text.hpp:154-170`: does nothing without an open op. -/
def writeTerm (b : ABuilder) (t : Term := .reduced) : ABuilder :=
  match b.pending with
  | none => b
  | some o => ⟨b.done ++ [{ o with term := t }], none⟩

/-- `AppendOp`, `ron/text.hpp:291-312`: the previous op is closed with `,`. The folding of
ops into spans changes the text only (C25), not the ops. -/
def append (b : ABuilder) (o : AOp) : ABuilder := { b.writeTerm with pending := some o }

/-- `EndChunk(term)`, `ron/text.hpp:314-320`. -/
def endChunk (b : ABuilder) (t : Term := .raw) : ABuilder := b.writeTerm t

/-- `Release`, `ron/text.hpp:327-334`. -/
def release (b : ABuilder) : List AOp := (b.endChunk).done

/-- `AppendAll`, `ron/frames.hpp:183-191`. -/
def appendAll (b : ABuilder) : List AOp → ABuilder
  | [] => b
  | o :: os =>
    let b := b.append o
    (if o.term ≠ .reduced then b.endChunk o.term else b).appendAll os

/-- Everything fed so far, by content. -/
def bodies (b : ABuilder) : List (Uuid × Uuid × List AVal) :=
  b.done.map AOp.body ++ (b.pending.map AOp.body).toList
end ABuilder

end Ron
