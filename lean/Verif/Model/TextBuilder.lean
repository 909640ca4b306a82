import Verif.Model.TextCursor
import Verif.Model.Utf
/-!
`Op` (`ron/op.hpp`) and `TextFrame::Builder` (`ron/text.hpp:131-348`, `ron/text-builder.cc`).

`sprintf("%.17G")` of a float is a parameter, `fmt`.
-/
namespace Ron

/-! ### `Op` -/

/-- `ron/op.hpp:12-14` `struct Op`: the atoms and the code points of all the strings. -/
structure Op where
  atoms : List Atom
  strings : List Nat
  deriving DecidableEq, Repr

/-- An argument of `Op{id, ref, args...}`. A float is its 64 bits. -/
inductive Arg where
  | int (i : Int)
  | uuid (u : Uuid)
  | float (w : Word)
  | str (s : List Byte)
  deriving DecidableEq, Repr

namespace Op

/-- `Atom::Float`, `ron/uuid.hpp:176-178`, with the default range. -/
def floatAtom (w : Word) : Atom := ⟨w, Atom.rangeWord Atom.tFLOAT 0 0⟩

/-- One `WriteAtoms(value, …)`, `ron/op.hpp:37-68`. The result of `ParseUtf8` is not looked at.
`.ub`: never (an action that is not of the UTF-8 automaton). -/
def writeAtom (o : Op) : Arg → Out Op
  | .int i => .ok { o with atoms := o.atoms ++ [Atom.integer i] }
  | .uuid u => .ok { o with atoms := o.atoms ++ [u] }
  | .float w => .ok { o with atoms := o.atoms ++ [floatAtom w] }
  | .str s =>
    let b := o.strings.length
    (Out.ofOption (Utf8Parser.parse o.strings s)).bind fun r =>
      let n := r.1.length - b
      if n ≠ 0 then
        .ok ⟨o.atoms ++ [Atom.string (r.1.getD b 0) (b + 1) r.1.length (n - 1)], r.1⟩
      else .ok ⟨o.atoms ++ [Atom.string 0 b b n], r.1⟩

/-- All the arguments, in order. -/
def writeAtoms : List Arg → Op → Out Op
  | [], o => .ok o
  | a :: as, o => (writeAtom o a).bind (writeAtoms as)

/-- `Op{id, ref, args...}`, `ron/op.hpp:71-78`. -/
def mk' (id ref : Uuid) (args : List Arg) : Out Op := writeAtoms args ⟨[id, ref], []⟩

/-- `Op::NextCodepoint`, `ron/op.hpp:21-30`. The second component is the result: `true` for `OK`,
`false` for `OUTOFRANGE`. -/
def nextCodepoint (o : Op) (a : Atom) : Out (Atom × Bool) :=
  if a.cpSize = 0 then .ok (a.setCp 0, false)
  else match o.strings[a.origin.toNat % 2 ^ 32]? with
    | none => .ub
    | some c =>
      let a' := ((a.setCp c).setCpSize (a.cpSize - 1)).consume 1
      if a'.rawValid then .ok (a', true) else .abort

end Op

/-! ### what the builder takes from -/

/-- What the templates of the builder use of a cursor: the atoms (`op()`), the parsed third atom if
it is a string (`atom(2)`), and `NextCodepoint`. -/
structure Src where
  op : List Atom
  atom2 : Atom → Atom
  nextCp : Atom → Out (Atom × Bool)

/-- An `Op` as a source; `atom(i)` is the atom as it is, `ron/op.hpp:19`. -/
def Op.src (o : Op) : Src := ⟨o.atoms, id, o.nextCodepoint⟩

/-- A text cursor as a source; `ParseAtom` of a string, `ron/text.hpp:54-58`: with a code point set,
the atom becomes that code point alone. -/
def Cursor.src (cur : Cursor) : Src :=
  ⟨cur.op, fun a => if a.cp ≠ 0 then ⟨BitVec.ofNat 64 a.cp, BitVec.ofNat 64 (2 * 2 ^ 62)⟩ else a,
   Ron.nextCodepoint cur.buf⟩

/-! ### the builder -/

/-- `ron/text.hpp:133-139` `class TextFrame::Builder`. -/
structure Builder where
  prevId : Uuid
  prev2 : Atom
  span : Nat
  data : List Byte
  deriving DecidableEq, Repr

namespace Builder

/-- `Builder()`, `ron/text.hpp:283-287`. -/
def init : Builder := ⟨Uuid.NIL, Uuid.FATAL, 0, []⟩

/-- `Write`, `ron/text.hpp:141-146`. -/
def write (b : Builder) (s : List Byte) : Builder := { b with data := b.data ++ s }

/-- `TERM_PUNCT`, `ron/const.hpp:44`. -/
def termPunct (t : Nat) : Byte := if t = 0 then 59 else if t = 1 then 44 else if t = 2 then 33 else 63

/-- `WriteTerm`, `ron/text.hpp:154-170`. -/
def writeTerm (b : Builder) (t : Nat) : Out Builder :=
  if b.span = 0 then .ok b
  else
    (if 1 < b.span then
      if b.prev2.type ≠ Atom.tSTRING then
        (Out.ofOption (writeInt (b.span : Int))).bind fun d => .ok (b.write (40 :: d ++ [41]))
      else .ok (b.write [39, 41])
    else .ok b).bind fun b' => .ok { b'.write [termPunct t, 10] with span := 0 }

/-- `WriteSpec`, `ron/text.hpp:172-186`. -/
def writeSpec (b : Builder) (id ref : Uuid) : Out Builder :=
  (writeTerm b 1).bind fun b =>
  let seq := decide (id = b.prevId.inc)
  let b1 := if seq then b else b.write (64 :: id.str)
  let b2 := if ref ≠ b.prevId then b1.write ((if seq then [] else [32]) ++ 58 :: ref.str) else b1
  .ok { b2 with span := 1, prevId := id }

/-- The loop `while (a.value.cp)` of `WriteValues`, `ron/text.hpp:207-210`. A turn makes
`cp_size` smaller or `cp` zero, so `cp_size + 1` turns are enough . -/
def writeCps (next : Atom → Out (Atom × Bool)) : Nat → Atom → Out (List Byte)
  | 0, _ => .abort
  | n + 1, a =>
    if a.cp = 0 then .ok []
    else (next a).bind fun r => (writeCps next n r.1).bind fun s => .ok (utf8escAppend a.cp ++ s)

/-- One value, the template, `ron/text.hpp:194-217`. -/
def writeValue (fmt : Word → List Byte) (s : Src) (a : Atom) : Out (List Byte) :=
  if a.type = Atom.tINT then
    (Out.ofOption (writeInt a.value.toInt)).bind fun d => .ok (32 :: d)
  else if a.type = Atom.tUUID then
    .ok (32 :: ((if Uuid.isAmbiguous a then [62] else []) ++ Uuid.str a))
  else if a.type = Atom.tSTRING then
    (writeCps s.nextCp (a.cpSize + 2) a).bind fun d => .ok (32 :: 39 :: (d ++ [39]))
  else .ok (32 :: fmt a.value)

/-- One value of a text cursor, `ron/text-builder.cc:8-35`: the bytes are copied. -/
def copyValue (cur : Cursor) (a : Atom) : Out (List Byte) :=
  if a.type = Atom.tUUID then
    .ok (32 :: ((if Uuid.isAmbiguous a then [62] else []) ++ Uuid.str a))
  else if a.type = Atom.tSTRING then
    if a.cp ≠ 0 then .ok (32 :: 39 :: (utf8escAppend a.cp ++ [39]))
    else (atomData cur.buf a).bind fun d => .ok (32 :: 39 :: (d ++ [39]))
  else (atomData cur.buf a).bind fun d => .ok (32 :: d)

/-- All the values, in order. -/
def writeAll (f : Atom → Out (List Byte)) : List Atom → Out (List Byte)
  | [] => .ok []
  | a :: as => (f a).bind fun d => (writeAll f as).bind fun ds => .ok (d ++ ds)

/-- `StringSize`, `ron/uuid.hpp:285-292`. -/
def stringSize (a : Atom) : Nat := if a.cp = 0 then a.cpSize else (a.cpSize + 1) % 2 ^ 32

/-- `Atom{0, STRING_FLAGS}`. -/
def strSig : Atom := ⟨0#64, BitVec.ofNat 64 (2 * 2 ^ 62)⟩

/-- `span_signature`, `ron/text.hpp:222-240`. -/
def spanSignature (s : Src) : Atom :=
  match s.op with
  | [_, _, a] =>
    if a.type = Atom.tUUID then a
    else if a.type = Atom.tSTRING then
      if stringSize (s.atom2 a) = 1 then strSig else Uuid.NIL
    else Uuid.NIL
  | _ => Uuid.NIL

/-- `is_same_span`, `ron/text.hpp:242-251`. -/
def isSameSpan (b : Builder) (s : Src) (id ref : Uuid) : Bool :=
  decide (ref = b.prevId) && decide (id = b.prevId.inc) && decide (b.prev2 ≠ Uuid.NIL) &&
    decide (spanSignature s = b.prev2)

/-- The loop `while (data_.back() != '\'')` of `ExtendSpan`, `ron/text.hpp:261-264`, on the reversed
data: the bytes put into `ret`, in that order, and the data left (the quote is taken as well, line
265). `char ret[8]` overflows on a ninth byte; `back()` of an empty string is undefined. -/
def popChar : Nat → List Byte → Out (List Byte × List Byte)
  | _, [] => .ub
  | n, c :: rest =>
    if c = 39 then .ok ([], rest)
    else if n = 0 then .ub
    else (popChar (n - 1) rest).bind fun r => .ok (c :: r.1, r.2)

/-- The first extension of a string span, `ExtendSpan`, `ron/text.hpp:257-271`: the character
written as `'c'` becomes `('c`. -/
def reopen (b : Builder) : Out Builder :=
  match b.data.reverse with
  | [] => .ub
  | _ :: rest =>
    (popChar 8 rest).bind fun r => .ok { b with data := r.2.reverse ++ 40 :: 39 :: r.1 }

/-- The string part of `ExtendSpan`, `ron/text.hpp:255-276`. -/
def extendString (b : Builder) (s : Src) : Out Builder :=
  match s.op[2]? with
  | none => .ub
  | some a =>
    (if b.span = 1 then reopen b else .ok b).bind fun b1 =>
    (if a.cp = 0 then s.nextCp a else .ok (a, true)).bind fun r =>
      .ok (b1.write (utf8escAppend r.1.cp))

/-- `ExtendSpan`, `ron/text.hpp:253-280`. -/
def extendSpan (b : Builder) (s : Src) : Out Builder :=
  (if b.prev2.type = Atom.tSTRING then extendString b s else .ok b).bind fun b2 =>
  .ok { b2 with span := (b2.span + 1) % 2 ^ 32, prevId := b2.prevId.inc }

/-- `AppendOp`, `ron/text.hpp:291-312`, both versions; `f` writes one value. -/
def appendSrc (f : Atom → Out (List Byte)) (b : Builder) (s : Src) : Out Builder :=
  match s.op with
  | id :: ref :: vals =>
    if isSameSpan b s id ref then extendSpan b s
    else
      (writeTerm b 1).bind fun b =>
      (writeSpec b id ref).bind fun b =>
      (writeAll f vals).bind fun d =>
      .ok { b.write d with prev2 := spanSignature s }
  | _ => .ub

/-- `AppendOp(const Cursor2&)` with an `Op`. -/
def appendOp (fmt : Word → List Byte) (b : Builder) (o : Op) : Out Builder :=
  appendSrc (writeValue fmt o.src) b o.src

/-- `AppendOp(const Cursor&)`, a text cursor. -/
def appendCursor (b : Builder) (cur : Cursor) : Out Builder :=
  appendSrc (copyValue cur) b cur.src

/-- `EndChunk`, `ron/text.hpp:315-320`. -/
def endChunk (b : Builder) (t : Nat) : Out Builder := if t = 1 then .abort else writeTerm b t

/-- `EndFrame`, `ron/text.hpp:322-325`. -/
def endFrame (b : Builder) : Builder := b.write [46, 10]

/-- `Release`, `ron/text.hpp:327-334`, into an empty string: the text, and the builder after it
(`prev_id_` and `prev_2_` stay). -/
def release (b : Builder) : Out (List Byte × Builder) :=
  (if b.span ≠ 0 then endChunk b 0 else .ok b).bind fun b => .ok (b.data, { b with data := [] })

/-- `AppendAll`, `ron/frames.hpp:186-195`: all the ops from the cursor on; `none`: not done within
`n` ops. -/
def appendAll : Nat → Builder → Cursor → Out (Option Builder)
  | 0, _, _ => .ok none
  | n + 1, b, cur =>
    if cur.cs = 0 then .ok (some b)
    else
      (b.appendCursor cur).bind fun b =>
      (if cur.term ≠ 1 then b.endChunk cur.term else .ok b).bind fun b =>
      cur.next.bind fun r => appendAll n b r.1

/-- `AppendFrame`, `ron/frames.hpp:198-204`. -/
def appendFrame (n : Nat) (b : Builder) (frame : List Byte) : Out (Option Builder) :=
  (Cursor.init frame).next.bind fun r => if r.2 = .ok then appendAll n b r.1 else .ok (some b)

end Builder
end Ron
