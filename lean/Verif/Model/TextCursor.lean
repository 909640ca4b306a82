import Verif.Model.Atom
import Verif.Model.Escape
import Verif.Model.IntLit
import Verif.Model.TextTable
import Verif.Model.CpTable
/-!
`TextFrame::Cursor`: `ron/text.hpp:33-129`, `ron/text-parser.cc` (generated from
`ragel/text-parser.rl`), `ron/cp-parser.cc` (from `ragel/cp-parser.rl`).

The frame is a byte buffer `buf`; pointers are offsets into it. The cursor's remaining
slice is `[beg, buf.length)`.
-/
namespace Ron

/-- `Cursor::data(a)`, `ron/text.hpp:100-103`: the bytes of an atom's range. The `assert`
fails on an inverted range; a range past the end of the buffer is a bad read. -/
def atomData (buf : List Byte) (a : Atom) : Out (List Byte) :=
  if a.rEnd < a.rBegin then .abort
  else if buf.length < a.rEnd then .ub
  else .ok (slice buf a.rBegin a.rEnd)

/-! ### `NextCodepoint` -/
namespace CpParser

/-- Locals of `NextCodepoint`, `ragel/cp-parser.rl:17-23`; `p` is the offset into the
string's bytes. -/
structure Regs where
  p : Nat
  cp : Nat
  deriving DecidableEq, Repr

/-- Result of an action: go on, leave the automaton (`fbreak`), or a bad read. -/
inductive Res where
  | cont (r : Regs)
  | brk (r : Regs)
  | bad

/-- One action; `c` is `*p`, `str` are the string's bytes. `end_cp` counts into an unused
local. `end_cp_brk` is `--p; { p++; cs = …; goto _out; }`, so `p` stays. `string_uesc`
reads the four bytes before `p`. -/
def act (str : List Byte) (c : Byte) (r : Regs) : Act → Res
  | .string_cont => .cont { r with cp := (r.cp * 2 ^ 6) % 2 ^ 32 ||| (c.toNat &&& 0x3f) }
  | .string_lead1 => .cont { r with cp := c.toNat }
  | .string_lead2 => .cont { r with cp := c.toNat &&& 0x1f }
  | .string_lead3 => .cont { r with cp := c.toNat &&& 0xf }
  | .string_lead4 => .cont { r with cp := c.toNat &&& 7 }
  | .string_esc => .cont { r with cp := (decodeEsc c).toNat }
  | .string_uesc =>
    if r.p < 4 then .bad else .cont { r with cp := decodeHexCp 0 (slice str (r.p - 4) r.p) }
  | .end_cp => .cont r
  | .end_cp_brk => .brk r
  | _ => .bad

/-- The actions of one transition in order; `fbreak` leaves the list. -/
def acts (str : List Byte) (c : Byte) (r : Regs) : List Act → Res
  | [] => .cont r
  | a :: as =>
    match act str c r a with
    | .cont r' => acts str c r' as
    | .brk r' => .brk r'
    | .bad => .bad

/-- The automaton over the bytes left, `ron/cp-parser.cc:46-500`: final state and locals.
`none`: a bad read. -/
def run (str : List Byte) : List Byte → Nat → Regs → Option (Nat × Regs)
  | [], s, r => some (s, r)
  | c :: rest, s, r =>
    match stepIn CpTable.rows s c with
    | none => some (0, r)
    | some (as, t) =>
      match acts str c r as with
      | .cont r' => run str rest t { r' with p := r'.p + 1 }
      | .brk r' => some (t, r')
      | .bad => none

end CpParser

/-- `TextFrame::Cursor::NextCodepoint`, `ragel/cp-parser.rl:12-46`. `eof` is null there, so
the end-of-input actions of the table never run. The second component is the result:
`true` for `OK`, `false` for `ENDOFINPUT` or `BADSYNTAX`. -/
def nextCodepoint (buf : List Byte) (a : Atom) : Out (Atom × Bool) :=
  if a.cpSize = 0 then .ok (a.setCp 0, false)
  else
    (atomData buf a).bind fun str =>
    match CpParser.run str str CpTable.start ⟨0, 0⟩ with
    | none => .ub
    | some (0, _) => .ok (a.setCp 0, false)
    | some (_, r) =>
      let a' := ((a.setCp r.cp).setCpSize (a.cpSize - 1)).consume r.p
      if a'.rawValid then .ok (a', true) else .abort

/-! ### `Next` -/
namespace TextParser

/-- Locals of `Next` and the members it updates on the way,
`ragel/text-parser.rl:47-68`. `uuidb` matters only as null or not. -/
structure Regs where
  p : Nat
  lineb : Nat
  intb : Nat
  floatb : Nat
  strb : Nat
  uuidSet : Bool
  wordb : Nat
  cpSize : Nat
  term : Nat
  value : List Byte
  origin : List Byte
  variety : Byte
  version : Byte
  op : List Atom
  line : Nat
  span : Nat
  deriving DecidableEq, Repr

/-- Result of an action: go on, leave the automaton (`fbreak`), failed assert, bad access. -/
inductive Res where
  | cont (r : Regs)
  | brk (r : Regs)
  | abort
  | ub
  deriving DecidableEq, Repr

/-- `Uuid{variety, value, version, origin}` without a size check: the `assert` of the word
constructor (`ron/uuid.hpp:38`) fails on more than ten characters. -/
def mkUuid (r : Regs) : Out Uuid :=
  if r.value.length > 10 ∨ r.origin.length > 10 then .abort
  else Out.ofOption (Uuid.parts r.variety r.value r.version r.origin)

/-- `word_too_big(value) || word_too_big(origin)`, `ron/text.hpp:64-66`. -/
def tooBig (r : Regs) : Bool := decide (r.value.length > 10) || decide (r.origin.length > 10)

/-- `op_[i] = …` for the specifier. -/
def setSpec (r : Regs) (i : Nat) : Res :=
  match mkUuid r with
  | .ok u => .cont { r with op := r.op.set i u }
  | .abort => .abort
  | .ub => .ub

/-- Push a checked UUID atom (`end_quoted_uuid`, `end_bare_uuid`). In `{ cs = 0; fbreak; }`
the `fbreak` sets `cs` again to the target state (`ron/text-parser.cc`, every expansion),
so the `cs = 0` is without effect. -/
def pushUuid (r : Regs) : Res :=
  if tooBig r then .brk r
  else match mkUuid r with
    | .ok u => .cont { r with op := r.op ++ [u] }
    | .abort => .abort
    | .ub => .ub

/-- Replace the last atom. -/
def setLast (l : List Atom) (a : Atom) : List Atom := l.dropLast ++ [a]

/-- One embedded action: `ragel/text-grammar.rl:9-71`, `ragel/uuid-grammar.rl:6-20`. `pe` is
the end of the buffer, `c` is `*p`. The code point value computed by the `string_*` actions
is an unused local and is dropped, except for the read it makes. -/
def act (buf : List Byte) (c : Byte) (r : Regs) : Act → Res
  | .end_id => setSpec r 0
  | .end_ref => setSpec r 1
  | .begin_int => .cont { r with intb := r.p }
  | .end_int =>
    if r.p < r.intb then .abort
    else if !intAccepted (slice buf r.intb r.p) then .brk r
    else .cont { r with op := r.op ++ [Atom.ofRange Atom.tINT r.intb r.p], uuidSet := false }
  | .begin_string => .cont { r with strb := r.p, cpSize := 0 }
  | .end_string =>
    if r.p < r.strb then .abort
    else .cont { r with
      op := r.op ++ [(Atom.ofRange Atom.tSTRING r.strb r.p).setCpSize r.cpSize] }
  | .begin_float => .cont { r with floatb := r.p }
  | .end_float =>
    if r.p < r.floatb then .abort
    else if r.p - r.floatb > 24 then .brk r
    else .cont { r with op := r.op ++ [Atom.ofRange Atom.tFLOAT r.floatb r.p] }
  | .end_quoted_uuid => pushUuid r
  | .end_bare_uuid => if r.uuidSet then pushUuid r else .cont r
  | .end_cp => .cont { r with cpSize := (r.cpSize + 1) % 2 ^ 32 }
  | .op_term =>
    let r' := { r with term := c.toNat }
    if r.p + 1 < buf.length then .brk r' else .cont r'
  | .newline =>
    if c.toNat = 10 then .cont { r with line := (r.line + 1) % 2 ^ 32, lineb := r.p } else .cont r
  | .string_esc => .cont r
  | .string_uesc => if r.p < 4 then .ub else .cont r
  | .span_size_digit =>
    .cont { r with span := (r.span * 10 % 2 ^ 32 + (c.toNat + 2 ^ 32 - 48)) % 2 ^ 32 }
  | .end_span_size => .cont { r with span := (r.span + 2 ^ 32 - 1) % 2 ^ 32 }
  | .end_spread =>
    match r.op.getLast? with
    | none => .ub
    | some a =>
      let go (op : List Atom) := Res.cont { r with op := op, span := (r.cpSize + 2 ^ 32 - 1) % 2 ^ 32 }
      if a.cpSize ≠ 0 then
        match nextCodepoint buf a with
        | .ok (a', _) => go (setLast r.op a')
        | .abort => .abort
        | .ub => .ub
      else go r.op
  | .begin_uuid =>
    .cont { r with variety := ch '0', version := ch '$', origin := [], uuidSet := true }
  | .variety =>
    if r.p = 0 then .ub
    else match buf[r.p - 1]? with
      | some v => .cont { r with variety := v }
      | none => .ub
  | .begin_value => .cont { r with wordb := r.p }
  | .end_value =>
    if r.p < r.wordb then .abort else .cont { r with value := slice buf r.wordb r.p }
  | .version => .cont { r with version := c }
  | .begin_origin => .cont { r with wordb := r.p }
  | .end_origin =>
    if r.p < r.wordb then .abort else .cont { r with origin := slice buf r.wordb r.p }
  | .end_uuid => .cont r
  | .string_cont => .cont r
  | .string_lead1 => .cont r
  | .string_lead2 => .cont r
  | .string_lead3 => .cont r
  | .string_lead4 => .cont r
  | .push_cp => .ub
  | .end_cp_brk => .ub

/-- The actions of one transition in order; `fbreak` leaves the list. -/
def acts (buf : List Byte) (c : Byte) (r : Regs) : List Act → Res
  | [] => .cont r
  | a :: as =>
    match act buf c r a with
    | .cont r' => acts buf c r' as
    | .brk r' => .brk r'
    | .abort => .abort
    | .ub => .ub

/-- The automaton over the bytes left (`rest = buf.drop p`), `ron/text-parser.cc:92-4960`:
final state and locals. `st0` leaves `p` at the offending byte; `fbreak` steps over the
current byte and takes the target state. -/
def run (buf : List Byte) : List Byte → Nat → Regs → Out (Nat × Regs)
  | [], s, r => .ok (s, r)
  | c :: rest, s, r =>
    match stepIn TextTable.rows s c with
    | none => .ok (0, r)
    | some (as, t) =>
      match acts buf c r as with
      | .cont r' => run buf rest t { r' with p := r'.p + 1 }
      | .brk r' => .ok (t, { r' with p := r'.p + 1 })
      | .abort => .abort
      | .ub => .ub

end TextParser

/-- `ron/text.hpp:33-41` `class TextFrame::Cursor`. -/
structure Cursor where
  buf : List Byte
  beg : Nat
  op : List Atom
  term : Nat
  cs : Nat
  line : Nat
  span : Nat
  deriving DecidableEq, Repr

namespace Cursor

/-- `explicit Cursor(const Slice data)`, `ron/text.hpp:69-76`, over a whole buffer. `op_` is
empty (`op_{TERM::RAW}` is the sized constructor of `vector` with size 0); `term_` is left
uninitialised there, 0 here (it is never read before an op is parsed). -/
def init (buf : List Byte) : Cursor := ⟨buf, 0, [], 0, 0, 1, 0⟩

/-- Status of `Next`. -/
inductive NextStatus where
  | ok
  | endOfFrame
  | badState
  deriving DecidableEq, Repr

/-- `chr2term`, `ron/const.hpp:47-61`; aborts on anything else. -/
def chr2term (c : Nat) : Out Nat :=
  if c = 59 then .ok 0
  else if c = 44 then .ok 1
  else if c = 33 then .ok 2
  else if c = 63 then .ok 3
  else .abort

/-- Number of decimal digits. -/
def decLen (n : Nat) : Nat := (decDigits 20 n).length

/-- The tail of `Next`, `ragel/text-parser.rl:75-92`. The error message
`"syntax error at line %d col %d (offset %d)"` (36 characters and the three numbers, and
the final zero) goes to `char msg[64]`. -/
def finish (cur : Cursor) (cs : Nat) (r : TextParser.Regs) : Out (Cursor × NextStatus) :=
  let cur' := { cur with beg := r.p, op := r.op, line := r.line, span := r.span, cs := cs }
  if r.term ≠ 0 ∧ cs ≠ 0 then
    (chr2term r.term).bind fun t => .ok ({ cur' with term := t }, .ok)
  else if cs ≥ TextTable.firstFinal then .ok ({ cur' with cs := 0 }, .endOfFrame)
  else if 36 + decLen r.line + decLen (r.p - r.lineb) + decLen (r.p - cur.beg) + 1 ≤ 64 then
    .ok ({ cur' with cs := 0 }, .badState)
  else .ub

/-- The locals at the start of parsing, `ragel/text-parser.rl:47-68`. -/
def startRegs (cur : Cursor) : TextParser.Regs :=
  let prev : Uuid := (cur.op[0]?).getD Uuid.NIL
  { p := cur.beg, lineb := cur.beg, intb := cur.beg, floatb := cur.beg, strb := cur.beg,
    uuidSet := true, wordb := cur.beg, cpSize := 0, term := 0, value := [], origin := [],
    variety := 0, version := 0, op := [prev.inc, prev], line := cur.line, span := 0 }

/-- `Next()` when no span is pending, from the automaton state `s`. -/
def parseFrom (cur : Cursor) (s : Nat) : Out (Cursor × NextStatus) :=
  if cur.buf.length ≤ cur.beg then .ok ({ cur with cs := 0 }, .endOfFrame)
  else
    (TextParser.run cur.buf (cur.buf.drop cur.beg) s (startRegs cur)).bind fun sr =>
      finish cur sr.1 sr.2

/-- `TextFrame::Cursor::Next`, `ragel/text-parser.rl:11-94`. -/
def next (cur : Cursor) : Out (Cursor × NextStatus) :=
  if cur.span ≠ 0 then
    match cur.op with
    | id :: _ :: vals =>
      let op := id.inc :: id :: vals
      match op.getLast? with
      | none => .ub
      | some l =>
        let cur' := { cur with span := cur.span - 1, op := op }
        if Atom.type l = Atom.tSTRING ∧ Atom.cp l ≠ 0 then
          (nextCodepoint cur.buf l).bind fun a =>
            .ok ({ cur' with op := TextParser.setLast op a.1 }, .ok)
        else .ok (cur', .ok)
    | _ => .ub
  else if cur.cs = 0 then
    if cur.beg ≠ 0 then .ok (cur, .badState)
    else parseFrom cur TextTable.start
  else if cur.cs = 255 then .ok ({ cur with cs := 0 }, .endOfFrame)
  else parseFrom cur cur.cs

/-- `Cursor::id()`, `ron/text.hpp:106-108`. -/
def id (cur : Cursor) : Option Uuid := cur.op[0]?
/-- `Cursor::ref()`, `ron/text.hpp:111-113`. -/
def ref (cur : Cursor) : Option Uuid := cur.op[1]?

/-- `ParseFloat`, `ron/text.cc:28-36`: the bytes and a zero are copied to `char fs[32]`;
`strtod` itself is not modelled, the result is the text. -/
def floatText (buf : List Byte) (a : Atom) : Out (List Byte) :=
  (atomData buf a).bind fun d => if d.length + 1 ≤ 32 then .ok d else .ub

/-- The parsed value of an atom, `ParseAtom`, `ron/text.hpp:48-62`. -/
inductive Val where
  | uuid (u : Uuid)
  | int (i : Int)
  | float (text : List Byte)
  /-- a code point (`value.cp != 0`) -/
  | char (cp : Nat)
  /-- a string not yet read: its bytes and number of code points -/
  | str (bytes : List Byte) (cpSize : Nat)
  deriving DecidableEq, Repr

/-- `Cursor::atom(idx)`, `ron/text.hpp:121-126`, with `ParseAtom`. -/
def atomVal (cur : Cursor) (i : Nat) : Out Val :=
  match cur.op[i]? with
  | none => .abort
  | some a =>
    if a.type = Atom.tINT then
      (atomData cur.buf a).bind fun d => (Out.ofOption (parseInteger d)).bind fun v => .ok (.int v)
    else if a.type = Atom.tFLOAT then (floatText cur.buf a).bind fun d => .ok (.float d)
    else if a.type = Atom.tSTRING then
      if a.cp ≠ 0 then .ok (.char a.cp)
      else (atomData cur.buf a).bind fun d => .ok (.str d a.cpSize)
    else .ok (.uuid a)

/-- Iterating a frame: the cursors after each successful `Next` and the final status;
`fuel` bounds the number of steps, `none` means it ran out. -/
def iterate : Nat → Cursor → Out (Option (List Cursor × NextStatus))
  | 0, _ => .ok none
  | fuel + 1, cur =>
    (next cur).bind fun r =>
      match r.2 with
      | .ok => (iterate fuel r.1).bind fun x => .ok (x.map fun y => (r.1 :: y.1, y.2))
      | s => .ok (some ([], s))

end Cursor
end Ron
