import Verif.Spec.TextAtoms
/-!
The text grammar of the repository as a regular language: `ragel/text-grammar.rl:73-120`,
`ragel/uuid-grammar.rl:24-43` and `ragel/utf8-grammar.rl:13-19` transcribed line by line, without
the actions.
-/
namespace Ron.Spec

/-- Regular expressions over bytes; `set` is a set of byte ranges. -/
inductive Re where
  | none
  | eps
  | set (l : List (Nat × Nat))
  | cat (a b : Re)
  | alt (a b : Re)
  | star (a : Re)
  deriving DecidableEq, Repr

/-- A byte is in a set of ranges. -/
def inSet (l : List (Nat × Nat)) (c : Byte) : Bool :=
  l.any fun x => Nat.ble x.1 c.toNat && Nat.ble c.toNat x.2

/-- The text is one the expression describes. -/
inductive Re.Matches : Re → List Byte → Prop
  | eps : Matches .eps []
  | set {l : List (Nat × Nat)} {c : Byte} (h : inSet l c = true) : Matches (.set l) [c]
  | cat {a b : Re} {s t : List Byte} : Matches a s → Matches b t → Matches (.cat a b) (s ++ t)
  | left {a b : Re} {s : List Byte} : Matches a s → Matches (.alt a b) s
  | right {a b : Re} {s : List Byte} : Matches b s → Matches (.alt a b) s
  | nil {a : Re} : Matches (.star a) []
  | more {a : Re} {s t : List Byte} : Matches a s → Matches (.star a) t →
      Matches (.star a) (s ++ t)

namespace Lang
open Re

/-- `r?`. -/
def opt (r : Re) : Re := .alt .eps r
/-- `r+`. -/
def plus (r : Re) : Re := .cat r (.star r)
/-- One character. -/
def one (n : Nat) : Re := .set [(n, n)]
/-- Concatenation. -/
infixr:67 " ⬝ " => Re.cat
/-- Union. -/
infixr:66 " ⊹ " => Re.alt

/-- `DGT = [0-9a-zA-Z~_]`. -/
def DGT : Re := .set [(48, 57), (97, 122), (65, 90), (126, 126), (95, 95)]
/-- `HEX = [0-9A-F]`. -/
def HEX : Re := .set [(48, 57), (65, 70)]
/-- `VARIETY = HEX "/"`. -/
def VARIETY : Re := HEX ⬝ one 47
/-- `VERSION = [\$\%\+\-]`. -/
def VERSION : Re := .set [(36, 36), (37, 37), (43, 43), (45, 45)]
/-- `WORD = DGT+`. -/
def WORD : Re := plus DGT
/-- `UUID = VARIETY? VALUE ( VERSION ORIGIN )?`. -/
def UUID : Re := opt VARIETY ⬝ WORD ⬝ opt (VERSION ⬝ WORD)

/-- `CONT = 0x80..0xbf`. -/
def CONT : Re := .set [(0x80, 0xbf)]

/-- `WS = [ \r\n\t]`. -/
def WS : Re := .set [(32, 32), (13, 13), (10, 10), (9, 9)]
/-- `SGN = [\-+]`. -/
def SGN : Re := .set [(45, 45), (43, 43)]
/-- `digit`. -/
def digit : Re := .set [(48, 57)]
/-- `DIGITS = digit+`. -/
def DIGITS : Re := plus digit
/-- `INT = SGN? DIGITS`. -/
def INT : Re := opt SGN ⬝ DIGITS
/-- `FRAC = "." DIGITS`. -/
def FRAC : Re := one 46 ⬝ DIGITS
/-- `EXP = [eE] SGN? DIGITS`. -/
def EXP : Re := .set [(101, 101), (69, 69)] ⬝ opt SGN ⬝ DIGITS
/-- `FLOAT = SGN? DIGITS ( FRAC EXP? | EXP )`. -/
def FLOAT : Re := opt SGN ⬝ DIGITS ⬝ (FRAC ⬝ opt EXP ⊹ EXP)
/-- `[0-9a-fA-F]`. -/
def XDIGIT : Re := .set [(48, 57), (97, 102), (65, 70)]
/-- `UNIESC = "\\u" [0-9a-fA-F]{4}`. -/
def UNIESC : Re := one 92 ⬝ one 117 ⬝ XDIGIT ⬝ XDIGIT ⬝ XDIGIT ⬝ XDIGIT
/-- `ESC = "\\" [nrt\\b'/"]`. -/
def ESC : Re := one 92 ⬝ .set [(110, 110), (114, 114), (116, 116), (92, 92), (98, 98), (39, 39),
  (47, 47), (34, 34)]
/-- `CHAR = CODEPOINT - ['\n\r\\\0]`: single bytes but for these five, and
`LEAD2 CONT | LEAD3 CONT CONT | LEAD4 CONT CONT CONT`. -/
def CHAR : Re := .set [(1, 9), (11, 12), (14, 38), (40, 91), (93, 127)] ⊹
  .set [(0xc0, 0xdf)] ⬝ CONT ⊹ .set [(0xe0, 0xef)] ⬝ CONT ⬝ CONT ⊹
  .set [(0xf0, 0xf7)] ⬝ CONT ⬝ CONT ⬝ CONT
/-- `CP = UNIESC|ESC|CHAR`. -/
def CP : Re := UNIESC ⊹ ESC ⊹ CHAR
/-- `STRING = CP*`. -/
def STRING : Re := .star CP
/-- `OPTERM = [,;!?]`. -/
def OPTERM : Re := .set [(44, 44), (59, 59), (33, 33), (63, 63)]
/-- `BARE_ATOM = INT | FLOAT | UUID`. -/
def BARE_ATOM : Re := INT ⊹ FLOAT ⊹ UUID
/-- `QUOTED_ATOM = "=" WS* INT | "^" WS* FLOAT | ['] STRING ['] | ">" WS* UUID`. -/
def QUOTED_ATOM : Re := one 61 ⬝ .star WS ⬝ INT ⊹ one 94 ⬝ .star WS ⬝ FLOAT ⊹
  one 39 ⬝ STRING ⬝ one 39 ⊹ one 62 ⬝ .star WS ⬝ UUID
/-- `ATOM = QUOTED_ATOM | WS BARE_ATOM`. -/
def ATOM : Re := QUOTED_ATOM ⊹ WS ⬝ BARE_ATOM
/-- `SPEC = '@' UUID WS* ( ':' UUID )?`. -/
def SPEC : Re := one 64 ⬝ UUID ⬝ .star WS ⬝ opt (one 58 ⬝ UUID)
/-- `ATOMS = ATOM (WS* ATOM)*`. -/
def ATOMS : Re := ATOM ⬝ .star (.star WS ⬝ ATOM)
/-- `SPAN_SIZE = digit+`. -/
def SPAN_SIZE : Re := plus digit
/-- `SPAN_SPREAD = ['] STRING [']`. -/
def SPAN_SPREAD : Re := one 39 ⬝ STRING ⬝ one 39
/-- `SPAN = [(] WS* ( SPAN_SIZE | SPAN_SPREAD ) WS* [)]`. -/
def SPAN : Re := one 40 ⬝ .star WS ⬝ (SPAN_SIZE ⊹ SPAN_SPREAD) ⬝ .star WS ⬝ one 41
/-- `OP = (SPEC|BARE_ATOM)? WS* ATOMS? WS* SPAN? WS* OPTERM`. -/
def OP : Re := opt (SPEC ⊹ BARE_ATOM) ⬝ .star WS ⬝ opt ATOMS ⬝ .star WS ⬝ opt SPAN ⬝ .star WS ⬝
  OPTERM
/-- `DOT = ".\n"`. -/
def DOT : Re := one 46 ⬝ one 10
/-- `TEXT_FRAME = (WS* OP)* WS* DOT?`. -/
def TEXT_FRAME : Re := .star (.star WS ⬝ OP) ⬝ .star WS ⬝ opt DOT

end Lang

/-- The bytes a number may have: digits, signs, the point, `e` and `E`. -/
def isNumByte (c : Byte) : Bool :=
  (Nat.ble 48 c.toNat && Nat.ble c.toNat 57) || Nat.beq c.toNat 43 || Nat.beq c.toNat 45 ||
    Nat.beq c.toNat 46 || Nat.beq c.toNat 69 || Nat.beq c.toNat 101

/-- More than 24 such bytes in a row, outside of quotes. -/
def LongNumber (buf : List Byte) : Prop :=
  ∃ w, w <:+: outside 0 buf ∧ 24 < w.length ∧ ∀ x ∈ w, isNumByte x = true

end Ron.Spec
