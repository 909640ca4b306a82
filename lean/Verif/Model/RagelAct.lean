import Verif.Model.Bytes
/-!
Actions of the Ragel grammars (`ragel/*.rl`) and the table lookup shared by the
transcribed automata.
-/
namespace Ron

/-- The embedded actions, named as in `ragel/text-grammar.rl:9-71`,
`ragel/uuid-grammar.rl:6-20`, `ragel/utf8-grammar.rl:7-11`,
`ragel/utf8-parser.rl:21` (`push_cp`) and `ragel/cp-parser.rl:28` (`end_cp_brk`). -/
inductive Act
  | end_id | end_ref | begin_int | end_int | begin_string | end_string
  | begin_float | end_float | end_quoted_uuid | end_bare_uuid | end_cp | op_term
  | newline | string_esc | string_uesc | span_size_digit | end_span_size | end_spread
  | begin_uuid | variety | begin_value | end_value | version | begin_origin
  | end_origin | end_uuid
  | string_cont | string_lead1 | string_lead2 | string_lead3 | string_lead4
  | push_cp | end_cp_brk
  deriving DecidableEq, Repr

/-- One row entry of a transition table: byte range, actions, target state. -/
abbrev TRow := Nat × Nat × List Act × Nat

/-- Transition of a `-G2` automaton on a byte: the actions to run and the target state;
`none` is the jump to `st0` (the error state). -/
def stepIn (rows : Nat → List TRow) (s : Nat) (b : Byte) : Option (List Act × Nat) :=
  ((rows s).find? (fun r => Nat.ble r.1 b.toNat && Nat.ble b.toNat r.2.1)).map
    (fun r => r.2.2)

/-- The bytes `[b, e)` of a buffer: `Slice{wordb, p}` (`ron/slice.hpp:150-154`). -/
def slice (buf : List Byte) (b e : Nat) : List Byte := (buf.drop b).take (e - b)

end Ron
