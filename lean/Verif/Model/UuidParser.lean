import Verif.Model.Word
import Verif.Model.UuidTable
/-!
The UUID constructor `Uuid::Uuid(Slice)`: `ron/uuid-parser.cc` (generated from
`ragel/uuid-parser.rl`), run over the transcribed table.
-/
namespace Ron
namespace UuidParser

/-- The locals of the constructor, `ragel/uuid-parser.rl:11-18`: input pointer `p`,
`wordb` (as offsets), the two slices (as bytes) and the two flag characters.
`uuidb` is written but never read here and is left out. -/
structure Regs where
  p : Nat
  wordb : Nat
  variety : Byte
  version : Byte
  value : List Byte
  origin : List Byte
  deriving DecidableEq, Repr

/-- Initial locals, `ron/uuid-parser.cc:24-31`. -/
def Regs.init : Regs := ⟨0, 0, ch '0', ch '$', [], []⟩

/-- One embedded action, `ragel/uuid-grammar.rl:6-20`; `c` is `*p`. `none`: a read before
the buffer or an action that does not belong to this automaton. -/
def act (buf : List Byte) (c : Byte) (r : Regs) : Act → Option Regs
  | .begin_uuid => some { r with variety := ch '0', version := ch '$', origin := [] }
  | .variety => if r.p = 0 then none else (buf[r.p - 1]?).map fun v => { r with variety := v }
  | .begin_value => some { r with wordb := r.p }
  | .end_value => some { r with value := slice buf r.wordb r.p }
  | .version => some { r with version := c }
  | .begin_origin => some { r with wordb := r.p }
  | .end_origin => some { r with origin := slice buf r.wordb r.p }
  | .end_uuid => some r
  | _ => none

/-- The actions of one transition, in order. -/
def acts (buf : List Byte) (c : Byte) (r : Regs) (as : List Act) : Option Regs :=
  as.foldlM (act buf c) r

/-- Outcome of running the automaton: the state and the locals, or a failed memory access. -/
abbrev St := Option (Nat × Regs)

/-- One byte: `ron/uuid-parser.cc:33-226`. In the error state (`cs = 0; goto _out`)
nothing moves any more. -/
def step (buf : List Byte) (st : St) (c : Byte) : St :=
  match st with
  | none => none
  | some (0, r) => some (0, r)
  | some (s, r) =>
    match stepIn UuidTable.rows s c with
    | none => some (0, r)
    | some (as, t) =>
      match acts buf c r as with
      | none => none
      | some r' => some (t, { r' with p := r'.p + 1 })

/-- The automaton run over the whole input. -/
def run (buf : List Byte) : St := buf.foldl (step buf) (some (UuidTable.start, Regs.init))

/-- `Uuid::Uuid(Slice)`: run, end-of-input actions (`ron/uuid-parser.cc:247-265`), final
check `cs && value.size() <= 10 && origin.size() <= 10`
(`ragel/uuid-parser.rl:27-33`). Outer `none`: undefined behaviour. -/
def parse (data : List Byte) : Option Uuid :=
  match run data with
  | none => none
  | some (0, _) => some Uuid.FATAL
  | some (s, r) =>
    match acts data 0 r (UuidTable.eofActs s) with
    | none => none
    | some r =>
      if r.value.length ≤ 10 ∧ r.origin.length ≤ 10 then
        Uuid.parts r.variety r.value r.version r.origin
      else some Uuid.FATAL

end UuidParser
end Ron
