import Verif.Model.TextBuilder
import Verif.Spec.TextGrammar
/-!
Specification of the builder: what a sequence of API calls says, and which sequences are free of
the known troubles.
-/
namespace Ron.Spec

/-- An API call. -/
inductive Call where
  /-- `AppendOp(Op{id, ref, args...})` -/
  | op (id ref : Uuid) (args : List Arg)
  /-- `EndChunk(term)` -/
  | endChunk (t : Nat)
  deriving DecidableEq, Repr

/-- Making the calls. -/
def perform (fmt : Word → List Byte) : List Call → Builder → Out Builder
  | [], b => .ok b
  | .op id ref args :: l, b =>
    (Op.mk' id ref args).bind fun o => (b.appendOp fmt o).bind (perform fmt l)
  | .endChunk t :: l, b => (b.endChunk t).bind (perform fmt l)

/-- The frame made by the calls. -/
def built (fmt : Word → List Byte) (l : List Call) : Out (List Byte) :=
  (perform fmt l Builder.init).bind fun b => b.release.bind fun r => .ok r.1

/-- The value of an argument. -/
def viewArg (fmt : Word → List Byte) : Arg → View
  | .int i => .int i
  | .uuid u => .uuid u
  | .float w => .float (fmt w)
  | .str s => .text s

/-- A UUID as the text notation can say it: the two top bits of the origin are clear. -/
def Plain62 (u : Uuid) : Prop := u.origin.toNat < 2 ^ 62

/-- A code point that can be written and read: not zero, which ends a string, not the form feed,
which is written with an escape the grammar does not have. -/
def CpOk (c : Nat) : Prop := 0 < c ∧ c < 2 ^ 21 ∧ c ≠ 12

/-- An argument that is written as a text of its value: integers within the limits of C17; no UUIDs
that look like floats; floats printed as float literals that do not look like UUIDs; strings in
shortest UTF-8 of writable code points. -/
def ArgOk (fmt : Word → List Byte) : Arg → Prop
  | .int i => -922337203685477580 ≤ i ∧ i < 2 ^ 63
  | .uuid u => Plain62 u ∧ ¬ FloatText u.str
  | .float w => FloatLit (fmt w) ∧ ¬ ∃ vr v ver o, UuidText (fmt w) vr v ver o
  | .str s => ∃ cps : List Nat, s = cps.flatMap utf8append ∧ ∀ c ∈ cps, CpOk c

/-- Number of code points of a text: the bytes that do not continue one. -/
def chars (s : List Byte) : Nat :=
  (s.filter fun c => !(Nat.ble 128 c.toNat && Nat.ble c.toNat 191)).length

/-- Two ops of one value each which the builder can fold: the same UUID, not nil, or one character
each. -/
def alike : List View → List View → Bool
  | [.uuid u], [.uuid v] => decide (u = v) && decide (u ≠ Uuid.NIL)
  | [.text s], [.text t] => Nat.beq (chars s) 1 && Nat.beq (chars t) 1
  | _, _ => false

/-- The op goes on where the one before it stops: the next id, a reference to the one before. -/
def follows (prev id ref : Uuid) : Bool := decide (id = prev.inc) && decide (ref = prev)

/-- What a call says. -/
inductive Step where
  | op (o : OpView)
  | endChunk (t : Nat)

/-- What the calls say. -/
def steps (fmt : Word → List Byte) : List Call → List Step
  | [] => []
  | .op id ref args :: l => .op ⟨id, ref, args.map (viewArg fmt)⟩ :: steps fmt l
  | .endChunk t :: l => .endChunk t :: steps fmt l

/-- The op is folded with the one before it, of the id `pid` and the values `pv`. -/
def folds (pid : Uuid) (pv : List View) (o : OpView) : Bool := follows pid o.id o.ref && alike pv o.vals

/-- The terminator of an op of the id `pid` and the values `pv`: the one of the chunk that ends right
after it; a comma before another op; a semicolon at the end of the frame. A run of ops folded into one
has one terminator, that of the last. -/
def termAfter : Uuid → List View → List Step → Nat
  | _, _, [] => 0
  | _, _, .endChunk t :: _ => t
  | pid, pv, .op o :: l => if folds pid pv o then termAfter o.id o.vals l else 1

/-- The ops the steps say, with their terminators. -/
def saidBy : List Step → List (Nat × OpView)
  | [] => []
  | .op o :: l => (termAfter o.id o.vals l, o) :: saidBy l
  | .endChunk _ :: l => saidBy l

/-- The ops the calls say, with their terminators. -/
def said (fmt : Word → List Byte) (l : List Call) : List (Nat × OpView) := saidBy (steps fmt l)

/-- The first character of a run that is written as one byte and so survives the folding. -/
def headOk : List View → Bool
  | [.text [c]] => Nat.ble 1 c.toNat && Nat.ble c.toNat 127 &&
      !([34, 39, 92, 8, 12, 10, 13, 9].contains c.toNat)
  | [.text _] => false
  | _ => true

/-- Total size of the strings of an op. -/
def strBytes : List Arg → Nat
  | [] => 0
  | .str s :: l => s.length + strBytes l
  | _ :: l => strBytes l

/-- An op the builder can write. -/
structure OpOk (fmt : Word → List Byte) (id ref : Uuid) (args : List Arg) : Prop where
  idOk : Plain62 id
  refOk : Plain62 ref
  argsOk : ∀ a ∈ args, ArgOk fmt a
  size : strBytes args < 2 ^ 30

/-- Steps free of trouble, after an op of the id `pid` and the values `pv`; `closed`: a chunk ended
after it; `mid`: it was folded with the one before it. The next id comes with the reference to the op
before; an op the builder folds with the one before is in the same chunk, and the run begins with a
character that survives, `hok`. -/
def CleanSteps (hok : List View → Bool) : Uuid → List View → Bool → Bool → List Step → Prop
  | _, _, _, _, [] => True
  | pid, pv, _, mid, .endChunk t :: l => t ∈ [0, 2, 3] ∧ CleanSteps hok pid pv true mid l
  | pid, pv, closed, mid, .op o :: l =>
    (o.id = pid.inc → o.ref = pid) ∧
    (folds pid pv o = true → closed = false ∧ (mid = true ∨ hok pv = true)) ∧
    CleanSteps hok o.id o.vals false (folds pid pv o) l

/-- Steps free of trouble from the start. A new builder is as after an op of the id NIL and the value
FATAL and the end of its chunk. -/
def CleanFrom (hok : List View → Bool) (l : List Step) : Prop :=
  CleanSteps hok Uuid.NIL [.uuid Uuid.FATAL] true false l

/-- Calls free of trouble. -/
def CleanCalls (fmt : Word → List Byte) (l : List Call) : Prop :=
  (∀ id ref args, .op id ref args ∈ l → OpOk fmt id ref args) ∧ CleanFrom headOk (steps fmt l)

/-! ### copying a frame -/

/-- What is said by copying ops with their terminators: an op ends a chunk unless its terminator is a
comma. -/
def copySteps : List (Nat × OpView) → List Step
  | [] => []
  | (t, o) :: l => if t = 1 then .op o :: copySteps l else .op o :: .endChunk t :: copySteps l

/-- Values that are the same when copied: UUIDs that do not look like floats, floats that do not look
like UUIDs, no form feed or zero as a single character. -/
def CopyOk : View → Prop
  | .int _ => True
  | .uuid u => ¬ FloatText u.str
  | .float t => ¬ ∃ vr v ver o, UuidText t vr v ver o
  | .text t => t ≠ [0] ∧ t ≠ [12]

/-- `headOk`, and not a slash, which a frame may have with a backslash. -/
def copyHeadOk (vs : List View) : Bool := headOk vs && !decide (vs = [.text [47]])

/-- No code points written longer than they need to be. -/
def NoOverlong : List Byte → Prop
  | [] => True
  | [a] => a.toNat ≠ 0xc0 ∧ a.toNat ≠ 0xc1
  | a :: b :: l => a.toNat ≠ 0xc0 ∧ a.toNat ≠ 0xc1 ∧ ¬ (a.toNat = 0xe0 ∧ b.toNat < 0xa0) ∧
      ¬ (a.toNat = 0xf0 ∧ b.toNat < 0x90) ∧ NoOverlong (b :: l)

end Ron.Spec
