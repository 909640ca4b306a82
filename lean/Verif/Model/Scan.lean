import Verif.Model.Ops
import Verif.Model.Clock
/-!
`ScanRGA`, `rdt/rga.hpp:96-239`: which ops of a causal tree are visible.

The two `inc_stack`s are plain lists here (the refinement is C26), the last element on top like
in the vectors. Depths and positions are `uint32_t`.
-/
namespace Ron
namespace Rga

/-- A result, a status, or undefined behaviour (access outside of an array or a vector). -/
inductive SOut (α : Type) where
  | ok (a : α)
  | bad (s : Status)
  | ub
  deriving DecidableEq, Repr

/-! `enum RGA_ENTRY`, `rdt/rga.hpp:96-102`. -/
def META : Nat := 0
def ENTRY : Nat := 1
def REMOVE : Nat := 2
def UNDO : Nat := 3
def TRASH : Nat := 4

/-- `rdt/rga.hpp:108`. -/
def RM_UUID : Uuid := ⟨BitVec.ofNat 64 986569793370849280, 0#64⟩
/-- `rdt/rga.hpp:109`. -/
def UN_UUID : Uuid := ⟨BitVec.ofNat 64 1040894463876005888, 0#64⟩
/-- `RGA_FORM_UUID`, `ron/form.hpp:83`. -/
def RGA_UUID : Uuid := ⟨BitVec.ofNat 64 985043671231496192, 0#64⟩

/-- `entry_type`, `rdt/rga.hpp:113-125`: an op with a single value, a UUID. -/
def entryType (o : AOp) : Nat :=
  match o.vals with
  | [.uuid v] => if v = RM_UUID then REMOVE else if v = UN_UUID then UNDO else ENTRY
  | _ => ENTRY

/-- The locals of `ScanRGA`, `rdt/rga.hpp:135-154`. -/
structure Scan where
  state : Nat
  path : List Uuid
  positions : List Nat
  kills : List Bool
  tombs : List Bool
  depth : Nat
  pos : Nat
  ceil : List Nat
  deriving DecidableEq, Repr

/-- `uint32_t` subtraction. -/
def sub32 (a b : Nat) : Nat := (a + (2 ^ 32 - b % 2 ^ 32)) % 2 ^ 32

/-- `v[at] = true` on a `std::vector<bool>`. -/
def setTrue (v : List Bool) (at_ : Nat) : Option (List Bool) :=
  if at_ < v.length then some (v.set at_ true) else none

/-- `rdt/rga.hpp:204-206`: `while (depth == ceiling[state]) state = dec(state);`. -/
def settle (depth : Nat) (ceil : List Nat) : Nat → Option Nat
  | 0 => if some depth = ceil[0]? then none else some 0
  | s + 1 => if some depth = ceil[s + 1]? then settle depth ceil s else some (s + 1)

/-- `rdt/rga.hpp:178-202`: what the op on top of the stack does to the ops it is aimed at. -/
def resolve (s : Scan) (kill : Bool) (at_ : Nat) : SOut Scan :=
  if s.state = META then .bad Status.CAUSEBREAK
  else if s.state = ENTRY then
    if !kill then .ok s
    else match setTrue s.tombs at_ with
      | some t => .ok { s with tombs := t }
      | none => .ub
  else if s.state = REMOVE then
    if kill then .ok s
    else
      let c := s.ceil.getD REMOVE 0
      let at_ := sub32 c (sub32 s.depth c)
      if at_ > 0 then
        match setTrue s.kills at_ with
        | some k => .ok { s with kills := k }
        | none => .ub
      else .ok s
  else if s.state = UNDO then
    let c := s.ceil.getD UNDO 0
    let at_ := sub32 c (sub32 s.depth c)
    if at_ > s.ceil.getD REMOVE 0 then
      match setTrue s.kills at_ with
      | some k => .ok { s with kills := k }
      | none => .ub
    else .ok s
  else .ok s

/-- `rdt/rga.hpp:203-209`. -/
def popTop (s : Scan) : SOut Scan :=
  let depth := sub32 s.depth 1
  match settle depth s.ceil s.state with
  | none => .ub
  | some st => .ok { s with
      depth := depth, state := st, path := s.path.dropLast, kills := s.kills.dropLast,
      positions := s.positions.dropLast }

/-- `rdt/rga.hpp:176-210`: unroll the stack to the op referred to. Every turn pops an op; the
number of turns is bounded by the size of the stack. -/
def unroll (ref : Uuid) : Nat → Scan → SOut Scan
  | 0, _ => .ub
  | fuel + 1, s =>
    match s.path.getLast?, s.kills.getLast?, s.positions.getLast? with
    | some top, some kill, some at_ =>
      if top = ref then .ok s
      else
        match resolve s kill at_ with
        | .bad e => .bad e
        | .ub => .ub
        | .ok s' =>
          match popTop s' with
          | .bad e => .bad e
          | .ub => .ub
          | .ok s'' => unroll ref fuel s''
    | _, _, _ => .ub

/-- `rdt/rga.hpp:216-219`: everything up to TRASH gets the current ceiling. -/
def trash (depth : Nat) (ceil : List Nat) (state : Nat) : List Nat :=
  ceil.mapIdx fun i c => if state < i then depth else c

/-- `rdt/rga.hpp:212-230`. -/
def enter (s : Scan) (id : Uuid) (et : Nat) : Scan :=
  let s := if et ≠ s.state then
      if et ≠ s.state + 1 then
        { s with state := if s.state < TRASH then TRASH else s.state
                 ceil := trash s.depth s.ceil s.state }
      else { s with state := et, ceil := s.ceil.set et s.depth }
    else s
  { s with
    tombs := s.tombs ++ [decide (s.state ≠ ENTRY)]
    depth := (s.depth + 1) % 2 ^ 32
    path := s.path ++ [id]
    kills := s.kills ++ [false]
    positions := s.positions ++ [s.pos] }

/-- `rdt/rga.hpp:168-230`: one turn of the main loop. -/
def turn (s : Scan) (id ref : Uuid) (et : Nat) : SOut Scan :=
  let s := { s with pos := (s.pos + 1) % 2 ^ 32 }
  if Uuid.gt ref id then .bad Status.BADARGS
  else if id.version ≠ Uuid.vTIME ∨ ref.version ≠ Uuid.vTIME then .bad Status.BADARGS
  else
    match unroll ref (s.path.length + 1) s with
    | .bad e => .bad e
    | .ub => .ub
    | .ok s' => .ok (enter s' id et)

/-- `rdt/rga.hpp:156-234` while the cursor is valid. -/
def turns (s : Scan) : List AOp → SOut Scan
  | [] => .ok s
  | o :: os =>
    match turn s o.id o.ref (entryType o) with
    | .bad e => .bad e
    | .ub => .ub
    | .ok s' => turns s' os

/-- `rdt/rga.hpp:143-152`. -/
def start (root : Uuid) : Scan :=
  { state := META, path := [root], positions := [0], kills := [false], tombs := [true],
    depth := 1, pos := 0, ceil := [0, 0, 0, 0, 0] }

/-- `ScanRGA`, `rdt/rga.hpp:131-239`: the tombstone flags, one per op. -/
def scan (ops : List AOp) : SOut (List Bool) :=
  match ops with
  | [] => .ok []
  | o :: os =>
    if o.ref ≠ RGA_UUID ∨ o.id.version ≠ Uuid.vTIME then .bad Status.BADARGS
    else
      match turns (start o.id) os with
      | .bad e => .bad e
      | .ub => .ub
      | .ok s =>
        match turn s (Uuid.time NEVER 0#64) o.id META with
        | .bad e => .bad e
        | .ub => .ub
        | .ok s' => .ok s'.tombs.dropLast

end Rga
end Ron
