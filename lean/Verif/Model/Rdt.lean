import Verif.Model.Merge
import Verif.Model.Status
/-!
The reducers: `rdt/lww.hpp`, `rdt/mx.hpp`, `rdt/meta.hpp`, `rdt/log.hpp`, `rdt/max.hpp`,
`rdt/rga.hpp` (merge), `rdt/rdt.hpp`.

A cursor over a frame stands for the list of ops it still has to show, the current op first;
a frame with a syntax error shows the ops before the error. `none` is undefined behaviour or a
loop that does not end; both are shown not to happen.
-/
namespace Ron
namespace Rdt

/-- `rdt/lww.hpp:15-17`, `rdt/mx.hpp:41-43`: `a.id() < b.id()`. -/
def idLess (a b : AOp) : Bool := Uuid.lt a.id b.id

/-- `rdt/meta.hpp:18-20`. -/
def metaLess (a b : AOp) : Bool := if a.id = b.id then Uuid.gt a.ref b.ref else Uuid.lt a.id b.id

/-- `rdt/rga.hpp:23-25`: `b.id() < a.id()`. -/
def rgaLess (a b : AOp) : Bool := Uuid.lt b.id a.id

/-- `rdt/merge.hpp:108`: the id comparison in `Next`. -/
def sameId (a b : AOp) : Bool := decide (a.id = b.id)

/-- `output.AppendOp(op)` for each op in turn. -/
def feed (b : ABuilder) (ops : List AOp) : ABuilder := ops.foldl ABuilder.append b

/-- `MergeCursor::Merge`, `rdt/merge.hpp:115-122`. -/
def mergeInto (less : AOp → AOp → Bool) (b : ABuilder) (inputs : List (List AOp)) :
    Option ABuilder :=
  (Heap.merge less sameId inputs).map fun ops =>
    match ops with
    | [] => b
    | _ => (feed b ops).endChunk

/-- `LastWriteWinsRDT::Merge`, `rdt/lww.hpp:21-25`. -/
def lww (b : ABuilder) (inputs : List (List AOp)) : Option ABuilder := mergeInto idLess b inputs

/-- `MatrixRDT::Merge`, `rdt/mx.hpp:49-53`. -/
def mx (b : ABuilder) (inputs : List (List AOp)) : Option ABuilder := mergeInto idLess b inputs

/-- `MetaRDT::Merge`, `rdt/meta.hpp:24-28`. -/
def metaMerge (b : ABuilder) (inputs : List (List AOp)) : Option ABuilder :=
  mergeInto metaLess b inputs

/-- `OpLog::Merge`, `rdt/log.hpp:18-23`. -/
def log (b : ABuilder) (inputs : List (List AOp)) : ABuilder :=
  inputs.foldl ABuilder.appendAll b

/-- `rdt/rdt.hpp:37-41,53-57`: the forms without a reducer keep the last input. -/
def keepLast (b : ABuilder) (inputs : List (List AOp)) : ABuilder :=
  match inputs.getLast? with
  | none => b
  | some i => b.appendAll i

/-! ### `MaxRDT` -/

/-- `MAX_FORM_UUID`, `ron/form.hpp:39,85`. -/
def MAX_UUID : Uuid := ⟨BitVec.ofNat 64 893383983893577728, 0#64⟩

/-- What `MaxRDT` sees besides the ops themselves. -/
structure View where
  /-- `static_cast<Uuid>(a.atom(2)) < static_cast<Uuid>(b.atom(2))` when it is not determined by
  the values: two numbers with the same bits, or strings. It depends on the position of the
  value in its frame (`Atom::origin.as_range`); so it may depend on the input and the index of
  the op in it. -/
  tie : Nat × Nat → Nat × Nat → Bool
  /-- The op shown by an exhausted cursor, by input (`op()` after a failed `Next`: the last op
  or, if the text has trailing whitespace, the two default specifier atoms). -/
  past : Nat → AOp

/-- The first word of a numeric value. -/
def valWord? : AVal → Option Word
  | .uuid u => some u.value
  | .int i => some (BitVec.ofInt 64 i)
  | .float w => some w
  | .str _ => none

/-- The comparison of `atom(2)`s as UUIDs, `rdt/max.hpp:22`, `ron/uuid.hpp:135-137`: the value
words as unsigned numbers, then the origin words. -/
def rawLess (tie : Bool) : AVal → AVal → Bool
  | .uuid a, .uuid b => Uuid.lt a b
  | a, b =>
    match valWord? a, valWord? b with
    | some x, some y => decide (x.toNat < y.toNat) || (decide (x = y) && tie)
    | _, _ => tie

/-- An op with its place (input, index). -/
abbrev Placed := AOp × Nat × Nat

/-- `MaxRDT::Less`, `rdt/max.hpp:16-23`. -/
def maxLess (v : View) (a b : Placed) : Bool :=
  match a.1.vals, b.1.vals with
  | [], _ :: _ => true
  | [], [] => Uuid.gt b.1.id a.1.id
  | _ :: _, [] => false
  | x :: _, y :: _ => rawLess (v.tie a.2 b.2) x y

/-- The ops of an input with their places, from index `j` on. -/
def place (i : Nat) : Nat → List AOp → List Placed
  | _, [] => []
  | j, o :: os => (o, i, j) :: place i (j + 1) os

/-- All inputs with their places. -/
def places : Nat → List (List AOp) → List (List Placed)
  | _, [] => []
  | i, x :: xs => place i 0 x :: places (i + 1) xs

/-- `rdt/max.hpp:36-41`: the inner loop. -/
def maxScan (v : View) (m : Placed) (ops : List Placed) : Placed :=
  ops.foldl (fun m o => if maxLess v m o then o else m) m

/-- `rdt/max.hpp:33-43` once the header is dealt with; `ins` are the remaining ops by input. -/
def maxPick (v : View) (ins : List (List Placed)) : AOp :=
  match ins.getLast? with
  | none => v.past 0
  | some last =>
    let n := ins.length - 1
    match last with
    | [] => (ins.dropLast.reverse.foldl (maxScan v) (v.past n, n, 0)).1
    | o :: os => ((os :: ins.dropLast.reverse).foldl (maxScan v) o).1

/-- `MaxRDT::Merge`, `rdt/max.hpp:26-46`. -/
def max (v : View) (b : ABuilder) (inputs : List (List AOp)) : ABuilder :=
  match places 0 inputs with
  | [] => b
  | [] :: rest => (b.append (maxPick v ([] :: rest))).endChunk
  | (o :: os) :: rest =>
    if o.1.ref = MAX_UUID then ((b.append o.1).append (maxPick v (os :: rest))).endChunk
    else (b.append (maxPick v ((o :: os) :: rest))).endChunk

/-! ### `RGArrayRDT::Merge` -/

/-- `rdt/rga.hpp:62-67,74-78`: the inputs whose current op satisfies `p` are added to the heap,
the others wait. Inputs are not empty. -/
def attach (p : AOp → Bool) : List (Cur AOp) → List (Cur AOp) →
    Option (List (Cur AOp) × List (Cur AOp))
  | h, [] => some (h, [])
  | h, c :: cs =>
    if p c.1 then (Heap.add rgaLess h c).bind fun h' => attach p h' cs
    else (attach p h cs).map fun r => (r.1, c :: r.2)

/-- `rdt/rga.hpp:69-79`: the main loop. The result is the ops emitted and the inputs never
attached. -/
def rgaLoop : Nat → List (Cur AOp) → List (Cur AOp) → Option (List AOp × List (Cur AOp))
  | 0, _, _ => none
  | _ + 1, [], w => some ([], w)
  | fuel + 1, c :: t, w =>
    (Heap.nextFrom rgaLess sameId c.1 (Heap.total (c :: t) + 1) (c :: t)).bind fun h =>
    (attach (fun o => decide (o.ref = c.1.id)) h w).bind fun r =>
    (rgaLoop fuel r.1 r.2).map fun out => (c.1 :: out.1, out.2)

/-- `std::min_element(…, id_cmp)`, `rdt/rga.hpp:28-32,59`: the least id of the current ops. -/
def minId : List (Cur AOp) → Option Uuid
  | [] => none
  | c :: cs => some (cs.foldl (fun m d => if Uuid.lt d.1.id m then d.1.id else m) c.1.id)

/-- `rdt/rga.hpp:58-85` for up to three inputs: the ops emitted, and the inputs left out. -/
def rgaMerge (inputs : List (Cur AOp)) : Option (List AOp × List (Cur AOp)) :=
  match minId inputs with
  | none => some ([], [])
  | some m =>
    (attach (fun o => decide (o.id = m)) [] inputs).bind fun r =>
    rgaLoop (Heap.total inputs + 1) r.1 r.2

/-- Valid cursors only. -/
def valid : List (List AOp) → List (Cur AOp)
  | [] => []
  | [] :: xs => valid xs
  | (o :: os) :: xs => (o, os) :: valid xs

/-- `RGArrayRDT::Merge`, `rdt/rga.hpp:55-85`. Exhausted cursors among the inputs are not
modelled (the callers pass valid ones): they are ignored. -/
def rga (b : ABuilder) (inputs : List (List AOp)) : Option (ABuilder × Status) :=
  if (valid inputs).length > 3 then some (b, Status.NOT_IMPLEMENTED)
  else
    (rgaMerge (valid inputs)).map fun r =>
      ((feed b r.1).endChunk, if r.2.isEmpty then Status.OK else Status.CAUSEBREAK)

/-! ### `MasterRDT` -/

/-- `MasterRDT::Merge`, `rdt/rdt.hpp:33-61`. -/
def master (v : View) (f : Form) (b : ABuilder) (inputs : List (List AOp)) :
    Option (ABuilder × Status) :=
  if f = Form.LOG then some (log b inputs, Status.OK)
  else if f = Form.ZERO then some (keepLast b inputs, Status.OK)
  else if f = Form.META then (metaMerge b inputs).map fun b => (b, Status.OK)
  else if f = Form.YARN ∨ f = Form.LWW then (lww b inputs).map fun b => (b, Status.OK)
  else if f = Form.MX then (mx b inputs).map fun b => (b, Status.OK)
  else if f = Form.RGA then rga b inputs
  else if f = Form.MAX then some (max v b inputs, Status.OK)
  else if f = Form.ERROR then some (keepLast b inputs, Status.OK)
  else some (b, Status.NOT_IMPLEMENTED)

/-- `GetForm`, `rdt/rdt.hpp:72-85`: `none` is `BADARGS`. -/
def getForm : Uuid → List (List AOp) → Option Form
  | form, [] => some (uuid2form form)
  | form, [] :: xs => getForm form xs
  | form, (o :: _) :: xs =>
    if o.ref.version ≠ Uuid.vNAME then getForm form xs
    else if form.zero then getForm o.ref xs
    else if form ≠ o.ref then none
    else getForm form xs

/-- `MergeCursors(ret, rdt, inputs)`, `rdt/rdt.hpp:87-96`: the frame, if the status is OK. -/
def mergeCursors (v : View) (f : Form) (inputs : List (List AOp)) : Option (Status × List AOp) :=
  (master v f ABuilder.empty inputs).map fun r => (r.2, if r.2.ok then r.1.release else [])

/-- `MergeFrames`, `rdt/rdt.hpp:127-147`: frames without ops are dropped. -/
def mergeFrames (v : View) (inputs : List (List AOp)) : Option (Status × List AOp) :=
  let cs := inputs.filter fun i => !i.isEmpty
  match getForm Uuid.NIL cs with
  | none => some (Status.BADARGS, [])
  | some f => mergeCursors v f cs

end Rdt
end Ron
