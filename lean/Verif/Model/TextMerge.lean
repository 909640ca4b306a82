import Verif.Model.TextBuilder
import Verif.Model.Rdt
/-!
The reducers on text frames: `rdt/merge.hpp`, `rdt/rga.hpp:55-85`, `rdt/rdt.hpp:33-147`, with text cursors as inputs
and a text builder as the output. (`Verif.Model.Rdt` has the same code on lists of ops.)

`.ok none`: not done within the number of turns given.
-/
namespace Ron.TextMerge
open Ron

/-- A cursor in its place of the vector of the heap (`Verif.Model.Merge` keeps the ops to come beside the current one;
a text cursor has them itself). -/
def bare (c : Cursor) : Cur Cursor := (c, [])

/-- The vector of the heap after an operation. -/
def heapOf (r : Option (List (Cur Cursor))) : Out (List Cursor) := Out.ofOption (r.map (List.map Prod.fst))

/-- `id()` and `ref()` of a cursor in the heap are looked at, `ron/text.hpp:106-113`: past the end of the op if they
are not there. -/
def seen (c : Cursor) : Out Cursor := if c.op.length < 2 then .ub else .ok c

/-- `rdt/lww.hpp:15-17`, `rdt/mx.hpp:41-43`. -/
def idLess (a b : Cursor) : Bool :=
  match a.id, b.id with
  | some x, some y => Uuid.lt x y
  | _, _ => false

/-- `rdt/meta.hpp:18-20`. -/
def metaLess (a b : Cursor) : Bool :=
  match a.id, a.ref, b.id, b.ref with
  | some x, some p, some y, some q => if x = y then Uuid.gt p q else Uuid.lt x y
  | _, _, _, _ => false

/-- `rdt/rga.hpp:23-25`. -/
def rgaLess (a b : Cursor) : Bool := idLess b a

section
variable (lt : Cursor → Cursor → Bool)

/-- `Add`, `rdt/merge.hpp:25-29`. -/
def add (h : List Cursor) (c : Cursor) : Out (List Cursor) :=
  if c.cs = 0 then .ok h
  else (seen c).bind fun c => heapOf (Heap.add lt (h.map bare) (bare c))

/-- The constructor, `rdt/merge.hpp:21-23`. -/
def build : List Cursor → List Cursor → Out (List Cursor)
  | h, [] => .ok h
  | h, c :: cs => (add lt h c).bind fun h => build h cs

/-- `step`, `rdt/merge.hpp:94-101`. -/
def step : List Cursor → Out (List Cursor)
  | [] => .ub
  | c :: t =>
    c.next.bind fun r =>
      if r.2 = .ok then
        (seen r.1).bind fun c => heapOf (Heap.push lt (t.length + 2) ((c :: t).map bare) 0)
      else heapOf (Heap.eject lt ((r.1 :: t).map bare))

/-- `Next`, `rdt/merge.hpp:106-111`; `id` is the id of the current op. -/
def next (id : Uuid) : Nat → List Cursor → Out (Option (List Cursor))
  | 0, _ => .ok none
  | n + 1, h =>
    (step lt h).bind fun h =>
      match h with
      | [] => .ok (some [])
      | c :: t => if c.id = some id then next id n (c :: t) else .ok (some (c :: t))

/-- The loop of `Merge`, `rdt/merge.hpp:117-119`. -/
def drain (m : Nat) : Nat → Builder → List Cursor → Out (Option Builder)
  | 0, _, _ => .ok none
  | _ + 1, b, [] => .ok (some b)
  | n + 1, b, c :: t =>
    (b.appendCursor c).bind fun b =>
      match c.id with
      | none => .ub
      | some id =>
        (next lt id m (c :: t)).bind fun r =>
          match r with
          | none => .ok none
          | some h => drain m n b h

/-- The constructor and `Merge`, `rdt/merge.hpp:21-23,115-122`. -/
def mergeInto (n : Nat) (b : Builder) (inputs : List Cursor) : Out (Option Builder) :=
  (build lt [] inputs).bind fun h =>
    if h = [] then .ok (some b)
    else
      (drain lt n n b h).bind fun r =>
        match r with
        | none => .ok none
        | some b => (b.endChunk 0).bind fun b => .ok (some b)
end

/-- `OpLog::Merge`, `rdt/log.hpp:18-23`. -/
def log (n : Nat) : Builder → List Cursor → Out (Option Builder)
  | b, [] => .ok (some b)
  | b, c :: cs =>
    (Builder.appendAll n b c).bind fun r =>
      match r with
      | none => .ok none
      | some b => log n b cs

/-- `rdt/rdt.hpp:37-41,53-57`: the last input. -/
def keepLast (n : Nat) (b : Builder) (inputs : List Cursor) : Out (Option Builder) :=
  match inputs.getLast? with
  | none => .ok (some b)
  | some c => Builder.appendAll n b c

/-! ### `RGArrayRDT::Merge` -/

/-- `rdt/rga.hpp:62-67,74-78`: the inputs that `p` holds of are added to the heap, the others wait. -/
def attach (p : Cursor → Bool) : List Cursor → List Cursor → Out (List Cursor × List Cursor)
  | h, [] => .ok (h, [])
  | h, c :: cs =>
    if p c then (add rgaLess h c).bind fun h => attach p h cs
    else (attach p h cs).bind fun r => .ok (r.1, c :: r.2)

/-- `rdt/rga.hpp:69-79`. -/
def rgaLoop (m : Nat) : Nat → Builder → List Cursor → List Cursor → Out (Option (Builder × List Cursor))
  | 0, _, _, _ => .ok none
  | _ + 1, b, [], w => .ok (some (b, w))
  | n + 1, b, c :: t, w =>
    (b.appendCursor c).bind fun b =>
      match c.id with
      | none => .ub
      | some id =>
        (next rgaLess id m (c :: t)).bind fun r =>
          match r with
          | none => .ok none
          | some h => (attach (fun d => decide (d.ref = some id)) h w).bind fun r => rgaLoop m n b r.1 r.2

/-- `std::min_element(…, id_cmp)->id()`, `rdt/rga.hpp:28-32,59,63`: the least id. -/
def minId : List Cursor → Option Uuid
  | [] => none
  | c :: cs => c.id.map fun i =>
    cs.foldl (fun m d => match d.id with | some j => if Uuid.lt j m then j else m | none => m) i

/-- `RGArrayRDT::Merge`, `rdt/rga.hpp:55-85`. The comparison with the least id of no inputs is undefined, and is not
made. -/
def rga (n : Nat) (b : Builder) (inputs : List Cursor) : Out (Option (Builder × Status)) :=
  if inputs.length > 3 then .ok (some (b, Status.NOT_IMPLEMENTED))
  else
    (attach (fun d => decide (d.id = minId inputs)) [] inputs).bind fun r =>
    (rgaLoop n n b r.1 r.2).bind fun x =>
      match x with
      | none => .ok none
      | some (b, w) =>
        (b.endChunk 0).bind fun b => .ok (some (b, if w.isEmpty then Status.OK else Status.CAUSEBREAK))

/-! ### `MasterRDT` -/

/-- A merge and `return Status::OK`. -/
def okay (r : Out (Option Builder)) : Out (Option (Builder × Status)) :=
  r.bind fun x => .ok (x.map fun b => (b, Status.OK))

/-- `MasterRDT::Merge`, `rdt/rdt.hpp:33-61`. `MaxRDT::Merge` compares the places of values in their frames and is left
open: `mx` is any function (`TextMerge.max` of `Verif.Model.TextMax` is that reducer). -/
def master (mx : Builder → List Cursor → Out (Option (Builder × Status))) (n : Nat) (f : Form) (b : Builder)
    (inputs : List Cursor) : Out (Option (Builder × Status)) :=
  if f = Form.LOG then okay (log n b inputs)
  else if f = Form.ZERO then okay (keepLast n b inputs)
  else if f = Form.META then okay (mergeInto metaLess n b inputs)
  else if f = Form.YARN ∨ f = Form.LWW then okay (mergeInto idLess n b inputs)
  else if f = Form.MX then okay (mergeInto idLess n b inputs)
  else if f = Form.RGA then rga n b inputs
  else if f = Form.MAX then mx b inputs
  else if f = Form.ERROR then okay (keepLast n b inputs)
  else .ok (some (b, Status.NOT_IMPLEMENTED))

/-- `GetForm`, `rdt/rdt.hpp:72-85`: `none` is `BADARGS`. -/
def getForm : Uuid → List Cursor → Out (Option Form)
  | form, [] => .ok (some (uuid2form form))
  | form, c :: cs =>
    if c.cs = 0 then getForm form cs
    else
      match c.ref with
      | none => .ub
      | some ref =>
        if ref.version ≠ Uuid.vNAME then getForm form cs
        else if form.zero then getForm ref cs
        else if form ≠ ref then .ok none
        else getForm form cs

/-- `MergeCursors(ret, rdt, inputs)`, `rdt/rdt.hpp:87-96`: the status and, if it is OK, the frame. -/
def mergeCursors (mx : Builder → List Cursor → Out (Option (Builder × Status))) (n : Nat) (f : Form)
    (inputs : List Cursor) : Out (Option (Status × List Byte)) :=
  (master mx n f Builder.init inputs).bind fun r =>
    match r with
    | none => .ok none
    | some (b, st) =>
      if st.ok then b.release.bind fun x => .ok (some (st, x.1)) else .ok (some (st, []))

/-- `rdt/rdt.hpp:131-136`: the cursors at the first ops; frames without one are left out. -/
def firsts : List (List Byte) → Out (List Cursor)
  | [] => .ok []
  | f :: fs =>
    (Cursor.init f).next.bind fun r =>
      (firsts fs).bind fun cs => .ok (if r.2 = .ok then r.1 :: cs else cs)

/-- `MergeFrames`, `rdt/rdt.hpp:127-147`. -/
def mergeFrames (mx : Builder → List Cursor → Out (Option (Builder × Status))) (n : Nat) (frames : List (List Byte)) :
    Out (Option (Status × List Byte)) :=
  (firsts frames).bind fun cs =>
    (getForm Uuid.NIL cs).bind fun f =>
      match f with
      | none => .ok (some (Status.BADARGS, []))
      | some f => mergeCursors mx n f cs

end Ron.TextMerge
