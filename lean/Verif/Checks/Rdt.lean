import Verif.Checks.Ron
import Verif.Model.TextMax
import Verif.Model.TextState
import Verif.Model.Reserialize
import Verif.Model.Compare
import Verif.Model.Scan
import Verif.Model.Lww
/-!
The model on the inputs of the project's own tests of the reducers, `rdt/test`, with the results that the tests expect.
These are tests of the model, not proofs about it.
-/
namespace Ron.Checks
open Ron

/-- `MergeStrings`, `rdt/rdt.hpp:108-125`. -/
def merged (f : Form) (frames : List String) : Out (Option (Status × List Byte)) :=
  (TextMerge.firsts (frames.map u8)).bind fun cs => TextMerge.mergeCursors (TextMerge.max (fun _ => 0#64) 100) 100 f cs

/-! ### `rdt/test/rga.cc` -/

-- lines 25-32
example : merged Form.RGA ["@1+A :rga, 'a', 'b', 'c'; ", "@1000000004+B :1000000003+A 'D', 'E', 'F'; "] =
    .ok (some (Status.OK, lit "@1+A :rga,\n ('abc'),\n@1000000004+B ('DEF');\n")) := by decide +kernel

-- lines 34-42
example : merged Form.RGA ["@1+A :rga;", "@1a+B :1+A 'b';", "@1b+C :1+A 'a';"] =
    .ok (some (Status.OK, lit "@1+A :rga,\n@1b+C 'a',\n@1a+B :1+A 'b';\n")) := by decide +kernel

-- lines 44-55
example : (merged Form.RGA ["@1a+B :1+A 'b';", "@1b+C :1+A 'a';"]) = .ok (some (Status.CAUSEBREAK, [])) := by
  decide +kernel

/-- A value as the reducers see it. -/
def aval (c : Cursor) (i : Nat) : Out AVal :=
  (c.atomVal i).bind fun v =>
    match v with
    | .uuid u => .ok (.uuid u)
    | .int i => .ok (.int i)
    | .float _ => .ok (.float 0#64)
    | .char cp => .ok (.str [cp])
    | .str b _ => match Utf8Parser.parse [] b with
      | some r => .ok (.str r.1)
      | none => .ub

/-- The values of an op from the `i`-th on. -/
def avals (c : Cursor) : List Nat → Out (List AVal)
  | [] => .ok []
  | i :: is => (aval c i).bind fun v => (avals c is).bind fun vs => .ok (v :: vs)

/-- The terminators, `ron/const.hpp:36`. -/
def termOf (n : Nat) : Term := if n = 0 then .raw else if n = 1 then .reduced else if n = 2 then .header else .query

/-- An op of a text frame as the reducers see it. -/
def aop (c : Cursor) : Out AOp :=
  (avals c ((List.range (c.op.length - 2)).map (· + 2))).bind fun vs =>
    match c.op with
    | id :: ref :: _ => .ok ⟨id, ref, vs, termOf c.term⟩
    | _ => .ub

/-- All of them. -/
def aops : List Cursor → Out (List AOp)
  | [] => .ok []
  | c :: cs => (aop c).bind fun o => (aops cs).bind fun os => .ok (o :: os)

/-- The ops of a text frame. -/
def parsed (s : List Byte) : Out (Option (List AOp)) :=
  (Cursor.iterate 100 (Cursor.init s)).bind fun r =>
    match r with
    | none => .ok none
    | some (cs, _) => (aops cs).bind fun os => .ok (some os)

/-- The ops, if there are no errors. -/
def opsOf (s : List Byte) : List AOp :=
  match parsed s with
  | .ok (some os) => os
  | _ => []

/-- `ScanRGA`. -/
def scanned (s : List Byte) : Rga.SOut (List Bool) := Rga.scan (opsOf s)

-- lines 57-71
example : scanned (u8 "@1i08e4+path :rga, 'a', @1i08z+path 'b', @1i08k+path :1i08e4+path 'c', 'd';") =
    .ok [true, false, false, false, false] := by decide +kernel

-- lines 73-86
example : scanned (u8 "@1i08e4+path :rga, 'a', 'b', @1i08k+path rm, @1i08e40003+path :1i08e40002+path 'd';") =
    .ok [true, false, true, true, false] := by decide +kernel

-- lines 88-103
example : scanned (u8 "@1i08e4+path :rga, 'a', 'b', @1i08k+path rm, rm, @1i08e40003+path :1i08e40002+path 'd';") =
    .ok [true, true, true, true, true, false] := by decide +kernel

-- lines 105-122
example : scanned (u8 "@1i08e4+path :rga, 'a', 'b', @1i08k+path rm, rm, un, @1i08e40003+path :1i08e40002+path 'd';") =
    .ok [true, false, true, true, true, true, false] := by decide +kernel

-- lines 124-145
example : scanned (u8 "@1i08e4+path :rga, 'a', 'b', @1i08k+path rm, rm, 'c', @1i08e40003+path :1i08e40002+path 'd', un, rm, rm;") =
    .ok [true, true, true, true, true, true, false, true, true, true] := by decide +kernel

/-- The log of lines 148 and 163. -/
def testLog : List Byte :=
  u8 "@1000000001+A :rga, 't', 'e', 's', 't', @1000000007+A :1000000004+A rm, @1000000008+A :1000000004+A 'x';"

/-- `ObjectLogToState` and `ScanRGA`; the default of `cutoff` is `Uuid::FATAL`, `rdt/rdt.hpp:212`. -/
def stateScan (log : List Byte) (cutoff : Uuid) : Option (Rga.SOut (List Bool)) :=
  match TextMerge.logToState (TextMerge.max (fun _ => 0#64) 100) 100 log cutoff with
  | .ok (some (st, s)) => if st.ok then some (scanned s) else none
  | _ => none

-- lines 147-160
example : stateScan testLog Uuid.FATAL = some (.ok [true, false, false, true, false, true, false]) := by decide +kernel

-- lines 162-175
example : stateScan testLog (uuid "1000000007+A") = some (.ok [true, false, false, true, true, false]) := by
  decide +kernel

/-! ### `rdt/test/max.cc` -/

-- lines 17-28
example : merged Form.MAX ["@1kGIU+0046cGqZgm :max, =1;", "@1kGIu+0046cGqZgm :1kGIU+0046cGqZgm =2;"] =
    .ok (some (Status.OK, lit "@1kGIU+0046cGqZgm :max,\n@1kGIu+0046cGqZgm 2;\n")) := by decide +kernel

/-! ### `rdt/test/lww.cc` -/

/-- The third atoms of the ops, if they are strings (`scan`, lines 15-28). -/
def keysOf (s : List Byte) : List (Option (List Nat)) :=
  (opsOf s).map fun o => match o.vals with
    | .str k :: _ => some k
    | _ => none

/-- An op with two strings, or none. -/
def strOp (id ref : String) (kv : List String) : Uuid × Uuid × List Arg :=
  (uuid id, uuid ref, kv.map fun s => .str (lit s))

/-- The frame of the ops. -/
def frameOf (ops : List (Uuid × Uuid × List Arg)) : List Byte :=
  match (built pi ops).bind fun b => b.release with
  | .ok x => x.1
  | _ => []

def abFrame : List Byte := frameOf [strOp "1+src" "lww" [], strOp "2+src" "1+src" ["a", "A"], strOp "3+src" "2+src" ["b", "B"]]
def cFrame : List Byte := frameOf [strOp "3+xyz" "2+src" ["c", "C"]]
def b2Frame : List Byte := frameOf [strOp "4+xyz" "3+src" ["b", "B2"]]

/-- `lww.Merge`. -/
def lwwMerge (frames : List (List Byte)) : List Byte :=
  match (TextMerge.firsts frames).bind fun cs => TextMerge.mergeCursors (fun b _ => .ok (some (b, Status.OK))) 100 Form.LWW cs with
  | .ok (some (_, s)) => s
  | _ => []

-- lines 31-59: `_,a,b,c` and `_,a,b,c,b`
example : keysOf (lwwMerge [abFrame, cFrame]) = [none, some [97], some [98], some [99]] ∧
    keysOf (lwwMerge [abFrame, cFrame, b2Frame]) = [none, some [97], some [98], some [99], some [98]] := by decide +kernel

/-- The ops that `GC` sees. -/
def rawOps (s : List Byte) : List Lww.Raw :=
  match Cursor.iterate 100 (Cursor.init s) with
  | .ok (some (cs, _)) => cs.filterMap fun c => match aop c with
    | .ok o => some ⟨o, ((c.op[2]?).map Uuid.origin).getD 0#64⟩
    | _ => none
  | _ => []

-- lines 61-70 expect `_,a,c,b`. At this commit the range of a string has its type in the upper bits, so that the key is
-- a read far past the end of the frame (C53), and the header is not copied.
example : Lww.gc (lwwMerge [abFrame, cFrame, b2Frame]) (rawOps (lwwMerge [abFrame, cFrame, b2Frame])) = none := by
  decide +kernel

-- with the type masked out of the ranges: `a,c,b`
example : (Lww.gc (lwwMerge [abFrame, cFrame, b2Frame]) ((rawOps (lwwMerge [abFrame, cFrame, b2Frame])).map fun o =>
      { o with korigin := BitVec.ofNat 64 (o.korigin.toNat % 2 ^ 62) })).map (List.map fun o => o.vals.head?) =
    some [some (.str [97]), some (.str [99]), some (.str [98])] := by decide +kernel

-- lines 73-82
example : Lww.string (Lww.obj (opsOf (u8 "@12345+orig :lww, abc 123, str 'string';"))) (uuid "str") = some (lit "string") := by
  decide +kernel

/-! ### `RDT.SplitLog`, lines 84-95 -/

def splitLogText : List Byte := u8 " @1lD5lN+A :lww, 'A' 'a', 'B' 'b', @1lD5z+B :1lD5lN0001+A 'C' 'c'; "

/-- `CompareFrames` of two frames without floats. -/
def same (a b : List Byte) : Bool :=
  match Cursor.compareFrames (fun _ _ => false) 100 a b with
  | .ok (some st) => st.ok
  | _ => false

example : (match Reserialize.splitFrames 100 (uuid "1lD5z+A") splitLogText with
    | .ok (some (st, [a, b])) => st.ok && same a (u8 " @1lD5lN+A :lww, 'A' 'a', 'B' 'b'; ") &&
        same b (u8 " @1lD5z+B :1lD5lN0001+A 'C' 'c'; ")
    | _ => false) = true := by decide +kernel

end Ron.Checks
