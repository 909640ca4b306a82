import Verif.Checks.Rdt
import Verif.Checks.Sha
import Verif.Model.Script
import Verif.Model.Query
import Verif.Model.Lifecycle
import Verif.Model.Maps
/-!
The model on the inputs of the project's own tests of stores, `db/test`, and on the test scripts `test/rdt/lww.ron` and
`test/rdt/rga.ron`, with the results that they expect. These are tests of the model, not proofs about it.
-/
namespace Ron.Checks
open Ron

/-- The reducers, without floats and without `MAX`. -/
def red : Reducer := Rdt.mergeCursors ⟨fun _ _ => false, fun _ => ⟨Uuid.NIL, Uuid.NIL, [], .raw⟩⟩

/-- The same ops, up to punctuation: what `CompareFrames` compares. -/
def sameOps (a b : List AOp) : Bool := decide (a.map AOp.body = b.map AOp.body)

def aText : List AOp := opsOf (u8 "@1+A :lww 'int' 1;")
def bText : List AOp := opsOf (u8 "@2+A :1+A 'string' 'str';")
def mText : List AOp := opsOf (u8 "@1+A :lww 'int' 1, @2+A 'string' 'str';")
def key1A : Key := Key.ofUuids (uuid "1+A") (uuid "lww")

-- `db/test/memstore.cc:14-33`, for some stamp
example : key1A.id = uuid "1+A" ∧ key1A.form = Form.LWW ∧ Uuid.gt (uuid "2+A") (uuid "1+A") = true ∧
    Uuid.gt (uuid "1+B") (uuid "1+A") = true ∧ Uuid.gt (uuid "2+A") (uuid "1+B") = true ∧
    Key.lt key1A (Key.ofUuids (uuid "2+A") (uuid "lww")) = true ∧ Key.lt key1A (Key.ofUuids (uuid "1+B") (uuid "lww")) = true ∧
    Key.lt (Key.ofUuids (uuid "2+A") (uuid "lww")) (Key.ofUuids (uuid "1+B") (uuid "lww")) = true := by decide +kernel

/-- Both frames are written. -/
def mem2 : MemStore := ((MemStore.write [] key1A aText).2.write key1A bText).2

-- `db/test/memstore.cc:79-97`: read twice
example : ((mem2.read red key1A []).map fun r => r.1.ok && sameOps r.2.1 mText) = some true ∧
    (((mem2.read red key1A []).bind fun r => r.2.2.read red key1A []).map fun r => r.1.ok && sameOps r.2.1 mText) = some true := by
  decide +kernel

-- `db/test/rocks.cc:67-90`
example : (Engine.read red (Engine.write (Engine.write newStore key1A aText).2 key1A bText).2 key1A).map
    (fun r => r.1.ok && sameOps r.2 mText) = some true := by decide +kernel

-- `db/test/joinstore.cc:62-75`: one frame is in each of the stores
example : ((Commit.read ⟨red, ⟨fun _ _ _ => [], fun _ => [], fun _ => []⟩, 0#64, 0#64⟩
      { Commit.start (Engine.write newStore key1A aText).2 Uuid.NIL 0#64 with mem := (MemStore.write [] key1A bText).2 }
      key1A []).map fun r => r.1.ok && sameOps r.2.1 mText) = some true := by decide +kernel

-- `db/test/mappers.cc:20-22`
example : uuid2map (uuid "op") ≠ uuid2map (uuid "obj") := by decide +kernel

/-! ### the test scripts -/

/-- Hashes for the scripts: nothing there depends on them. -/
def noHash : Hashing := ⟨fun _ _ _ => List.replicate 32 1, fun _ => List.replicate 32 2, fun d => d.map UInt8.toNat⟩

def testYarn : Word := (Word.parse 0 (lit "test")).getD 0#64

/-- A new replica, and `db/main.cc:258-261`. -/
def testHost : Option (Status × Host) :=
  (Host.createReplica red noHash 1000#64).bind fun r => (Host.opened red r.2).bind fun h =>
    (Host.createBranch red noHash 2000#64 h.2 testYarn true).bind fun b =>
      Host.setActive 3000#64 b.2 (Host.branchId testYarn)

/-- The answers to the queries of a frame, `QueryObject`. -/
def answers (h : Host) (ops : List AOp) : List AOp :=
  match h.find (Host.branchId testYarn) with
  | none => []
  | some s => ops.flatMap fun o =>
    if o.term = .query then
      ((Commit.answerObject (h.env red noHash 4000#64) (Commit.start s.data s.tip h.now) o.id o.ref).map Prod.snd).getD []
    else []

/-- The loop of `CommandTest`, `db/main.cc:269-302`, with frames as lists of ops; the number of expected responses that
are right, `none` if a step fails. -/
def runScript : Host → List AOp → List (List Byte) → Option Nat
  | _, _, [] => some 0
  | h, resp, f :: fs =>
    let ops := opsOf f
    if (ops.head?.map AOp.term) = some .query then
      if sameOps resp (ops.filter fun o => o.id ≠ COMMENT) then (runScript h [] fs).map (· + 1) else none
    else
      match Host.receive red noHash 4000#64 h testYarn ⟨ops, Status.ENDOFFRAME, true⟩ with
      | none => none
      | some (st, h') => if st.ok then runScript h' (resp ++ answers h ops) fs else none

/-- A script on a new replica. -/
def passed (script : List Byte) : Option Nat :=
  match Script.splitTests 200 script with
  | .ok (some fs) => testHost.bind fun h => if h.1.ok then runScript h.2 [] fs else none
  | _ => none

/-- `test/rdt/lww.ron`. -/
def lwwScript : List Byte := u8 "@~ 'create an lww object'!
@1hLHRG+test :lww,
    'type' 'ticket',
    'date' '19 Jan 2019',
    'organisation' 'The State Museum of Oriental Art',
    'price' 30000;

@~ 'update the object' !
@1hLHXS+test :1hLHRG0004+test
    'enter' '18:18:14',
    'exit'  '20:45:25';

@~ 'request the state' !
@1hLHRG+test :lww ?

@~ 'is it all merged' ?
@1hLHRG+test :lww,
    'type' 'ticket',
    'date' '19 Jan 2019',
    'organisation' 'The State Museum of Oriental Art',
    'price' 30000,
@1hLHXS+test
    'enter' '18:18:14',
    'exit'  '20:45:25';
"

/-- `test/rdt/rga.ron`. -/
def rgaScript : List Byte := u8 "@~ 'create an array' !
@1hTDE6+test :rga ; 1; 2; 5;

@~ 'patch an array' !
@1hTDEk+test :1hTDE60002+test 3; 4;

@~ 'query the state' !
@1hTDE6+test :rga ?

@~ 'was it merged' ?
@1hTDE6+test :rga, 
    1, 2, 
@1hTDEk+test 
    3, 4,
@1hTDE60003+test :1hTDE60002+test
    5;

@~ 'remove the 3' !
@1hTDEz+test :1hTDEk+test rm;

@~ 'query the state' !
@1hTDE6+test :rga ?

@~ 'merged again' ?
@1hTDE6+test :rga, 
    1, 2, 
@1hTDEk+test 
    3,
@1hTDEz+test
    rm,
@1hTDEk0001+test :1hTDEk+test
    4,
@1hTDE60003+test :1hTDE60002+test
    5;
"

-- everything that the scripts expect is answered
example : passed lwwScript = some 1 := by decide +kernel
example : passed rgaScript = some 2 := by decide +kernel

end Ron.Checks
