import Verif.Model.TextReceive
import Verif.Model.Txt
/-!
Queries of plain text, answered by a store of texts: `ReceiveMapQuery`, `db/replica.cc`, and `TxtMapper::Read`,
`db/map/txt.hpp`. (`Verif.Model.Txt` has the reading on lists of ops.)
-/
namespace Ron.TextReplica
open Ron Commit TextChain

/-- What `ScanRGA` looks at in an op: the id, the reference, and the value if it is the only one and a UUID (`entry_type`,
`rdt/rga.hpp:113-125`). -/
def scanned (c : Cursor) : Option AOp :=
  match c.op with
  | id :: ref :: xs => some ⟨id, ref, (match xs with | [a] => if a.type = Atom.tUUID then [.uuid a] else [] | _ => []), .raw⟩
  | _ => none

/-- `.value.cp` of an atom that is parsed, `db/map/txt.hpp:25`; `junk` is the low half of the value word of an atom that is
not a string. -/
def cpVal (junk : Cursor.Val → Nat) : Cursor.Val → Nat
  | .char cp => cp
  | .str _ _ => 0
  | v => junk v

/-- `db/map/txt.hpp:22-28`: the loop; `tombs[pos]` past the end is undefined. -/
def walkText (junk : Cursor.Val → Nat) : List Bool → List Cursor → Out (List Byte)
  | _, [] => .ok []
  | [], _ :: _ => .ub
  | t :: ts, c :: cs =>
    if t then walkText junk ts cs
    else (c.atomVal 2).bind fun v => (walkText junk ts cs).bind fun r => .ok (utf8append (cpVal junk v) ++ r)

/-- `TxtMapper::Read`, `db/map/txt.hpp:15-28`, from the text of the state to the string. The ops are collected first, for the
scan and for the loop. The status of the scan is not looked at; what it leaves in `tombs` when it fails is as in
`Rga.txtRead`. -/
def readTxt (junk : Cursor.Val → Nat) (n : Nat) (state : List Byte) : Out (Option (List Byte)) :=
  (Cursor.iterate n (Cursor.init state)).bind fun r =>
    match r with
    | none => .ok none
    | some (l, _) =>
      match l.mapM scanned with
      | none => .ub
      | some ops =>
        match Rga.scan ops with
        | .ub => .ub
        | .ok flags => (walkText junk flags l).bind fun t => .ok (some t)
        | .bad _ =>
          match ops with
          | [] => .ok (some [])
          | o :: os =>
            (walkText junk (if o.ref ≠ Rga.RGA_UUID ∨ o.id.version ≠ Uuid.vTIME then []
              else Rga.tombsLeft (Rga.start o.id) os) l).bind fun t => .ok (some t)

/-- `Receive`, `ReceiveMapQuery` and `TxtMapper::Read`, `db/replica.cc:695-752` and `601-610`, `db/map/txt.hpp:10-32`, for a
frame of one query of a text: the status and the text of the response. `none`, too, if the frame is something else. -/
def askTxt (mx : MaxReducer) (junk : Cursor.Val → Nat) (fmt : Word → List Byte) (n : Nat) (s : TStore) (text : List Byte) :
    Out (Option (Status × List Byte)) :=
  (Cursor.init text).next.bind fun c =>
    match heading c.1 with
    | none => .ub
    | some o =>
      if o.id.version = Uuid.vDERIVED ∧ c.1.term = 3 ∧ uuid2form o.ref = Form.TXT then
        (read mx n s (Key.mk' o.id.event Form.RGA)).bind fun r =>
          match r with
          | none => .ok none
          | some r =>
            if ¬ r.1.ok then .ok (some (r.1, []))
            else
              (readTxt junk n r.2).bind fun t =>
                match t with
                | none => .ok none
                | some t =>
                  (Op.mk' o.id.event.derived (formUuid Form.TXT) [.str t]).bind fun op =>
                    (Builder.init.appendOp fmt op).bind fun b =>
                      c.1.next.bind fun e =>
                        if e.1.valid then .ok none
                        else b.release.bind fun x => .ok (some (Status.OK, x.1))
      else .ok none

end Ron.TextReplica
