import Verif.Model.TextQuery
/-!
Queries of the logs of objects, answered by a store of texts: `QueryObjectLog`, `db/replica.cc`. (`Verif.Model.Query` has the
same code on lists of ops.)
-/
namespace Ron.TextReplica
open Ron Commit TextChain

/-- The loop of `QueryObjectLog`, `db/replica.cc:521-523`: `while (c.Next() && c.id() != id) response.AppendOp(c)`. -/
def copyUntil (id : Uuid) : Nat → Builder → Cursor → Out (Option (Builder × Cursor))
  | 0, _, _ => .ok none
  | n + 1, b, c =>
    c.next.bind fun r =>
      if r.2 ≠ .ok then .ok (some (b, r.1))
      else
        match r.1.id with
        | none => .ub
        | some i =>
          if i = id then .ok (some (b, r.1))
          else (b.appendCursor r.1).bind fun b => copyUntil id n b r.1

/-- `QueryObjectLog`, `db/replica.cc:503-527`: the op is looked up, and the record of the object's *state* is read (line 508,
`logkey` has the type of the object, not the form of logs). Asked for the object itself, the whole state is the answer; else
the ops that stand before the op, and the status says if the op was met. (An id of a cursor without an op is undefined.) -/
def queryObjectLog (mx : MaxReducer) (hash : Cursor → Digest → Digest → Digest) (n : Nat) (s : TStore) (resp : Builder)
    (id : Uuid) : Out (Option (Status × Builder)) :=
  (findOpMeta mx hash n s id).bind fun m =>
    match m with
    | none => .ok none
    | some m =>
      if ¬ m.1.ok then .ok (some (m.1, resp))
      else
        (read mx n s (Key.ofUuids m.2.object m.2.rdt)).bind fun r =>
          match r with
          | none => .ok none
          | some r =>
            if ¬ r.1.ok then .ok (some (r.1, resp))
            else if id = m.2.object then
              (resp.appendFrame n r.2).bind fun b =>
                match b with
                | none => .ok none
                | some b => .ok (some (Status.OK, b))
            else
              (copyUntil id n resp (Cursor.init r.2)).bind fun p =>
                match p with
                | none => .ok none
                | some p =>
                  match p.2.id with
                  | none => .ub
                  | some i => .ok (some (if i = id then Status.OK else Status.NOT_FOUND, p.1))

/-- `Receive` and `ReceiveQuery`, `db/replica.cc:695-752` and `625-642`, for a frame of one query of a log: the status and
the text of the response. `none`, too, if the frame is something else. -/
def askLog (mx : MaxReducer) (hash : Cursor → Digest → Digest → Digest) (n : Nat) (s : TStore) (text : List Byte) :
    Out (Option (Status × List Byte)) :=
  (Cursor.init text).next.bind fun c =>
    match heading c.1 with
    | none => .ub
    | some o =>
      if o.id.version = Uuid.vTIME ∧ c.1.term = 3 ∧ uuid2form o.ref = Form.LOG then
        c.1.next.bind fun e =>
          if e.1.valid then .ok none
          else
            (queryObjectLog mx hash n s Builder.init o.id).bind fun r =>
              match r with
              | none => .ok none
              | some (st, resp) => resp.release.bind fun t => .ok (some (st, t.1))
      else .ok none

end Ron.TextReplica
