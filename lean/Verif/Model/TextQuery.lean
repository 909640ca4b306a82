import Verif.Model.TextReceive
/-!
Queries of objects, answered by a store of texts: `Receive`, `ReceiveQuery`, `QueryObject`, `db/replica.cc`.
(`Verif.Model.Query` has the same code on lists of ops.)
-/
namespace Ron.TextReplica
open Ron Commit TextChain

/-- The forms of `ReceiveQuery` that go to `QueryObject`, `db/replica.cc:629-633`. -/
def objectForms : List Form := [Form.LWW, Form.RGA, Form.MX, Form.YARN]

/-- What came of the queries: a status and the response; or there was an op of another kind, which is not modelled here
(a query of another form, a write, a chain, an annotation). -/
inductive Answer where
  | done (st : Status) (resp : Builder)
  | other

/-- `QueryObject`, `db/replica.cc:472-490`, `KEEP_STATES`: the state is read and `AppendFrame` puts it into the response,
which is left as it was if the reading fails. The transaction has no records. -/
def queryObject (mx : MaxReducer) (n : Nat) (s : TStore) (resp : Builder) (id ref : Uuid) : Out (Option (Status × Builder)) :=
  (read mx n s (Key.ofUuids id ref)).bind fun r =>
    match r with
    | none => .ok none
    | some r =>
      if ¬ r.1.ok then .ok (some (r.1, resp))
      else
        (resp.appendFrame n r.2).bind fun b =>
          match b with
          | none => .ok none
          | some b => .ok (some (Status.OK, b))

/-- The loop of `Receive`, `db/replica.cc:707-743`, with `ReceiveQuery`, lines 625-642: while the cursor is valid and the
last query was answered. Nothing was written, so `Save` leaves the store as it is (line 658). -/
def answerLoop (mx : MaxReducer) (n : Nat) (s : TStore) : Nat → Builder → Cursor → Out (Option Answer)
  | 0, _, _ => .ok none
  | k + 1, resp, c =>
    if ¬ c.valid then .ok (some (.done Status.OK resp))
    else
      match heading c with
      | none => .ub
      | some o =>
        if o.id.version = Uuid.vTIME ∧ c.term = 3 ∧ uuid2form o.ref ∈ objectForms then
          (queryObject mx n s resp o.id o.ref).bind fun r =>
            match r with
            | none => .ok none
            | some (st, resp) =>
              if ¬ st.ok then .ok (some (.done st resp))
              else c.next.bind fun p => answerLoop mx n s k resp p.1
        else .ok (some .other)

/-- `Replica::Receive`, `db/replica.cc:695-752`, for a frame of queries: the status and the text of the response. -/
def ask (mx : MaxReducer) (n : Nat) (s : TStore) (text : List Byte) : Out (Option (Status × List Byte)) :=
  (Cursor.init text).next.bind fun r =>
    (answerLoop mx n s n Builder.init r.1).bind fun a =>
      match a with
      | some (.done st resp) => resp.release.bind fun t => .ok (some (st, t.1))
      | _ => .ok none

end Ron.TextReplica
