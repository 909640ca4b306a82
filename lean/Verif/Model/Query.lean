import Verif.Model.Replica
/-!
Answers to queries: what `QueryObject` and `QueryObjectLog` put into the response
(`db/replica.cc:469-527`). Ops are copied into the response one by one; what copying does to their text
is the subject of C59.
-/
namespace Ron.Commit

/-- `QueryObject`, `db/replica.cc:472-490` (`mode_` is `CONSISTENT_MODE`): the status and the response. -/
def answerObject (env : Env) (c : Commit) (id form : Uuid) : Option (Status × Frame) :=
  (read env c (Key.ofUuids id form) []).map fun r => if r.1.ok then (Status.OK, r.2.1) else (r.1, [])

/-- `QueryObjectLog`, `db/replica.cc:503-527`: the status and the response. The cursor of an empty
record has no id: `none`. -/
def answerLog (env : Env) (c : Commit) (id : Uuid) : Option (Status × Frame) :=
  (findOpMeta env c id).bind fun m =>
    if ¬ m.1.ok then some (m.1, [])
    else
      (read env m.2.2 (Key.ofUuids m.2.1.object m.2.1.rdt) []).bind fun r =>
        if ¬ r.1.ok then some (r.1, [])
        else if id = m.2.1.object then some (Status.OK, r.2.1)
        else if r.2.1 = [] then none
        else
          let before := r.2.1.takeWhile fun p => decide (p.id ≠ id)
          some (if before.length < r.2.1.length then Status.OK else Status.NOT_FOUND, before)

end Ron.Commit
