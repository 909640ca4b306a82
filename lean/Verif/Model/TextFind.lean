import Verif.Model.Compare
import Verif.Model.TextChain
/-!
Looking up an event, as text: the records of metadata, `ron/opmeta.hpp:107-131`, and `FindOpMeta`,
`db/replica.cc:209-267`, with text cursors.
(`Verif.Model.Replica` has the same code on lists of ops.)
-/
namespace Ron.TextFind
open Ron Commit TextChain

/-- `OpMeta::Save`, `ron/opmeta.hpp:107-110`, and `Release`; `note` is the hash in base64. There are no floats. -/
def saveMeta (note : List Byte) (m : OpMeta) : Out (List Byte) :=
  (Op.mk' m.id (formUuid Form.META) [.uuid m.object, .uuid m.rdt, .str note]).bind fun o =>
    (Builder.init.appendOp (fun _ => []) o).bind fun b => b.release.bind fun r => .ok r.1

/-- `HasValue(cur, UUID, i)`, `ron/frames.hpp:167-171`, and the value. -/
def uuidAt (c : Cursor) (i : Nat) : Option Uuid :=
  match c.op[i]? with
  | some a => if a.type = Atom.tUUID then some a else none
  | none => none

/-- `OpMeta::Load`, `ron/opmeta.hpp:112-131`. -/
def loadMeta (m : OpMeta) (c : Cursor) (o : AOp) : Status × OpMeta :=
  let m := { m with id := o.id, chain := o.id.value, prev := NEVER }
  if o.ref ≠ formUuid Form.META then (Status.BADARGS, m)
  else
    match uuidAt c 2 with
    | none => (Status.BADSYNTAX, m)
    | some obj =>
      match uuidAt c 3 with
      | none => (Status.BADSYNTAX, { m with object := obj })
      | some rdt => (Status.OK, { m with object := obj, rdt := rdt })

/-- `FindChainHeadMeta`, `db/replica.cc:258-266`, once the record is found. -/
def headOf (id : Uuid) (record : List Byte) : Out (Status × OpMeta) :=
  (Cursor.init record).next.bind fun r =>
    if r.2 ≠ .ok then .ok (Status.BAD_STATE, OpMeta.nil)
    else
      match heading r.1 with
      | none => .ub
      | some o =>
        if o.id.origin ≠ id.origin ∨ o.ref ≠ formUuid Form.META then .ok (Status.NOT_FOUND, OpMeta.nil)
        else .ok (loadMeta OpMeta.nil r.1 o)

/-- `while (cur.valid() && cur.id() != meta.id) cur.Next()`, `db/replica.cc:222-224`. -/
def seekHead (head : Uuid) : Nat → Cursor → Out (Option Cursor)
  | 0, _ => .ok none
  | n + 1, c =>
    if c.valid then
      match c.id with
      | none => .ub
      | some i => if i ≠ head then c.next.bind fun r => seekHead head n r.1 else .ok (some c)
    else .ok (some c)

/-- The loop of `FindOpMeta` and what follows, `db/replica.cc:228-248`; `hash` is `OpMerkleHash`. -/
def walkLog (hash : Cursor → Digest → Digest → Digest) (id : Uuid) : Nat → OpMeta → Cursor →
    Out (Option (Status × OpMeta))
  | 0, _, _ => .ok none
  | n + 1, m, c =>
    c.next.bind fun r =>
      if r.2 ≠ .ok then
        .ok (some (if r.1.valid then Status.OK else if id.value = NEVER then Status.OK else Status.NOT_FOUND, m))
      else
        match heading r.1 with
        | none => .ub
        | some o =>
          if o.id.origin ≠ id.origin then walkLog hash id n m r.1
          else if o.ref ≠ m.id then .ok (some (Status.NOT_FOUND, m))
          else
            (nextMeta hash m r.1 o).bind fun m =>
              if m.id = id then
                .ok (some (if r.1.valid then Status.OK else if id.value = NEVER then Status.OK else Status.NOT_FOUND, m))
              else walkLog hash id n m r.1

/-- `FindOpMeta`, `db/replica.cc:219-248`, once the log is read; `m` is the metadata of the head. -/
def findInLog (hash : Cursor → Digest → Digest → Digest) (n : Nat) (m : OpMeta) (id : Uuid) (log : List Byte) :
    Out (Option (Status × OpMeta)) :=
  (Cursor.init log).next.bind fun r =>
    (seekHead m.id n r.1).bind fun c =>
      match c with
      | none => .ok none
      | some c => if c.valid then walkLog hash id n m c else .ok (some (Status.NOT_FOUND, m))

/-- `FindOpMeta`, `db/replica.cc:209-249`. `record` is the value of the key of metadata at which the search for `id`
stops, `log` reads the log of an object. -/
def findOpMeta (hash : Cursor → Digest → Digest → Digest) (n : Nat) (record : List Byte)
    (log : Uuid → Status × List Byte) (id : Uuid) : Out (Option (Status × OpMeta)) :=
  (headOf id record).bind fun h =>
    if ¬ h.1.ok then .ok (some h)
    else if h.2.id = id then .ok (some (Status.OK, h.2))
    else if ¬ (log h.2.object).1.ok then .ok (some ((log h.2.object).1, h.2))
    else findInLog hash n h.2 id (log h.2.object).2

end Ron.TextFind
