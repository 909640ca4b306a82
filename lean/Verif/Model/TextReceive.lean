import Verif.Model.TextReplica
/-!
A replica that receives a frame of one chain, as text: `SaveChain`, `Save` and `Receive`, `db/replica.cc`, with a store
of texts. (`Verif.Model.Replica` has the same code on lists of ops, and all the other frames.)
-/
namespace Ron.TextReplica
open Ron Commit TextChain TextFind

/-- What a replica is given: the reducer of `max`, the hash of an op after the hashes of the op before it and of the op
it refers to (`OpMerkleHash`), the hash of a type (`OpMeta(op, prev)`, `ron/opmeta.hpp:44-54`), and a hash in base64. -/
structure World where
  mx : MaxReducer
  hash : Cursor → Digest → Digest → Digest
  form : Uuid → Digest
  note : Digest → List Byte

/-- The hashes of the op at the cursor, for the functions of `OpMeta`. -/
def World.here (w : World) (c : Cursor) : Hashing := ⟨fun _ => w.hash c, w.form, fun _ => []⟩

/-- A failed `assert` ends the program. -/
def asserted : Option OpMeta → Out (Option (Status × OpMeta))
  | none => .abort
  | some m => .ok (some (Status.OK, m))

/-- `SaveChain`, `db/replica.cc:376-402`: the tip of the yarn. `o` is `heading c`. -/
def yarnTip (w : World) (n : Nat) (s : TStore) (c : Cursor) (o : AOp) : Out (Option (Status × OpMeta)) :=
  (findYarnTipMeta w.mx w.hash n s o.id.origin).bind fun t =>
    match t with
    | none => .ok none
    | some t =>
      if o.ref = formUuid Form.YARN then
        if t.1.eq Status.NOT_FOUND then asserted (OpMeta.root (w.here c) o OpMeta.nil)
        else if ¬ t.1.ok then .ok (some t)
        else if o.id = t.2.id then .ok (some (Status.REPEAT, t.2))
        else .ok (some (Status.CONFLICT, t.2))
      else if ¬ t.1.ok then .ok (some t)
      else if Uuid.ge t.2.id o.id then .ok (some (Status.CAUSEBREAK, t.2))
      else .ok (some (Status.OK, t.2))

/-- `SaveChain`, `db/replica.cc:404-420`: the metadata of the first op of the chain. -/
def headMeta (w : World) (n : Nat) (s : TStore) (c : Cursor) (tip : OpMeta) (o : AOp) : Out (Option (Status × OpMeta)) :=
  if o.ref = tip.id then asserted (tip.next (w.here c) o tip)
  else if o.ref.version = Uuid.vNAME then
    if uuid2form o.ref = Form.ERROR then .ok (some (Status.NOT_IMPLEMENTED, tip))
    else asserted (OpMeta.root (w.here c) o tip)
  else
    (findOpMeta w.mx w.hash n s o.ref).bind fun r =>
      match r with
      | none => .ok none
      | some r => if ¬ r.1.ok then .ok (some (r.1, tip)) else asserted (tip.next (w.here c) o r.2)

/-- `SaveChain`, `db/replica.cc:369-420`: is the chain taken, and the metadata of its first op. -/
def chainMeta (w : World) (n : Nat) (s : TStore) (c : Cursor) (o : AOp) : Out (Option (Status × OpMeta)) :=
  if ¬ (checkEventSanity o).ok then .ok (some (checkEventSanity o, OpMeta.nil))
  else
    (yarnTip w n s c o).bind fun t =>
      match t with
      | none => .ok none
      | some t => if ¬ t.1.ok then .ok (some t) else headMeta w n s c t.2 o

/-- `OneOp(id, ref)`, `ron/frames.hpp:87-93`. There are no floats. -/
def oneOp (id ref : Uuid) : Out (List Byte) :=
  (Op.mk' id ref []).bind fun o =>
    (Builder.init.appendOp (fun _ => []) o).bind fun b => b.release.bind fun r => .ok r.1

/-- `Write` of the transaction, `db/mem_store.hpp:158-164`. -/
def put (k : Key) (t : List Byte) (mem : TStore) : Status × TStore :=
  if k = Key.END then (Status.BADARGS, mem) else (Status.OK, insert k t mem)

/-- What is there after a chain: the records of the transaction, the tip, the clock, the cursor. -/
structure Stage where
  mem : TStore
  tip : Uuid
  now : Word
  cur : Cursor

/-- `SaveChain`, `db/replica.cc:422-441`: the chain is walked and the records are written. The transaction was empty, it
began with the tip of the branch (`base_` and `tip_`, `db/replica.hpp:195-202`). -/
def storeChain (w : World) (n : Nat) (m : OpMeta) (c : Cursor) (o : AOp) (tip : Uuid) (now : Word) :
    Out (Option (Status × Stage)) :=
  (if o.ref ≠ m.id then (saveMeta (w.note m.hash) m).bind fun t => .ok (put (Key.mk' o.id Form.META) t [])
    else .ok (Status.OK, [])).bind fun p =>
  if ¬ p.1.ok then .ok (some (p.1, ⟨p.2, tip, now, c⟩))
  else
    (chainRecord w.hash n ⟨m, tip, tip, Uuid.NIL⟩ c).bind fun r =>
      match r with
      | none => .ok none
      | some (st, data, v, c) =>
        if ¬ st.ok then .ok (some (st, ⟨p.2, v.tip, now, c⟩))
        else
          let seen := clockSee now v.m.id
          if ¬ seen.2.ok then .ok (some (seen.2, ⟨p.2, v.tip, seen.1, c⟩))
          else
            let q := put (Key.mk' v.m.object Form.LOG) data p.2
            if ¬ q.1.ok then .ok (some (q.1, ⟨q.2, v.tip, seen.1, c⟩))
            else
              let q := put (Key.ofUuids v.m.object v.m.rdt) data q.2
              if ¬ q.1.ok then .ok (some (q.1, ⟨q.2, v.tip, seen.1, c⟩))
              else .ok (some (⟨v.m.id, []⟩, ⟨q.2, v.m.id, seen.1, c⟩))

/-- `Write(const Records&)`, `db/rocks_store.cc:235-248`. -/
def writeAll (s : TStore) (rs : TStore) : TStore := rs.foldl (fun s r => insert r.1 r.2 s) s

/-- `Save`, `db/replica.cc:661-683`: the status and the store afterwards. -/
def save (s mem : TStore) (base tip : Uuid) : Out (Status × TStore) :=
  if tip = base then .ok (Status.OK, s)
  else if base ≠ Uuid.NIL ∧ tip.origin ≠ base.origin then .ok (Status.BAD_STATE, s)
  else if Uuid.lt tip base then .ok (Status.BAD_STATE, s)
  else
    (oneOp tip (formUuid Form.ZERO)).bind fun t =>
      let q := put Key.ZERO t mem
      if ¬ q.1.ok then .ok (q.1, s) else .ok (Status.OK, writeAll s q.2)

/-- What came of a frame: a status, the store and the clock; or the frame is of another kind, which is not modelled here
(there is another chain in it, a query, an op to be stamped, an annotation). -/
inductive Reply where
  | done (st : Status) (s : TStore) (now : Word)
  | other
  deriving DecidableEq

/-- `Replica::Receive`, `db/replica.cc:695-752`, for an open branch with this tip and a frame of one chain. -/
def receive (w : World) (n : Nat) (s : TStore) (tip : Uuid) (now : Word) (text : List Byte) : Out (Option Reply) :=
  (Cursor.init text).next.bind fun r =>
    if ¬ r.1.valid then .ok (some (.done Status.OK s now))
    else
      match heading r.1 with
      | none => .ub
      | some o =>
        if o.id.version = Uuid.vTIME ∧ r.1.term ≠ 3 ∧ o.id.origin.payload ≠ 0 then
          (chainMeta w n s r.1 o).bind fun m =>
            match m with
            | none => .ok none
            | some m =>
              if ¬ m.1.ok then .ok (some (.done m.1 s now))
              else
                (storeChain w n m.2 r.1 o tip now).bind fun x =>
                  match x with
                  | none => .ok none
                  | some (st, g) =>
                    if ¬ st.ok then .ok (some (.done st s g.now))
                    else if g.cur.valid then .ok (some .other)
                    else (save s g.mem tip g.tip).bind fun q => .ok (some (.done q.1 q.2 g.now))
        else .ok (some .other)

end Ron.TextReplica
