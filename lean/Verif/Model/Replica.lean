import Verif.Model.Store
import Verif.Model.Clock
import Verif.Model.Scan
/-!
Op metadata, `ron/opmeta.hpp`, and transactions, `db/replica.hpp`, `db/replica.cc`.

A frame is the list of its ops. The main store of a branch is an instance of the storage engine:
its records are the merge operands written so far, `Engine` below. `none` is undefined behaviour or
a failed assertion.

Not modelled: the response text, branch creation and removal on disk, `GetMap`, `ReadVersion`,
`ReadPatch`, `WritePatch` (never called).
-/
namespace Ron

/-- The 32 bytes of a hash, `ron/hash.hpp:14-22`. -/
abbrev Digest := List Byte

/-- The hash functions, `ron/hash.hpp:32,40,92`: `OpMerkleHash`, `SHA2(Uuid)`, `base64`. The strings
that are hashed are the subject of `Verif.Model.HashStream`. -/
structure Hashing where
  op : AOp → Digest → Digest → Digest
  form : Uuid → Digest
  text : Digest → List Nat

/-- Name UUIDs, `ron/form.hpp:19-41`. -/
def formUuid (f : Form) : Uuid := ⟨BitVec.ofNat 64 (FORMS.getD f.toNat 0), 0#64⟩

/-- `Uuid::COMMENT`, `ron/uuid.cc:11`: `~`. -/
def COMMENT : Uuid := ⟨NEVER, 0#64⟩

/-- `NAME_UUID`, `db/replica.cc:11`: `name`. -/
def NAME_UUID : Uuid := ⟨BitVec.ofNat 64 (50 * 2 ^ 54 + 37 * 2 ^ 48 + 49 * 2 ^ 42 + 41 * 2 ^ 36), 0#64⟩

/-- `OpMeta`, `ron/opmeta.hpp:15-27`. -/
structure OpMeta where
  id : Uuid
  rdt : Uuid
  object : Uuid
  hash : Digest
  prev : Word
  chain : Word
  deriving DecidableEq, Repr

namespace OpMeta

/-- `OpMeta()`, `ron/opmeta.hpp:31-38`. -/
def nil : OpMeta := ⟨Uuid.NIL, Uuid.NIL, Uuid.NIL, List.replicate 32 0, 0#64, 0#64⟩

/-- `OpMeta(op, prev)`, `ron/opmeta.hpp:44-54`. -/
def root (hs : Hashing) (o : AOp) (prev : OpMeta) : Option OpMeta :=
  if o.id.version = Uuid.vTIME ∧ o.ref.version = Uuid.vNAME then
    some ⟨o.id, o.ref, o.id, hs.op o prev.hash (hs.form o.ref), prev.id.value, o.id.value⟩
  else none

/-- `is_next`, `ron/opmeta.hpp:56-60`. -/
def isNext (m : OpMeta) (o : AOp) : Bool :=
  decide (o.id.version = Uuid.vTIME) && decide (o.id.origin = m.id.origin) && Uuid.gt o.id m.id &&
    decide (o.ref = m.id)

/-- `is_check`, `ron/opmeta.hpp:62-65`. -/
def isCheck (m : OpMeta) (o : AOp) : Bool :=
  decide (o.id.version = Uuid.vNAME) && decide (o.ref = m.id)

/-- `Next`, `ron/opmeta.hpp:72-85`. -/
def next (hs : Hashing) (m : OpMeta) (o : AOp) (refd : OpMeta) : Option OpMeta :=
  if o.id.origin = m.id.origin ∧ Uuid.gt o.id m.id = true then
    some ⟨o.id, refd.rdt, refd.object, hs.op o m.hash refd.hash, m.id.value,
      if o.ref.origin ≠ o.id.origin ∨ m.id.value ≠ o.ref.value then o.id.value else m.chain⟩
  else none

/-- `Check`, `ron/opmeta.hpp:87-105`. -/
def check (o : AOp) : Status :=
  let f := uuid2form o.ref
  if f = Form.META ∨ f = Form.PREV ∨ f = Form.OBJ ∨ f = Form.SHA3 then Status.OK else Status.BADARGS

/-- `Save`, `ron/opmeta.hpp:107-110`, and `Release`. -/
def save (hs : Hashing) (m : OpMeta) : Frame :=
  [⟨m.id, formUuid Form.META, [.uuid m.object, .uuid m.rdt, .str (hs.text m.hash)], .raw⟩]

/-- `Load`, `ron/opmeta.hpp:112-131`. The hash is not restored. -/
def load (m : OpMeta) (o : AOp) : Status × OpMeta :=
  if o.ref ≠ formUuid Form.META then (Status.BADARGS, m)
  else
    match o.vals with
    | .uuid obj :: .uuid rdt :: _ => (Status.OK, ⟨o.id, rdt, obj, m.hash, NEVER, o.id.value⟩)
    | _ => (Status.BADSYNTAX, m)

end OpMeta

/-! ### The main store -/

namespace Engine

/-- The operands of a key. -/
def operands (s : MemStore) (k : Key) : List Frame := (s.filter fun r => decide (r.1 = k)).map Prod.snd

/-- `Read`, `db/rocks_store.cc:209-232`: the operands go through the merge operator. -/
def read (mg : Reducer) (s : MemStore) (k : Key) : Option (Status × Frame) :=
  if k = Key.END then some (Status.OK, [])
  else
    match operands s k with
    | [] => some (Status.OK, [])
    | fs => (mg k.form (withOps fs)).map fun r => if r.1.ok then (Status.OK, r.2) else (Status.DB_FAIL, [])

/-- `SeekTo(key, true)`, `key()`, `value()`, `db/rocks_store.cc:268-310`: the greatest key that is
not greater. -/
def seekPrev (mg : Reducer) (s : MemStore) (k : Key) : Option (Status × Key × Frame) :=
  match (s.filter fun r => !Key.lt k r.1).getLast? with
  | none => some (Status.OK, Key.END, [])
  | some r => (read mg s r.1).map fun v => (v.1, r.1, v.2)

/-- `Write(Key, const Frame&)`, `db/rocks_store.cc:194-206`. -/
def write (s : MemStore) (k : Key) (f : Frame) : Status × MemStore :=
  if k = Key.END ∧ f ≠ [] then (Status.BADARGS, s) else (Status.OK, MemStore.insert k f s)

/-- `Write(const Records&)`, `db/rocks_store.cc:235-248`. -/
def writeAll (s : MemStore) (rs : List (Key × Frame)) : MemStore :=
  rs.foldl (fun s r => MemStore.insert r.1 r.2 s) s

end Engine

/-- What a transaction depends on: the reducers, the hash functions, the wall clock and the origin
of the active store. -/
structure Env where
  mg : Reducer
  hs : Hashing
  wall : Word
  active : Word

/-- `Commit`, `db/replica.hpp:181-202`, with the replica's clock `host_.now_`. -/
structure Commit where
  main : MemStore
  mem : MemStore
  base : Uuid
  max : Uuid
  tip : Uuid
  now : Word
  deriving DecidableEq, Repr

/-- A cursor over a frame: the current op and the ones after it, the status that ends the
iteration, and whether `Next` was called at all (`ragel_state_`, `ron/text.hpp:69-94`). -/
structure ACur where
  ops : List AOp
  fin : Status
  started : Bool := true
  deriving DecidableEq, Repr

namespace ACur
/-- `valid()`. -/
def valid (c : ACur) : Bool := c.started && !c.ops.isEmpty
/-- `Next()`. -/
def next (c : ACur) : Status × ACur :=
  if ¬ c.started then (if c.ops.isEmpty then c.fin else Status.OK, { c with started := true })
  else
    match c.ops with
    | [] => (c.fin, c)
    | [_] => (c.fin, { c with ops := [] })
    | _ :: o :: os => (Status.OK, { c with ops := o :: os })
end ACur

namespace Commit

/-- `Commit(host, store)`, `db/replica.hpp:195-202`; `tip` is what the store has in `tip`. -/
def start (main : MemStore) (tip : Uuid) (now : Word) : Commit :=
  ⟨main, [], tip, Uuid.NIL, tip, now⟩

/-- `Replica::Open`, `db/replica.cc:43-61`, for one store: the tip is read from the record at the
zero key. `id` is the name of the store, `NIL` for the one that holds no branch. -/
def openTip (mg : Reducer) (main : MemStore) (id : Uuid) : Option (Status × Uuid) :=
  (Engine.read mg main Key.ZERO).map fun r =>
    if ¬ r.1.ok then (r.1, Uuid.NIL)
    else
      match r.2 with
      | [] => (Status.BADFRAME, Uuid.NIL)
      | o :: _ =>
        if o.id.origin ≠ id.origin ∧ id ≠ Uuid.NIL then (Status.BADFRAME, Uuid.NIL)
        else (Status.OK, o.id)

/-- `Replica::Now`, `db/replica.cc:179-186`. -/
def hostNow (env : Env) (c : Commit) : Uuid × Commit :=
  let origin := if c.base.origin = 0#64 then env.active else c.base.origin
  let r := clockNow c.now env.wall origin
  (r.2, { c with now := r.1 })

/-- `join_.Read`, `db/joined_store.hpp:30-43`. -/
def read (env : Env) (c : Commit) (k : Key) (into : Frame) : Option (Status × Frame × Commit) :=
  (Engine.read env.mg c.main k).bind fun a =>
    if ¬ a.1.ok then some (a.1, into, c)
    else
      (c.mem.read env.mg k []).bind fun b =>
        let c := { c with mem := b.2.2 }
        if ¬ b.1.ok then some (b.1, into, c)
        else if a.2 = [] then some (Status.OK, b.2.1, c)
        else if b.2.1 = [] then some (Status.OK, a.2, c)
        else
          (Joined.mergeGuess env.mg [a.2, b.2.1]).map fun r =>
            if r.1.ok then (Status.OK, r.2, c) else (r.1, into, c)

/-- `join_.Write`, `db/joined_store.hpp:25-28`. -/
def write (c : Commit) (k : Key) (f : Frame) : Status × Commit :=
  let w := c.mem.write k f
  (w.1, { c with mem := w.2 })

/-- `Iterator{join_}.SeekTo(key, true)` and `value()`, `db/joined_store.hpp:73-118`: the frame. A
failed merge returns a cursor over a destroyed temporary. -/
def seekPrev (env : Env) (c : Commit) (k : Key) : Option (Status × Frame) :=
  (Engine.seekPrev env.mg c.main k).bind fun a =>
    if ¬ a.1.ok then some (a.1, [])
    else
      let bi := MemStore.Iter.fresh.seekTo c.mem k true
      (bi.key c.mem).bind fun kb =>
      let ka := a.2.1
      let at_ := if ka = Key.END then kb else if kb = Key.END then ka else Joined.JIter.maxKey ka kb
      if ka ≠ at_ then (bi.value env.mg c.mem).map fun v => (Status.OK, v.1)
      else if kb ≠ at_ then some (Status.OK, a.2.2)
      else
        (bi.value env.mg c.mem).bind fun v =>
        (Joined.mergeGuess env.mg [a.2.2, v.1]).bind fun r =>
          if r.1.ok then some (Status.OK, r.2) else none

/-- `FindChainHeadMeta`, `db/replica.cc:251-267`. -/
def findChainHeadMeta (env : Env) (c : Commit) (id : Uuid) : Option (Status × OpMeta) :=
  (seekPrev env c (Key.mk' id Form.META)).map fun r =>
    if ¬ r.1.ok then (r.1, OpMeta.nil)
    else
      match r.2 with
      | [] => (Status.BAD_STATE, OpMeta.nil)
      | o :: _ =>
        if o.id.origin ≠ id.origin ∨ o.ref ≠ formUuid Form.META then (Status.NOT_FOUND, OpMeta.nil)
        else OpMeta.nil.load o

/-- The second loop of `FindOpMeta`, `db/replica.cc:228-248`, from the op after the head on. -/
def walkChain (hs : Hashing) (id : Uuid) : OpMeta → List AOp → Option (Status × OpMeta)
  | m, [] => if id.value = NEVER then some (Status.OK, m) else some (Status.NOT_FOUND, m)
  | m, o :: os =>
    if o.id.origin ≠ id.origin then walkChain hs id m os
    else if o.ref ≠ m.id then some (Status.NOT_FOUND, m)
    else
      (m.next hs o m).bind fun m =>
        if m.id = id then some (Status.OK, m) else walkChain hs id m os

/-- `FindOpMeta`, `db/replica.cc:209-249`. -/
def findOpMeta (env : Env) (c : Commit) (id : Uuid) : Option (Status × OpMeta × Commit) :=
  (findChainHeadMeta env c id).bind fun h =>
    if ¬ h.1.ok then some (h.1, h.2, c)
    else if h.2.id = id then some (Status.OK, h.2, c)
    else
      (read env c (Key.mk' h.2.object Form.LOG) []).bind fun l =>
        if ¬ l.1.ok then some (l.1, h.2, l.2.2)
        else
          match l.2.1.dropWhile fun o => decide (o.id ≠ h.2.id) with
          | [] => some (Status.NOT_FOUND, h.2, l.2.2)
          | _ :: os => (walkChain env.hs id h.2 os).map fun r => (r.1, r.2, l.2.2)

/-- `FindYarnTipMeta`, `db/replica.cc:269-273`. -/
def findYarnTipMeta (env : Env) (c : Commit) (yarn : Word) : Option (Status × OpMeta × Commit) :=
  findOpMeta env c ⟨NEVER, yarn⟩

/-- `CheckEventSanity`, `db/replica.cc:338-358`. -/
def checkEventSanity (o : AOp) : Status :=
  if o.id.version ≠ Uuid.vTIME then Status.BAD_STATE
  else if o.ref.version = Uuid.vTIME then
    if Uuid.ge o.ref o.id then Status.CAUSEBREAK else Status.OK
  else if o.ref.version ≠ Uuid.vNAME then Status.BAD_STATE
  else if uuid2form o.ref = Form.ZERO then Status.NOT_IMPLEMENTED
  else Status.OK

/-- What `SaveChainlet` works on. -/
structure Chainlet where
  c : Commit
  m : OpMeta
  to : ABuilder

/-- The loop of `SaveChainlet`, `db/replica.cc:305-335`, over the ops after the current one. -/
def chainletLoop (hs : Hashing) (fin : Status) : Chainlet → List AOp → Option (Status × Chainlet × List AOp)
  | s, [] => some (if fin.eq Status.ENDOFFRAME then Status.OK else fin, s, [])
  | s, o :: os =>
    if o.id = COMMENT then chainletLoop hs fin s os
    else if s.m.isNext o then
      if ¬ (checkEventSanity o).ok then some (checkEventSanity o, s, o :: os)
      else
        (s.m.next hs o s.m).bind fun m =>
          let s := { s with m := m, to := s.to.append o }
          if o.id.origin = s.c.base.origin then
            if Uuid.le o.id s.c.tip then some (Status.OK, s, o :: os)
            else chainletLoop hs fin { s with c := { s.c with tip := o.id } } os
          else
            chainletLoop hs fin
              { s with c := { s.c with max := if Uuid.lt s.c.max o.id then o.id else s.c.max } } os
    else if s.m.isCheck o then
      if ¬ (OpMeta.check o).ok then some (OpMeta.check o, s, o :: os) else chainletLoop hs fin s os
    else some (Status.OK, s, o :: os)

/-- `SaveChain`, `db/replica.cc:367-441`: finding the tip, lines 376-402. -/
def yarnTip (env : Env) (c : Commit) (o : AOp) : Option (Status × OpMeta × Commit) :=
  (findYarnTipMeta env c o.id.origin).bind fun t =>
    if o.ref = formUuid Form.YARN then
      if t.1.eq Status.NOT_FOUND then (OpMeta.root env.hs o OpMeta.nil).map fun m => (Status.OK, m, t.2.2)
      else if ¬ t.1.ok then some t
      else if o.id = t.2.1.id then some (Status.REPEAT, t.2.1, t.2.2)
      else some (Status.CONFLICT, t.2.1, t.2.2)
    else if ¬ t.1.ok then some t
    else if Uuid.ge t.2.1.id o.id then some (Status.CAUSEBREAK, t.2.1, t.2.2)
    else some (Status.OK, t.2.1, t.2.2)

/-- `SaveChain`, lines 404-420: the metadata of the first op of the chain. -/
def headMeta (env : Env) (c : Commit) (tip : OpMeta) (o : AOp) : Option (Status × OpMeta × Commit) :=
  if o.ref = tip.id then (tip.next env.hs o tip).map fun m => (Status.OK, m, c)
  else if o.ref.version = Uuid.vNAME then
    if uuid2form o.ref = Form.ERROR then some (Status.NOT_IMPLEMENTED, tip, c)
    else (OpMeta.root env.hs o tip).map fun m => (Status.OK, m, c)
  else
    (findOpMeta env c o.ref).bind fun r =>
      if ¬ r.1.ok then some (r.1, tip, r.2.2)
      else (tip.next env.hs o r.2.1).map fun m => (Status.OK, m, r.2.2)

/-- `SaveChain`, lines 422-441: the chain is walked and the records are written. -/
def storeChain (env : Env) (c : Commit) (m : OpMeta) (o : AOp) (os : List AOp) (fin : Status) :
    Option (Status × Commit × List AOp) :=
  let w := if o.ref ≠ m.id then c.write (Key.mk' o.id Form.META) (m.save env.hs) else (Status.OK, c)
  if ¬ w.1.ok then some (w.1, w.2, o :: os)
  else
    (chainletLoop env.hs fin ⟨w.2, m, ABuilder.empty.append o⟩ os).map fun s =>
      if ¬ s.1.ok then (s.1, s.2.1.c, s.2.2)
      else
        let seen := clockSee s.2.1.c.now s.2.1.m.id
        let c := { s.2.1.c with now := seen.1 }
        if ¬ seen.2.ok then (seen.2, c, s.2.2)
        else
          let data := s.2.1.to.release
          let w := c.write (Key.mk' s.2.1.m.object Form.LOG) data
          if ¬ w.1.ok then (w.1, w.2, s.2.2)
          else
            let w := w.2.write (Key.ofUuids s.2.1.m.object s.2.1.m.rdt) data
            if ¬ w.1.ok then (w.1, w.2, s.2.2)
            else (⟨s.2.1.m.id, []⟩, { w.2 with tip := s.2.1.m.id }, s.2.2)

/-- `SaveChain`, `db/replica.cc:367-441`. -/
def saveChain (env : Env) (c : Commit) (cur : ACur) : Option (Status × Commit × ACur) :=
  match cur.ops with
  | [] => none
  | o :: os =>
    if ¬ (checkEventSanity o).ok then some (checkEventSanity o, c, cur)
    else
      (yarnTip env c o).bind fun t =>
        if ¬ t.1.ok then some (t.1, t.2.2, cur)
        else
          (headMeta env t.2.2 t.2.1 o).bind fun h =>
            if ¬ h.1.ok then some (h.1, h.2.2, cur)
            else
              (storeChain env h.2.2 h.2.1 o os cur.fin).map fun r =>
                (r.1, r.2.1, { cur with ops := r.2.2 })

/-- `MAXSEQ`, `db/replica.cc:552`. -/
def MAXSEQ : Nat := 2 ^ 30

/-- The first loop of `WriteNewEvents`, `db/replica.cc:553-565`: `now.inc()` returns the next stamp
and does not change `now`. The values are kept here; what `Op::Amend` does to them is the subject of C68. -/
def stampAll (now : Uuid) : ABuilder → List AOp → ABuilder × List AOp
  | b, [] => (b, [])
  | b, o :: os =>
    if o.id.origin.payload ≠ 0 then (b, o :: os)
    else
      let ref := if o.ref.origin = 0#64 ∧ o.ref.value.toNat < MAXSEQ then
          (⟨now.value + o.ref.value, now.origin⟩ : Uuid) else o.ref
      stampAll now (b.append { o with id := now, ref := ref }) os

/-- The second loop of `WriteNewEvents`, `db/replica.cc:569-571`. -/
def saveAll (env : Env) : Nat → Commit → ACur → Option (Status × Commit)
  | 0, _, _ => none
  | fuel + 1, c, cur =>
    if ¬ cur.valid then some (Status.OK, c)
    else
      (saveChain env c cur).bind fun r =>
        if ¬ r.1.ok then some (r.1, r.2.1)
        else if r.2.2.valid then saveAll env fuel r.2.1 r.2.2 else some (r.1, r.2.1)

/-- `WriteNewEvents`, `db/replica.cc:548-573`. -/
def writeNewEvents (env : Env) (c : Commit) (cur : ACur) : Option (Status × Commit × ACur) :=
  let n := hostNow env c
  let s := if cur.valid then stampAll n.1 ABuilder.empty cur.ops else (ABuilder.empty, cur.ops)
  let stamped : ACur := ⟨(s.1.endChunk .raw).done, Status.ENDOFFRAME, false⟩
  (saveAll env (stamped.ops.length + 1) n.2 stamped).map fun r => (r.1, r.2, { cur with ops := s.2 })

/-- `WriteName(key, value)`, `db/replica.cc:146-155`: written to the main store at once. -/
def putName (env : Env) (c : Commit) (key value : Uuid) : Status × Commit :=
  let n := hostNow env c
  let w := Engine.write n.2.main (Key.mk' Uuid.NIL Form.LWW)
    [⟨n.1, Uuid.NIL, [.uuid key, .uuid value], .raw⟩]
  if w.1.ok then (⟨n.1, []⟩, { n.2 with main := w.2 }) else (w.1, { n.2 with main := w.2 })

/-- `WriteName(cmd)`, `db/replica.cc:643-659`. -/
def writeName (env : Env) (c : Commit) (cur : ACur) : Option (Status × Commit × ACur) :=
  match cur.ops with
  | [] => none
  | o :: os =>
    match o.vals with
    | .uuid tag :: _ =>
      if tag.version ≠ Uuid.vNAME then some (Status.BADARGS, c, cur)
      else
        let w := putName env c tag c.tip
        some (w.1, w.2, { cur with ops := os })
    | _ => some (Status.BADARGS, c, cur)

/-- `TxtMapper::Write`, `db/map/txt.hpp:153-174`, `WriteState`, lines 110-126, `WriteDiffs`, lines
61-95. The two texts compared are both empty (`RGA2Codepoints` and the reading of the new text do
nothing), it is assumed that the diff is then empty too. `BADARGS` stands for `NOT_IMPLEMENTED`
too. -/
def txtWrite (env : Env) (c : Commit) (cur : ACur) : Option (Status × Commit × ACur) :=
  match cur.ops with
  | [] => none
  | o :: os =>
    match o.vals with
    | .str _ :: _ =>
      (read env c (Key.mk' o.id Form.RGA) []).bind fun r =>
        if ¬ r.1.ok then some (r.1, r.2.2, cur)
        else
          match Rga.scan r.2.1 with
          | .ub => none
          | .bad e => some (e, r.2.2, cur)
          | .ok _ =>
            let n := hostNow env r.2.2
            (writeNewEvents env { n.2 with tip := n.1 } ⟨[], Status.ENDOFFRAME, false⟩).map fun w =>
              (w.1, w.2.1, { cur with ops := os })
    | _ => some (Status.BADARGS, c, cur)

/-- `ReceiveWrites`, `db/replica.cc:575-599`. -/
def receiveWrites (env : Env) (c : Commit) (cur : ACur) : Option (Status × Commit × ACur) :=
  match cur.ops with
  | [] => none
  | o :: _ =>
    if o.ref.version = Uuid.vTIME then writeNewEvents env c cur
    else if o.ref.version ≠ Uuid.vNAME then some (Status.BADARGS, c, cur)
    else
      let f := uuid2form o.ref
      if f = Form.LWW ∨ f = Form.RGA ∨ f = Form.MX ∨ f = Form.YARN then writeNewEvents env c cur
      else if f = Form.TXT then txtWrite env c cur
      else some (Status.NOT_IMPLEMENTED, c, cur)

/-- `QueryObject`, `db/replica.cc:472-490` (`mode_` is `CONSISTENT_MODE`). -/
def queryObject (env : Env) (c : Commit) (o : AOp) (cur : ACur) : Option (Status × Commit × ACur) :=
  (read env c (Key.ofUuids o.id o.ref) []).map fun r =>
    if ¬ r.1.ok then (r.1, r.2.2, cur) else (Status.OK, r.2.2, cur.next.2)

/-- `QueryObjectLog`, `db/replica.cc:503-527`. An op that is not in the log is always reported as
such (the code looks at what an exhausted cursor still holds). -/
def queryObjectLog (env : Env) (c : Commit) (o : AOp) (cur : ACur) : Option (Status × Commit × ACur) :=
  let cur := cur.next.2
  (findOpMeta env c o.id).bind fun m =>
    if ¬ m.1.ok then some (m.1, m.2.2, cur)
    else
      (read env m.2.2 (Key.ofUuids m.2.1.object m.2.1.rdt) []).bind fun r =>
        if ¬ r.1.ok then some (r.1, r.2.2, cur)
        else if o.id = m.2.1.object then some (Status.OK, r.2.2, cur)
        else if r.2.1 = [] then none
        else if r.2.1.any fun p => decide (p.id = o.id) then some (Status.OK, r.2.2, cur)
        else some (Status.NOT_FOUND, r.2.2, cur)

/-- `ReceiveQuery`, `db/replica.cc:625-642`. -/
def receiveQuery (env : Env) (c : Commit) (cur : ACur) : Option (Status × Commit × ACur) :=
  match cur.ops with
  | [] => none
  | o :: _ =>
    let f := uuid2form o.ref
    if f = Form.LWW ∨ f = Form.RGA ∨ f = Form.MX ∨ f = Form.YARN then queryObject env c o cur
    else if f = Form.LOG then queryObjectLog env c o cur
    else some (Status.NOT_IMPLEMENTED, c, cur)

/-- `PeekTerm`, `db/replica.cc:685-693`. -/
def peekTerm : List AOp → Term
  | o :: os => if o.term ≠ .reduced then o.term else
    match os with
    | [] => .reduced
    | p :: _ => p.term
  | [] => .reduced

/-- `ReceiveMapQuery`, `db/replica.cc:601-611`, and `TxtMapper::Read` but for the text
(`Verif.Model.Txt`). -/
def receiveMapQuery (env : Env) (c : Commit) (cur : ACur) : Option (Status × Commit × ACur) :=
  match cur.ops with
  | [] => none
  | o :: _ =>
    if uuid2form o.ref = Form.TXT then
      (read env c (Key.mk' o.id.event Form.RGA) []).map fun r =>
        if ¬ r.1.ok then (r.1, r.2.2, cur) else (Status.OK, r.2.2, cur.next.2)
    else some (Status.NOT_IMPLEMENTED, c, cur)

/-- `ReceiveMapWrites`, `db/replica.cc:613-623`. -/
def receiveMapWrites (env : Env) (c : Commit) (cur : ACur) : Option (Status × Commit × ACur) :=
  match cur.ops with
  | [] => none
  | o :: _ =>
    if uuid2form o.ref = Form.TXT then txtWrite env c cur else some (Status.NOT_IMPLEMENTED, c, cur)

/-- One turn of the loop of `Receive`, `db/replica.cc:707-742`. -/
def dispatch (env : Env) (c : Commit) (cur : ACur) : Option (Status × Commit × ACur) :=
  match cur.ops with
  | [] => none
  | o :: _ =>
    if o.id.version = Uuid.vTIME then
      if o.term = .query then receiveQuery env c cur
      else if o.id.origin.payload ≠ 0 then saveChain env c cur
      else receiveWrites env c cur
    else if o.id.version = Uuid.vDERIVED then
      if peekTerm cur.ops = .query then receiveMapQuery env c cur else receiveMapWrites env c cur
    else if o.id.version = Uuid.vNAME then
      if o.id = COMMENT then
        let n := cur.next
        some (n.1, c, n.2)
      else if o.id = NAME_UUID then writeName env c cur
      else some (Status.BADVALUE, c, cur)
    else some (Status.NOT_IMPLEMENTED, c, cur)

/-- The loop of `Receive`. -/
def receiveLoop (env : Env) : Nat → Commit → ACur → Option (Status × Commit)
  | 0, _, _ => none
  | fuel + 1, c, cur =>
    if ¬ cur.valid then some (Status.OK, c)
    else
      (dispatch env c cur).bind fun r =>
        if ¬ r.1.ok then some (r.1, r.2.1)
        else if r.2.2.valid then receiveLoop env fuel r.2.1 r.2.2 else some (r.1, r.2.1)

/-- `Save`, `db/replica.cc:661-683`: the status and the main store afterwards. -/
def save (c : Commit) : Status × Commit :=
  if c.tip = c.base then (Status.OK, c)
  else if c.base ≠ Uuid.NIL ∧ c.tip.origin ≠ c.base.origin then (Status.BAD_STATE, c)
  else if Uuid.lt c.tip c.base then (Status.BAD_STATE, c)
  else
    let w := c.mem.write Key.ZERO [⟨c.tip, formUuid Form.ZERO, [], .raw⟩]
    if ¬ w.1.ok then (w.1, { c with mem := w.2 })
    else
      (Status.OK, { c with
        main := Engine.writeAll c.main w.2, mem := [], base := Uuid.NIL, tip := Uuid.NIL })

/-- `Replica::Receive`, `db/replica.cc:695-752`, for an open branch: the cursor is on the first op.
The commit goes away afterwards; what remains is the main store and the clock. -/
def receive (env : Env) (main : MemStore) (tip : Uuid) (now : Word) (cur : ACur) :
    Option (Status × MemStore × Word) :=
  (receiveLoop env (cur.ops.length + 1) (start main tip now) cur).map fun r =>
    if ¬ r.1.ok then (r.1, r.2.main, r.2.now)
    else
      let s := save r.2
      (s.1, s.2.main, s.2.now)

end Commit
end Ron
