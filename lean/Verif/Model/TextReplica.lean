import Verif.Model.TextFind
import Verif.Model.TextMerge
/-!
A store of texts: `Read` and the iterator of the database, `db/rocks_store.cc`, and `FindOpMeta`, `db/replica.cc`.
(`Verif.Model.Replica` has the same code on lists of ops.)
-/
namespace Ron.TextReplica
open Ron Commit TextChain TextFind

/-- The records: a key and the text that was written. -/
abbrev TStore := List (Key × List Byte)

/-- A reducer of `max`, which the merges take. -/
abbrev MaxReducer := Builder → List Cursor → Out (Option (Builder × Status))

/-- A record is put after the records with the same key: `Merge`, `db/rocks_store.cc:204`, `multimap::insert`,
`db/mem_store.hpp:161`. -/
def insert (k : Key) (t : List Byte) : TStore → TStore
  | [] => [(k, t)]
  | r :: s => if Key.lt k r.1 then (k, t) :: r :: s else r :: insert k t s

/-- The operands of a key. -/
def operands (s : TStore) (k : Key) : List (List Byte) := (s.filter fun r => decide (r.1 = k)).map Prod.snd

/-- `Read`, `db/rocks_store.cc:209-232`, with `FullMergeV2`, lines 59-84: the operands go through the merge operator.
`n` bounds the loops. -/
def read (mx : MaxReducer) (n : Nat) (s : TStore) (k : Key) : Out (Option (Status × List Byte)) :=
  if k = Key.END then .ok (some (Status.OK, []))
  else
    match operands s k with
    | [] => .ok (some (Status.OK, []))
    | fs =>
      (TextMerge.firsts fs).bind fun cs =>
        (TextMerge.mergeCursors mx n k.form cs).bind fun r =>
          match r with
          | none => .ok none
          | some r => .ok (some (if r.1.ok then (Status.OK, r.2) else (Status.DB_FAIL, [])))

/-- `SeekTo(key, true)` and `value()`, `db/rocks_store.cc:268-310`: the value of the greatest key that is not greater. -/
def seekPrev (mx : MaxReducer) (n : Nat) (s : TStore) (k : Key) : Out (Option (Status × List Byte)) :=
  match (s.filter fun r => !Key.lt k r.1).getLast? with
  | none => .ok (some (Status.OK, []))
  | some r => read mx n s r.1

/-- `FindOpMeta`, `db/replica.cc:209-249`, with `FindChainHeadMeta`, lines 251-267. The transaction has no records yet,
so the joined store gives what the database gives (`db/joined_store.hpp:30-43,73-118`). -/
def findOpMeta (mx : MaxReducer) (hash : Cursor → Digest → Digest → Digest) (n : Nat) (s : TStore) (id : Uuid) :
    Out (Option (Status × OpMeta)) :=
  (seekPrev mx n s (Key.mk' id Form.META)).bind fun r =>
    match r with
    | none => .ok none
    | some r =>
      if ¬ r.1.ok then .ok (some (r.1, OpMeta.nil))
      else
        (headOf id r.2).bind fun h =>
          if ¬ h.1.ok then .ok (some h)
          else if h.2.id = id then .ok (some (Status.OK, h.2))
          else
            (read mx n s (Key.mk' h.2.object Form.LOG)).bind fun l =>
              match l with
              | none => .ok none
              | some l => if ¬ l.1.ok then .ok (some (l.1, h.2)) else findInLog hash n h.2 id l.2

/-- `FindYarnTipMeta`, `db/replica.cc:269-273`. -/
def findYarnTipMeta (mx : MaxReducer) (hash : Cursor → Digest → Digest → Digest) (n : Nat) (s : TStore) (yarn : Word) :
    Out (Option (Status × OpMeta)) := findOpMeta mx hash n s ⟨NEVER, yarn⟩

end Ron.TextReplica
