import Verif.Model.Cli
/-!
The command `dump`, `db/main.cc:305-335`: what it prints.
-/
namespace Ron.Cli
open Host

/-- `value()` of an iterator that stands at the key `k`, and the status of the iterator, `db/rocks_store.cc:276-297`: the
operands go through the merge operator. -/
def valueAt (mg : Reducer) (s : MemStore) (k : Key) : Option (Status × Frame) :=
  (mg k.form (withOps (Engine.operands s k))).map fun r => if r.1.ok then (Status.OK, r.2) else (Status.DB_FAIL, [])

/-- The loop, `db/main.cc:327-329`, over the keys that the iterator will come to: `Next` is not OK at the end and when
the record can not be merged. -/
def dumpLoop (mg : Reducer) (s : MemStore) : List Key → Option (List (Key × Frame))
  | [] => some []
  | k :: ks =>
    (valueAt mg s k).bind fun r =>
      if ¬ r.1.ok then some [] else (dumpLoop mg s ks).map fun l => (k, r.2) :: l

/-- `StoreIterator`, `SeekTo(Key{})` and the loop, `db/main.cc:325-331`. `Next` of an iterator that is not valid is
undefined (no records). -/
def dumpStore (mg : Reducer) (s : MemStore) : Option (Status × List (Key × Frame)) :=
  match keys s with
  | [] => none
  | k :: ks =>
    (valueAt mg s k).bind fun r =>
      if ¬ r.1.ok then some (r.1, []) else (dumpLoop mg s ks).map fun l => (Status.OK, (k, r.2) :: l)

/-- `CommandDump`, `db/main.cc:309-333`: the status and the records that are printed. That the store is there is asserted
(`db/replica.hpp:162-166`). -/
def dump (w : World) (h : Host) (args : Args) : Option (Status × List (Key × Frame)) :=
  (if args = [] then some (Status.OK, h.active, []) else scanOn w h h.active (ON :: args)).bind fun b =>
    if ¬ b.1.ok then some (b.1, [])
    else
      match h.find b.2.1 with
      | none => none
      | some s => dumpStore w.mg s.data

end Ron.Cli
