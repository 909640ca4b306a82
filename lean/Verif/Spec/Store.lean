import Verif.Model.Store
import Verif.Spec.Merge
/-!
How a store is used.
-/
namespace Ron.Spec
open Ron MemStore

/-- What can be done to a store: write a frame, or read into a frame that holds `res`. -/
inductive Cmd where
  | write (k : Key) (f : Frame)
  | read (k : Key) (res : Frame)

/-- The key a command is about. -/
def Cmd.key : Cmd → Key
  | .write k _ => k
  | .read k _ => k

/-- The effect of a command. -/
def exec (mg : Reducer) (s : MemStore) : Cmd → Option MemStore
  | .write k f => some (s.write k f).2
  | .read k res => (s.read mg k res).map fun r => r.2.2

/-- The effect of a sequence of commands. -/
def execAll (mg : Reducer) : MemStore → List Cmd → Option MemStore
  | s, [] => some s
  | s, c :: cs => (exec mg s c).bind fun s => execAll mg s cs

/-- All the frames written to a key, oldest first. (`Key::END` can not be written to.) -/
def written (k : Key) : List Cmd → List Frame
  | [] => []
  | .write j f :: cs => if j = k ∧ j ≠ Key.END then f :: written k cs else written k cs
  | .read _ _ :: cs => written k cs

/-- The records of a store for a key, oldest first. -/
def stored (k : Key) (s : MemStore) : List Frame :=
  (s.filter fun r => decide (r.1 = k)).map Prod.snd

/-- A `multimap` is in key order. -/
def KeyOrder (s : MemStore) : Prop := s.Pairwise fun a b => Key.lt b.1 a.1 = false

/-- Iteration from where the iterator is until it reports the end: the keys, the values where
`look` asks for them, and the store and iterator afterwards. -/
def visit (mg : Reducer) (look : Key → Bool) : Nat → MemStore → Iter →
    Option (List (Key × Option Frame) × MemStore × Iter)
  | 0, _, _ => none
  | fuel + 1, s, it =>
    (it.key s).bind fun k =>
    if k = Key.END then some ([], s, it)
    else
      (if look k then (it.value mg s).map fun r => (some r.1, r.2) else some (none, it)).bind fun v =>
      (v.2.next s).bind fun n =>
      (visit mg look fuel n.2.1 n.2.2).map fun r => ((k, v.1) :: r.1, r.2)

/-- Iteration over an overlay until the end is reported; `none` if a step fails. -/
def jvisit (mg : Reducer) (look : Key → Bool) : Nat → Joined → Joined.JIter →
    Option (List (Key × Option (Option Frame)) × Joined × Joined.JIter)
  | 0, _, _ => none
  | fuel + 1, s, it =>
    if it.at_ = Key.END then some ([], s, it)
    else
      (if look it.at_ then (it.value mg s).map fun r => (some r.1, r.2) else some (none, it)).bind fun v =>
      (v.2.next s).bind fun n =>
      if n.1.ok then (jvisit mg look fuel n.2.1 n.2.2).map fun r => ((it.at_, v.1) :: r.1, r.2)
      else none

/-- Where a seek should land. -/
def Sought (s : MemStore) (k : Key) (prev : Bool) (q : Key) : Prop :=
  if prev then
    (stored q s ≠ [] ∧ Key.lt k q = false ∧ ∀ j, stored j s ≠ [] → Key.lt k j = false → Key.lt q j = false) ∨
    (q = Key.END ∧ ∀ j, stored j s ≠ [] → Key.lt k j = true)
  else
    (stored q s ≠ [] ∧ Key.lt q k = false ∧ ∀ j, stored j s ≠ [] → Key.lt j k = false → Key.lt j q = false) ∨
    (q = Key.END ∧ ∀ j, stored j s ≠ [] → Key.lt j k = true)

mutual
/-- The operands a tree of partial merges is made of, in order. -/
def MergeTree.leaves : MergeTree → List Frame
  | .frame ops => [ops]
  | .merge ts => leavesAll ts
def MergeTree.leavesAll : List MergeTree → List Frame
  | [] => []
  | t :: ts => t.leaves ++ leavesAll ts
end

end Ron.Spec
