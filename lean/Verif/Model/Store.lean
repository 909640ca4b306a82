import Verif.Model.Rdt
import Verif.Model.Key
/-!
The in-memory store, `db/mem_store.hpp`, the overlay of two stores, `db/joined_store.hpp`, and the
merge operator handed to the storage engine, `db/rocks_store.cc:44-105`.

A frame is the list of its ops (a frame of whitespace only or starting with a syntax error counts
as empty). The reducer is a parameter, `mg form inputs`: `MergeCursors(ret, form, inputs)`,
`rdt/rdt.hpp:87-97`; it is always given the cursors that have an op. `none` is undefined
behaviour.
-/
namespace Ron

abbrev Frame := List AOp
abbrev Reducer := Form → List Frame → Option (Status × Frame)

/-- Exhausted cursors are dropped: `db/mem_store.hpp:35-38,89-92`, `rdt/rdt.hpp:131-136`. -/
def withOps (fs : List Frame) : List Frame := fs.filter fun f => !f.isEmpty

/-- `btree_multimap<Key, Frame>`: the records in key order; equal keys in order of insertion. -/
abbrev MemStore := List (Key × Frame)

namespace MemStore

/-- `multimap::insert`: after the records with the same key. -/
def insert (k : Key) (f : Frame) : MemStore → MemStore
  | [] => [(k, f)]
  | r :: s => if Key.lt k r.1 then (k, f) :: r :: s else r :: insert k f s

/-- `multimap::lower_bound`, as an index. -/
def lower (k : Key) : MemStore → Nat
  | [] => 0
  | r :: s => if Key.lt r.1 k then lower k s + 1 else 0

/-- `multimap::upper_bound`, as an index. -/
def upper (k : Key) : MemStore → Nat
  | [] => 0
  | r :: s => if Key.lt k r.1 then 0 else upper k s + 1

/-- `multimap::erase(from, till)`. -/
def erase (s : MemStore) (b e : Nat) : MemStore := s.take b ++ s.drop e

/-- `Write(Key, const Frame&)`, `db/mem_store.hpp:158-164`. -/
def write (s : MemStore) (k : Key) (f : Frame) : Status × MemStore :=
  if k = Key.END then (Status.BADARGS, s) else (Status.OK, insert k f s)

/-- `Open`, `db/mem_store.hpp:50-56`. -/
def opened (id : Uuid) : MemStore :=
  insert Key.END [] ((write [] Key.ZERO [⟨id, ⟨BitVec.ofNat 64 (FORMS.getD 1 0), 0#64⟩, [], .raw⟩]).2)

/-- `Read`, `db/mem_store.hpp:166-183`: `result` is what the caller's frame held before; a failed
merge leaves it as it is (`rdt/rdt.hpp:92-96`). -/
def read (mg : Reducer) (s : MemStore) (k : Key) (result : Frame) :
    Option (Status × Frame × MemStore) :=
  let b := lower k s
  let e := upper k s
  if b = e then some (Status.OK, [], s)
  else if b + 1 = e then (s[b]?).map fun r => (Status.OK, r.2, s)
  else
    (mg k.form (withOps (((s.take e).drop b).map Prod.snd))).map fun r =>
      let result := if r.1.ok then r.2 else result
      (r.1, result, insert k result (erase s b e))

/-- `Write(const Records&)`, `db/mem_store.hpp:185-191`. -/
def writeAll (s : MemStore) : List (Key × Frame) → Status × MemStore
  | [] => (Status.OK, s)
  | r :: rs =>
    let w := write s r.1 r.2
    if w.1.ok then writeAll w.2 rs else w

/-- `Release`, `db/mem_store.hpp:195-205`. -/
def release (s : MemStore) : Option (List (Key × Frame)) := if s.isEmpty then none else some s

/-! ### `Iterator` -/

/-- `db/mem_store.hpp:60-65`: iterators into the map as indices. (A record inserted or erased by
somebody else while the iterator is in use invalidates it; this is not modelled.) -/
structure Iter where
  b : Nat
  e : Nat
  len : Nat
  merged : Frame
  deriving DecidableEq, Repr

namespace Iter

/-- The constructor, `db/mem_store.hpp:77-78`. -/
def fresh : Iter := ⟨0, 0, 0, []⟩

/-- How many records from here on have the key `k`. -/
def run (k : Key) : MemStore → Nat
  | [] => 0
  | r :: s => if r.1 = k then run k s + 1 else 0

/-- `scroll`, `db/mem_store.hpp:67-73`; `b_ ≤ e_`. -/
def scroll (s : MemStore) (it : Iter) : Iter :=
  match s[it.b]? with
  | none => { it with len := 0 }
  | some r =>
    let n := run r.1 (s.drop it.e)
    { it with e := it.e + n, len := n }

/-- `key`, `db/mem_store.hpp:98`: `none` is the dereference of `end()`. -/
def key (s : MemStore) (it : Iter) : Option Key :=
  if it.len = 0 then some Key.END else (s[it.b]?).map Prod.fst

/-- `value`, `db/mem_store.hpp:80-96`: the frame under the cursor returned. -/
def value (mg : Reducer) (s : MemStore) (it : Iter) : Option (Frame × Iter) :=
  if it.len = 0 then some ([], it)
  else if it.len = 1 then (s[it.b]?).map fun r => (r.2, it)
  else
    (it.key s).bind fun k =>
    (mg k.form (withOps (((s.take it.e).drop it.b).map Prod.snd))).map fun r =>
      let merged := if r.1.ok then r.2 else it.merged
      (merged, { it with merged := merged })

/-- `Next`, `db/mem_store.hpp:105-120`. -/
def next (s : MemStore) (it : Iter) : Option (Status × MemStore × Iter) :=
  if it.len = 0 then some (Status.BAD_STATE, s, it)
  else
    (it.key s).map fun k =>
      if it.len > 1 ∧ it.merged ≠ [] then
        let s' := erase s it.b it.e
        let e := upper k s' + 1
        let s'' := insert k it.merged s'
        (Status.OK, s'', scroll s'' { it with b := e, e := e, merged := [] })
      else (Status.OK, s, scroll s { it with b := it.e, merged := [] })

/-- `SeekTo`, `db/mem_store.hpp:128-149`. Neither `merged_` nor, when it runs off the end, `len_`
are reset. -/
def seekTo (s : MemStore) (it : Iter) (k : Key) (prev : Bool := false) : Iter :=
  let b := lower k s
  match s[b]? with
  | none =>
    if prev ∧ s ≠ [] then scroll s { it with b := b - 1, e := b - 1 }
    else { it with b := b, e := b }
  | some r =>
    if prev ∧ r.1 ≠ k then
      if b ≠ 0 then scroll s { it with b := b - 1, e := b - 1 }
      else { it with b := s.length, e := s.length }
    else scroll s { it with b := b, e := b }

end Iter
end MemStore

/-! ### `JoinedStore` over two in-memory stores -/

/-- `a_` and `b_`, `db/joined_store.hpp:9-10`. -/
structure Joined where
  a : MemStore
  b : MemStore
  deriving DecidableEq, Repr

namespace Joined
open MemStore

/-- `MergeFrames`, `rdt/rdt.hpp:127-147`, and `MergeCursors(ret, inputs)`, lines 99-107: the form
is found in the frames. -/
def mergeGuess (mg : Reducer) (fs : List Frame) : Option (Status × Frame) :=
  match Rdt.getForm Uuid.NIL (withOps fs) with
  | none => some (Status.BADARGS, [])
  | some f => mg f (withOps fs)

/-- `Write(Key, const Frame&)`, `db/joined_store.hpp:25-28`. -/
def write (s : Joined) (k : Key) (f : Frame) : Status × Joined :=
  let w := s.b.write k f
  (w.1, { s with b := w.2 })

/-- `Write(const Records&)`, `db/joined_store.hpp:45`. -/
def writeAll (s : Joined) (rs : List (Key × Frame)) : Status × Joined :=
  let w := s.a.writeAll rs
  (w.1, { s with a := w.2 })

/-- `Read`, `db/joined_store.hpp:30-43`. -/
def read (mg : Reducer) (s : Joined) (k : Key) (into : Frame) : Option (Status × Frame × Joined) :=
  (s.a.read mg k []).bind fun ra =>
    let s := { s with a := ra.2.2 }
    if ¬ ra.1.ok then some (ra.1, into, s)
    else
      (s.b.read mg k []).bind fun rb =>
        let s := { s with b := rb.2.2 }
        if ¬ rb.1.ok then some (rb.1, into, s)
        else if ra.2.1 = [] then some (Status.OK, rb.2.1, s)
        else if rb.2.1 = [] then some (Status.OK, ra.2.1, s)
        else
          (mergeGuess mg [ra.2.1, rb.2.1]).map fun r =>
            if r.1.ok then (Status.OK, r.2, s) else (r.1, into, s)

/-- `Iterator`, `db/joined_store.hpp:47-51`. -/
structure JIter where
  ai : Iter
  bi : Iter
  at_ : Key
  deriving DecidableEq, Repr

namespace JIter

def fresh : JIter := ⟨Iter.fresh, Iter.fresh, Key.END⟩

/-- `std::min`. -/
def minKey (a b : Key) : Key := if Key.lt b a then b else a
/-- `std::max`. -/
def maxKey (a b : Key) : Key := if Key.lt a b then b else a

/-- One of the two steps of `Next`, `db/joined_store.hpp:63-68`: move if at the common key. -/
def step (s : MemStore) (i : Iter) (at_ : Key) : Option (Status × MemStore × Iter) :=
  (i.key s).bind fun k => if k = at_ then i.next s else some (Status.OK, s, i)

/-- `Next`, `db/joined_store.hpp:62-71`. -/
def next (s : Joined) (it : JIter) : Option (Status × Joined × JIter) :=
  (step s.a it.ai it.at_).bind fun ra =>
    let s := { s with a := ra.2.1 }
    let it := { it with ai := ra.2.2 }
    if ¬ ra.1.ok then some (ra.1, s, it)
    else
      (step s.b it.bi it.at_).bind fun rb =>
        let s := { s with b := rb.2.1 }
        let it := { it with bi := rb.2.2 }
        if ¬ rb.1.ok then some (rb.1, s, it)
        else
          (it.ai.key s.a).bind fun ka => (it.bi.key s.b).map fun kb =>
            (Status.OK, s, { it with at_ := minKey ka kb })

/-- `SeekTo`, `db/joined_store.hpp:73-92`. -/
def seekTo (s : Joined) (it : JIter) (k : Key) (prev : Bool := false) : Option JIter :=
  let ai := it.ai.seekTo s.a k prev
  let bi := it.bi.seekTo s.b k prev
  (ai.key s.a).bind fun ka => (bi.key s.b).map fun kb =>
    let at_ :=
      if prev then (if ka = Key.END then kb else if kb = Key.END then ka else maxKey ka kb)
      else minKey ka kb
    ⟨ai, bi, at_⟩

/-- `value`, `db/joined_store.hpp:94-118`; `none` inside is the error op returned when the merge
fails. -/
def value (mg : Reducer) (s : Joined) (it : JIter) : Option (Option Frame × JIter) :=
  (it.ai.key s.a).bind fun ka =>
  if ka ≠ it.at_ then
    (it.bi.value mg s.b).map fun r => (some r.1, { it with bi := r.2 })
  else
    (it.bi.key s.b).bind fun kb =>
    if kb ≠ it.at_ then
      (it.ai.value mg s.a).map fun r => (some r.1, { it with ai := r.2 })
    else
      (it.ai.value mg s.a).bind fun ra => (it.bi.value mg s.b).bind fun rb =>
      (mergeGuess mg [ra.1, rb.1]).map fun r =>
        (if r.1.ok then some r.2 else none, { it with ai := ra.2, bi := rb.2 })

end JIter
end Joined

/-! ### The merge operator -/

/-- `FullMergeV2` and `PartialMergeMulti`, `db/rocks_store.cc:59-105`: `none` is `false`, the
engine keeps the operands. -/
def engineMerge (mg : Reducer) (f : Form) (operands : List Frame) : Option Frame :=
  match mg f (withOps operands) with
  | some (s, out) => if s.ok then some out else none
  | none => none

end Ron
