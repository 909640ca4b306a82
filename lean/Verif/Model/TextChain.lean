import Verif.Model.Replica
import Verif.Model.TextState
/-!
Saving of a chain as text: `SaveChainlet`, `db/replica.cc:301-336`, with a text cursor and a text builder.
(`Verif.Model.Replica` has the same code on lists of ops.)
-/
namespace Ron.TextChain
open Ron Commit

/-- What `SaveChainlet` changes of the commit and the metadata of the last op, `db/replica.hpp:181-202`. -/
structure Walk where
  m : OpMeta
  base : Uuid
  tip : Uuid
  max : Uuid
  deriving DecidableEq

/-- `id()` and `ref()` of the current op, which the checks look at. -/
def heading (c : Cursor) : Option AOp :=
  match c.id, c.ref with
  | some id, some ref => some ⟨id, ref, [], .raw⟩
  | _, _ => none

/-- `meta.Next(from, meta)`, `ron/opmeta.hpp:72-85`; `hash` is `OpMerkleHash`. -/
def nextMeta (hash : Cursor → Digest → Digest → Digest) (m : OpMeta) (c : Cursor) (o : AOp) : Out OpMeta :=
  match m.next ⟨fun _ => hash c, fun _ => [], fun _ => []⟩ o m with
  | none => .abort
  | some m => .ok m

/-- The loop of `SaveChainlet`, `db/replica.cc:305-335`. -/
def walk (hash : Cursor → Digest → Digest → Digest) :
    Nat → Walk → Builder → Cursor → Out (Option (Status × Walk × Builder × Cursor))
  | 0, _, _, _ => .ok none
  | n + 1, s, b, c =>
    c.next.bind fun r =>
      if r.2 ≠ .ok then
        .ok (some (if r.2 = .endOfFrame then Status.OK else TextMerge.statusOf r.2, s, b, r.1))
      else
        match heading r.1 with
        | none => .ub
        | some o =>
          if o.id = COMMENT then walk hash n s b r.1
          else if s.m.isNext o then
            if ¬ (checkEventSanity o).ok then .ok (some (checkEventSanity o, s, b, r.1))
            else
              (nextMeta hash s.m r.1 o).bind fun m =>
                (b.appendCursor r.1).bind fun b =>
                  if o.id.origin = s.base.origin then
                    if Uuid.le o.id s.tip then .ok (some (Status.OK, { s with m := m }, b, r.1))
                    else walk hash n { s with m := m, tip := o.id } b r.1
                  else walk hash n { s with m := m, max := if Uuid.lt s.max o.id then o.id else s.max } b r.1
          else if s.m.isCheck o then
            if ¬ (OpMeta.check o).ok then .ok (some (OpMeta.check o, s, b, r.1)) else walk hash n s b r.1
          else .ok (some (Status.OK, s, b, r.1))

/-- `SaveChainlet`, `db/replica.cc:301-336`. -/
def saveChainlet (hash : Cursor → Digest → Digest → Digest) (n : Nat) (s : Walk) (b : Builder) (c : Cursor) :
    Out (Option (Status × Walk × Builder × Cursor)) :=
  (b.appendCursor c).bind fun b => walk hash n s b c

/-- `SaveChain`, `db/replica.cc:431-434`, but for the clock: the record of the chain, if the chain is good. -/
def chainRecord (hash : Cursor → Digest → Digest → Digest) (n : Nat) (s : Walk) (c : Cursor) :
    Out (Option (Status × List Byte × Walk × Cursor)) :=
  (saveChainlet hash n s Builder.init c).bind fun r =>
    match r with
    | none => .ok none
    | some (st, s, b, c) =>
      if st.ok then b.release.bind fun x => .ok (some (st, x.1, s, c)) else .ok (some (st, [], s, c))

end Ron.TextChain
