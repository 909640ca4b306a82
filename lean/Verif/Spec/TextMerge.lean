import Verif.Spec.Builder
import Verif.Spec.Rga
import Verif.Model.Rdt
/-!
Specification of merging on text frames.
-/
namespace Ron.Spec
open Ron

/-- What a merge says. -/
def mergedSteps (l : List OpView) : List Step := l.map Step.op ++ [.endChunk 0]

/-- A frame that can be copied, and its ops. -/
structure Copyable (i : List Byte × List (Nat × OpView)) : Prop where
  text : FrameText Uuid.NIL i.1 i.2
  size : i.1.length < 2 ^ 30
  short : NoOverlong i.1
  vals : ∀ x ∈ i.2, ∀ v ∈ x.2.vals, CopyOk v

/-- Each frame has its ops in the strict order of ids. -/
def OrderedFrames (ins : List (List Byte × List (Nat × OpView))) : Prop :=
  ∀ i ∈ ins, i.2.Pairwise fun a b => Uuid.lt a.2.id b.2.id = true

/-- An id stands for one op in all the frames. -/
def OneOpPerId (ins : List (List Byte × List (Nat × OpView))) : Prop :=
  ∀ i ∈ ins, ∀ x ∈ i.2, ∀ j ∈ ins, ∀ y ∈ j.2, x.2.id = y.2.id → x.2 = y.2

/-- The ops of all the frames, each once, in the order of ids. -/
structure UnionOf (ins : List (List Byte × List (Nat × OpView))) (out : List OpView) : Prop where
  sorted : out.Pairwise fun a b => Uuid.lt a.id b.id = true
  same : ∀ o, o ∈ out ↔ ∃ i ∈ ins, ∃ x ∈ i.2, x.2 = o

/-- What the trees of ops are made of: ids and references. -/
def shape (o : OpView) : AOp := ⟨o.id, o.ref, [], .raw⟩

/-- The ops of all the frames. -/
def allOps (ins : List (List Byte × List (Nat × OpView))) : List OpView :=
  (ins.map fun i => i.2.map Prod.snd).flatten

/-- Ops that can be put into a frame in any company: one that has the next id after another refers to it, and if the
builder folds the two, the first one survives; none of them is taken for a part of the header. -/
def Mixable (l : List OpView) : Prop :=
  (∀ o ∈ l, (o.id = Uuid.NIL.inc → o.ref = Uuid.NIL) ∧ folds Uuid.NIL [.uuid Uuid.FATAL] o = false) ∧
  ∀ p ∈ l, ∀ o ∈ l, (o.id = p.id.inc → o.ref = p.id) ∧ (folds p.id p.vals o = true → copyHeadOk p.vals = true)

/-- `Grouped M text is`: the text is made of the frames `is` by merging them in groups, in any order, any number of
times, with merges `M` that end with the status OK; what is made on the way is shorter than 2^30 bytes. -/
inductive Grouped (M : List (List Byte) → Status × List Byte → Prop) :
    List Byte → List (List Byte × List (Nat × OpView)) → Prop
  | frame (i : List Byte × List (Nat × OpView)) : Grouped M i.1 [i]
  | merge (gs : List (List Byte × List (List Byte × List (Nat × OpView)))) (text : List Byte) (hne : gs ≠ [])
      (hg : ∀ g ∈ gs, Grouped M g.1 g.2) (hm : M (gs.map Prod.fst) (Status.OK, text)) (hl : text.length < 2 ^ 30) :
      Grouped M text (gs.map Prod.snd).flatten

end Ron.Spec
