import Verif.Spec.ChainReceive
import Verif.Model.Rdt
/-!
Histories of chains: what a replica is to remember.
-/
namespace Ron.Spec
open Ron

/-- A stamp of an event: a time that is not "never" and the origin of a clock. -/
def Stamp (i : Uuid) : Prop := i.value.toNat < NEVER.toNat ∧ i.origin.toNat / 2 ^ 60 = 2

/-- A chain of events: the first one, those that go on from it, the object they belong to and its type. -/
structure Chain where
  head : AOp
  rest : List AOp
  object : Uuid
  rdt : Uuid

namespace Chain
/-- The events of a chain. -/
def ops (c : Chain) : List AOp := c.head :: c.rest
/-- The event is one of the chain. -/
def Has (c : Chain) (i : Uuid) : Prop := ∃ o ∈ c.ops, o.id = i
end Chain

/-- The event is one of the history. -/
def Known (H : List Chain) (i : Uuid) : Prop := ∃ c ∈ H, c.Has i

/-- The types an object may have. -/
def types : List Form := [Form.YARN, Form.LWW, Form.RGA, Form.MX, Form.MAX]

/-- A frame that is a chain of events of a clock: each refers to the one before. The first one may refer to anything: an
event, a type of objects or a name that is not a type. -/
structure Proper (o : AOp) (os : List AOp) : Prop where
  query : o.term ≠ .query
  stamp : Stamp o.id
  clock : o.id.origin.payload ≠ 0
  chained : ChainedTo o.id os
  last : Stamp (lastOf o.id os)
  cause : o.ref.version = Uuid.vTIME → Stamp o.ref
  type : o.ref.version = Uuid.vNAME → uuid2form o.ref = Form.ZERO ∨ uuid2form o.ref ∈ types

/-- The chain goes on from the history. It begins a yarn of which nothing is known, or goes on with a known yarn after
all that is known of it. It creates an object of some type, or it belongs to the object of the known event it refers to. -/
structure Follows (H : List Chain) (c : Chain) : Prop where
  yarn : c.head.ref = formUuid Form.YARN ∧ (∀ i, Known H i → i.origin ≠ c.head.id.origin) ∨
    c.head.ref ≠ formUuid Form.YARN ∧ (∃ i, Known H i ∧ i.origin = c.head.id.origin) ∧
      ∀ i, Known H i → i.origin = c.head.id.origin → Uuid.lt i c.head.id = true
  cause : c.head.ref.version = Uuid.vNAME ∧ uuid2form c.head.ref ≠ Form.ZERO ∧ c.object = c.head.id ∧
      c.rdt = c.head.ref ∨
    c.head.ref.version = Uuid.vTIME ∧ Uuid.lt c.head.ref c.head.id = true ∧
      ∃ d ∈ H, d.Has c.head.ref ∧ c.object = d.object ∧ c.rdt = d.rdt

/-- The histories: each chain goes on from the chains before it. -/
inductive Lineage : List Chain → Prop
  | nil : Lineage []
  | add {H : List Chain} {c : Chain} : Lineage H → Proper c.head c.rest → Follows H c → Lineage (H ++ [c])

/-- The record of the beginning of a chain. -/
def Chain.entry (note : Uuid → List Nat) (c : Chain) : AOp :=
  ⟨c.head.id, formUuid Form.META, [.uuid c.object, .uuid c.rdt, .str (note c.head.id)], .raw⟩

/-- The frames are what the state of an object is made of: each has events of the chains of the object, and there are some
if the object has any. If the type is merged by ids, they are in the order of ids and no event is missing. If nothing was
merged (`whole`), they are the chains as they came. -/
structure Stands (whole : Bool) (form : Form) (chains : List Chain) (fs : List Frame) : Prop where
  part : ∀ f ∈ fs, f ≠ [] ∧ ∀ o ∈ f, ∃ c ∈ chains, ∃ x ∈ c.ops, x.body = o.body
  some : chains ≠ [] → fs ≠ []
  order : form ∈ [Form.YARN, Form.LWW, Form.MX] → ∀ f ∈ fs, IdSorted f
  all : form ∈ [Form.YARN, Form.LWW, Form.MX] → ∀ c ∈ chains, ∀ x ∈ c.ops, ∃ f ∈ fs, ∃ o ∈ f, o.body = x.body
  exact : whole = true → fs = chains.map fun c => punctuate c.ops

/-- The records of the history: the log of every object is the events of its chains as they came, the data its state is
made of is the chains, every chain has a record of its beginning, and there may be tips. `note` is the text of the hashes. -/
structure Retains (whole : Bool) (H : List Chain) (note : Uuid → List Nat) (s : MemStore) : Prop where
  sorted : KeyOrder s
  log : ∀ k : Key, k.form = Form.LOG → (stored k s).flatten.map AOp.body =
    ((H.filter fun c => decide (Key.mk' c.object Form.LOG = k)).flatMap Chain.ops).map AOp.body
  full : ∀ k : Key, k.form = Form.LOG → [] ∉ stored k s
  index : ∀ k : Key, k.form = Form.META →
    stored k s = (H.filter fun c => decide (Key.mk' c.head.id Form.META = k)).map fun c => [c.entry note]
  state : ∀ k : Key, k.form ≠ Form.LOG → k.form ≠ Form.META → k.form ≠ Form.ZERO →
    Stands whole k.form (H.filter fun c => decide (Key.ofUuids c.object c.rdt = k)) (stored k s)
  tips : ∀ r ∈ s, r.1.form = Form.ZERO → r.1 = Key.ZERO ∧ ∃ i, r.2 = [⟨i, formUuid Form.ZERO, [], .raw⟩]

/-- The store holds the history and nothing else; chains that the state of an object is made of may have been merged. -/
structure Carries (whole : Bool) (H : List Chain) (note : Uuid → List Nat) (s : MemStore) : Prop
    extends Retains whole H note s where
  tip : ∃ f, (Key.ZERO, f) ∈ s

/-- The store holds the history and nothing else: the chains as they came. -/
abbrev Holds : List Chain → (Uuid → List Nat) → MemStore → Prop := Carries true

/-! ### Frames of many chains -/

/-- The events of an object. -/
def logOf (H : List Chain) (obj : Uuid) : List AOp := (H.filter fun c => decide (c.object = obj)).flatMap Chain.ops

/-- Of the chains `H` before the frame and the chains `F` of the frame, only one of the two has events of the object; or the
object is of a type that is merged by ids, and both came in the order of ids. -/
def Joint (H F : List Chain) (obj : Uuid) : Prop :=
  (∀ c ∈ H, c.object ≠ obj) ∨ (∀ c ∈ F, c.object ≠ obj) ∨
    (∃ c ∈ H, c.object = obj ∧ uuid2form c.rdt ∈ [Form.YARN, Form.LWW, Form.MX]) ∧ IdSorted (logOf H obj) ∧
      IdSorted (logOf F obj)

/-- The chain is the last one of the yarn that begins at the id or before it. -/
structure At (H : List Chain) (i : Uuid) (d : Chain) : Prop where
  mem : d ∈ H
  yarn : d.head.id.origin = i.origin
  le : d.head.id.value.toNat ≤ i.value.toNat
  last : ∀ e ∈ H, e.head.id.origin = i.origin → e.head.id.value.toNat ≤ i.value.toNat →
    e.head.id.value.toNat ≤ d.head.id.value.toNat

/-- Looking for the event does not have to read an object that is not `Joint`. -/
def Clear (H F : List Chain) (i : Uuid) : Prop :=
  (∃ d, At (H ++ F) i d ∧ (d.head.id = i ∨ Joint H F d.object)) ∨ (∀ d, ¬ At (H ++ F) i d) ∧ ∀ obj, Joint H F obj

/-- A chain in a frame: its first event and those that go on from it. -/
def Chain.parts (c : Chain) : AOp × List AOp := (c.head, c.rest)

/-- The frame of the chains. -/
def opsOf (l : List (AOp × List AOp)) : List AOp := l.flatMap fun p => p.1 :: p.2

/-- The last event of the frame. -/
def endOf (l : List (AOp × List AOp)) : Uuid :=
  match l.getLast? with
  | some p => lastOf p.1.id p.2
  | none => Uuid.NIL

/-- No chain goes on from the end of the chain before it, so that they are different chains in the frame, too. -/
def Parted : List (AOp × List AOp) → Prop
  | p :: q :: l => (q.1.id.origin ≠ p.1.id.origin ∨ q.1.ref ≠ lastOf p.1.id p.2) ∧ Parted (q :: l)
  | _ => True

/-- Whatever is looked for on the way is `Clear` at that time. -/
def Cleared (H : List Chain) (l : List (AOp × List AOp)) : Prop :=
  ∀ A p B, l = A.map Chain.parts ++ p :: B → Lineage (H ++ A) →
    Clear H A ⟨NEVER, p.1.id.origin⟩ ∧ (p.1.ref.version = Uuid.vTIME → Clear H A p.1.ref)

end Ron.Spec
