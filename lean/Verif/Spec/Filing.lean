import Verif.Spec.History
/-!
How the history is filed by objects: the log record of an object holds the ops of that object, and
the record of its state holds ops of its log.
-/
namespace Ron.Spec
open Ron

/-- A record of the key holds the op. -/
def HeldIn (k : Key) (s : MemStore) (b : Body) : Prop := ∃ f, (k, f) ∈ s ∧ ∃ o ∈ f, o.body = b

/-- The log of the object has an op with this id. -/
def LogHas (s : MemStore) (obj id : Uuid) : Prop := ∃ b, HeldIn (Key.mk' obj Form.LOG) s b ∧ b.1 = id

/-- The log of the object has the op that created it, with the type it names. -/
def Created (s : MemStore) (obj rdt : Uuid) : Prop :=
  rdt.version = Uuid.vNAME ∧ ∃ b, HeldIn (Key.mk' obj Form.LOG) s b ∧ b.1 = obj ∧ b.2.1 = rdt

/-- The op belongs to the log at this key: it is the one that created the object, or it refers to an
earlier op in the same log. -/
def Rooted (s : MemStore) (k : Key) (b : Body) : Prop :=
  b.1.version = Uuid.vTIME ∧
  ((b.2.1.version = Uuid.vNAME ∧ uuid2form b.2.1 ≠ Form.ZERO ∧ Key.mk' b.1 Form.LOG = k) ∨
   (b.2.1.version = Uuid.vTIME ∧ Uuid.lt b.2.1 b.1 = true ∧ ∃ x, HeldIn k s x ∧ x.1 = b.2.1))

/-- Every log is self-contained. -/
def SelfContained (s : MemStore) : Prop :=
  ∀ k b, k.form = Form.LOG → HeldIn k s b → Rooted s k b

/-- Every record of a state (all but the tip record, the logs, the index and the names) is that of an
object in the log, under the type its creation names, and all its ops are in the log of the object. -/
def StatesMatch (names : Key) (s : MemStore) : Prop :=
  ∀ k b, k.form ≠ Form.ZERO → k.form ≠ Form.LOG → k.form ≠ Form.META → k ≠ names → HeldIn k s b →
    ∃ obj rdt, k = Key.ofUuids obj rdt ∧ Created s obj rdt ∧ HeldIn (Key.mk' obj Form.LOG) s b

/-- The index of events (ops referring to `meta`) tells the object of an event and its type. -/
def IndexRight (metaName : Uuid) (s : MemStore) : Prop :=
  ∀ k b, HeldIn k s b → b.2.1 = metaName → ∀ obj rdt rest, b.2.2 = .uuid obj :: .uuid rdt :: rest →
    LogHas s obj b.1 ∧ Created s obj rdt

/-- The history is in its place. -/
structure Filed (metaName : Uuid) (names : Key) (s : MemStore) : Prop where
  logs : SelfContained s
  states : StatesMatch names s
  index : IndexRight metaName s

end Ron.Spec
