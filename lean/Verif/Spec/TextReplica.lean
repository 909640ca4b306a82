import Verif.Spec.TextMerge
import Verif.Spec.Lineage
/-!
What a store of texts says.
-/
namespace Ron.Spec
open Ron

/-- How floats and strings of a text are read: the bits of a float, the characters of a string. -/
structure Reading where
  float : List Byte → Word
  text : List Byte → List Nat

/-- The value that is read. -/
def Reading.val (R : Reading) : View → AVal
  | .uuid u => .uuid u
  | .int i => .int i
  | .float t => .float (R.float t)
  | .text t => .str (R.text t)

/-- The op that is read. -/
def Reading.op (R : Reading) (o : OpView) : AOp := ⟨o.id, o.ref, o.vals.map R.val, .raw⟩

/-- A record: its key, its text and what the text says. -/
abbrev Entry := Key × List Byte × List (Nat × OpView)

/-- The record as it is stored. -/
def Entry.bytes (a : Entry) : Key × List Byte := (a.1, a.2.1)

/-- The entries of a key. -/
def entriesAt (A : List Entry) (k : Key) : List (List Byte × List (Nat × OpView)) :=
  (A.filter fun a => decide (a.1 = k)).map Prod.snd

/-- The ops of a key. -/
def opsAt (A : List Entry) (k : Key) : List OpView := allOps (entriesAt A k)

/-- The records read as the frames of a store. -/
def Says (R : Reading) (A : List Entry) (s : MemStore) : Prop :=
  Same2 (fun a r => a.1 = r.1 ∧ Copyable a.2 ∧ r.2.map AOp.body = a.2.2.map fun x => (R.op x.2).body) A s

/-- The records say what a store of the history holds; `wh`: the chains were not merged. -/
def TellsAs (wh : Bool) (R : Reading) (H : List Chain) (note : Uuid → List Nat) (A : List Entry) : Prop :=
  ∃ s, Says R A s ∧ Carries wh H note s

/-- The records say what a store of the history holds. -/
def Tells (R : Reading) (H : List Chain) (note : Uuid → List Nat) (A : List Entry) : Prop :=
  ∃ wh s, Says R A s ∧ Carries wh H note s

/-- What is merged can be merged and read back (`C84`, `C110`): the ops of a log can stand next to each other and none is
folded with another by the builder, and so it is for the ops of a yarn, of which there is one of an id; there are less
than 2^31 of them. The tips are not the id that is taken for the next one after nothing. -/
structure Unfolded (A : List Entry) : Prop where
  mix : ∀ k : Key, k.form = Form.LOG ∨ k.form = Form.YARN → Mixable (opsAt A k)
  runs : ∀ k : Key, k.form = Form.LOG → ∀ p ∈ opsAt A k, ∀ o ∈ opsAt A k, folds p.id p.vals o = false
  one : ∀ k : Key, k.form = Form.YARN → OneOpPerId (entriesAt A k)
  few : ∀ k : Key, (opsAt A k).length < 2 ^ 31
  tips : ∀ o ∈ opsAt A Key.ZERO, o.id ≠ Uuid.NIL.inc

end Ron.Spec
