import Verif.Spec.Cli
/-!
What a listing of a store says.
-/
namespace Ron.Spec
open Ron

/-- The frames that were written under the key, merged. -/
def MergedAt (mg : Reducer) (s : MemStore) (k : Key) (f : Frame) : Prop :=
  ∃ st, mg k.form (withOps (stored k s)) = some (st, f) ∧ st.ok = true

/-- Keys in order, each once; nothing but what is in the store, as it merges. -/
structure Listed (mg : Reducer) (s : MemStore) (l : List (Key × Frame)) : Prop where
  order : l.Pairwise fun a b => Key.lt a.1 b.1 = true
  merged : ∀ r ∈ l, stored r.1 s ≠ [] ∧ MergedAt mg s r.1 r.2

/-- No key of the store is missing. -/
def Whole (s : MemStore) (l : List (Key × Frame)) : Prop := ∀ k, stored k s ≠ [] → ∃ f, (k, f) ∈ l

/-- The listing goes up to some key. -/
def UpTo (s : MemStore) (l : List (Key × Frame)) : Prop :=
  ∀ k, stored k s ≠ [] → (∃ f, (k, f) ∈ l) ∨ ∀ r ∈ l, Key.lt r.1 k = true

/-- The store that is asked for: the active one, or the one that is named by its id or by a name that was given. -/
def Asked (w : Cli.World) (h : Host) (args : Cli.Args) (b : Uuid) : Prop :=
  match args with
  | [] => b = h.active
  | a :: _ => ∃ u, UuidParser.parse a = some u ∧ (u = b ∨
      ∃ st names, h.readNames w.mg w.hs (w.wall 0) Uuid.NIL = some (st, names) ∧ st.ok = true ∧ names u = some b)

end Ron.Spec
