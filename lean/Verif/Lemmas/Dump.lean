import Verif.Model.Dump
import Verif.Spec.Dump
import Verif.Lemmas.Lifecycle
import Verif.Lemmas.Cli
/-!
Lemmas about listings.
-/
namespace Ron.Cli
open Host Spec

theorem stored_ne {s : MemStore} {k : Key} : stored k s ≠ [] ↔ k ∈ keys s := by
  constructor
  · intro h
    obtain ⟨f, hf⟩ := List.exists_mem_of_ne_nil _ h
    obtain ⟨r, hr, -⟩ := List.mem_map.1 hf
    have := List.mem_filter.1 hr
    rw [← of_decide_eq_true this.2]
    exact mem_keys r this.1
  · intro h hn
    obtain ⟨r, hr, e⟩ := keys_sublist _ _ h
    have : r.2 ∈ stored k s := List.mem_map.2 ⟨r, List.mem_filter.2 ⟨hr, decide_eq_true e⟩, rfl⟩
    rw [hn] at this
    cases this

theorem valueAt_ok {mg : Reducer} {s : MemStore} {k : Key} {r : Status × Frame} (h : valueAt mg s k = some r)
    (hok : r.1.ok = true) : MergedAt mg s k r.2 := by
  obtain ⟨q, hq, e⟩ := Commit.map_some h
  split at e
  · rename_i h1
    subst e
    exact ⟨q.1, hq, h1⟩
  · subst e
    cases hok

theorem valueAt_of {mg : Reducer} {s : MemStore} {k : Key} {f : Frame} (h : MergedAt mg s k f) :
    valueAt mg s k = some (Status.OK, f) := by
  obtain ⟨st, h1, h2⟩ := h
  unfold valueAt
  rw [show Engine.operands s k = stored k s from rfl, h1]
  simp [h2]

theorem dumpLoop_some {mg : Reducer} {s : MemStore} : ∀ {ks : List Key} {l : List (Key × Frame)},
    dumpLoop mg s ks = some l → ∃ rest, ks = l.map Prod.fst ++ rest ∧ (∀ r ∈ l, MergedAt mg s r.1 r.2) ∧
      ∀ k ∈ rest.head?, ∃ st, valueAt mg s k = some st ∧ st.1.ok = false := by
  intro ks
  induction ks with
  | nil =>
    intro l h
    cases h
    exact ⟨[], rfl, by simp, by simp⟩
  | cons k ks ih =>
    intro l h
    unfold dumpLoop at h
    obtain ⟨r, hr, h⟩ := Commit.bind_some h
    split at h
    · rename_i hb
      cases h
      exact ⟨k :: ks, rfl, by simp, fun j hj => by
        cases hj
        exact ⟨r, hr, by simpa using hb⟩⟩
    · rename_i hb
      obtain ⟨t, ht, e⟩ := Commit.map_some h
      subst e
      obtain ⟨rest, h1, h2, h3⟩ := ih ht
      refine ⟨rest, by rw [h1]; rfl, fun q hq => ?_, h3⟩
      rcases List.mem_cons.1 hq with rfl | hq
      · exact valueAt_ok hr (by simpa using hb)
      · exact h2 q hq

theorem dumpLoop_all {mg : Reducer} {s : MemStore} : ∀ {ks : List Key}, (∀ k ∈ ks, ∃ f, MergedAt mg s k f) →
    ∃ l, dumpLoop mg s ks = some l ∧ l.map Prod.fst = ks := by
  intro ks
  induction ks with
  | nil => intro _; exact ⟨[], rfl, rfl⟩
  | cons k ks ih =>
    intro h
    obtain ⟨l, h1, h2⟩ := ih fun j hj => h j (List.mem_cons_of_mem _ hj)
    obtain ⟨f, hf⟩ := h k (by simp)
    refine ⟨(k, f) :: l, ?_, by rw [← h2]; rfl⟩
    unfold dumpLoop
    rw [valueAt_of hf, h1]
    rfl

/-- What is printed goes with the first of the keys. -/
theorem dumpStore_some {mg : Reducer} {s : MemStore} {st : Status} {l : List (Key × Frame)}
    (h : dumpStore mg s = some (st, l)) : ∃ rest, keys s = l.map Prod.fst ++ rest ∧ (∀ r ∈ l, MergedAt mg s r.1 r.2) ∧
      (∀ k ∈ rest.head?, ¬ ∃ f, MergedAt mg s k f) ∧ (st.ok = true → l ≠ []) := by
  unfold dumpStore at h
  have bad : ∀ {k : Key} {r : Status × Frame}, valueAt mg s k = some r → r.1.ok = false →
      ¬ ∃ f, MergedAt mg s k f := by
    rintro k r hr hb ⟨f, hf⟩
    rw [valueAt_of hf] at hr
    cases hr
    cases hb
  split at h
  · cases h
  · rename_i k ks hk
    obtain ⟨r, hr, h⟩ := Commit.bind_some h
    split at h
    · rename_i hb
      cases h
      refine ⟨k :: ks, hk, by simp, fun j hj => ?_, fun h => absurd h hb⟩
      cases hj
      exact bad hr (by simpa using hb)
    · rename_i hb
      obtain ⟨t, ht, e⟩ := Commit.map_some h
      cases e
      obtain ⟨rest, h1, h2, h3⟩ := dumpLoop_some ht
      refine ⟨rest, by rw [hk, h1]; rfl, fun q hq => ?_, fun j hj => ?_, fun _ => by simp⟩
      · rcases List.mem_cons.1 hq with rfl | hq
        · exact valueAt_ok hr (by simpa using hb)
        · exact h2 q hq
      · obtain ⟨x, hx, hn⟩ := h3 j hj
        exact bad hx hn

theorem dumpStore_all {mg : Reducer} {s : MemStore} (hne : s ≠ []) (h : ∀ k ∈ keys s, ∃ f, MergedAt mg s k f) :
    ∃ l, dumpStore mg s = some (Status.OK, l) ∧ l.map Prod.fst = keys s := by
  unfold dumpStore
  match hk : keys s with
  | [] =>
    obtain ⟨r, hr⟩ := List.exists_mem_of_ne_nil _ hne
    have := mem_keys r hr
    rw [hk] at this
    cases this
  | k :: ks =>
    rw [hk] at h
    obtain ⟨l, h1, h2⟩ := dumpLoop_all fun j hj => h j (List.mem_cons_of_mem _ hj)
    obtain ⟨f, hf⟩ := h k (by simp)
    exact ⟨(k, f) :: l, by
      show (valueAt mg s k).bind _ = _
      rw [valueAt_of hf]
      show Option.map _ (dumpLoop mg s ks) = _
      rw [h1]
      rfl, by rw [← h2]; rfl⟩

theorem listed_of {mg : Reducer} {s : MemStore} {l : List (Key × Frame)} {rest : List Key} (hs : MemStore.Sorted s)
    (h1 : keys s = l.map Prod.fst ++ rest) (h2 : ∀ r ∈ l, MergedAt mg s r.1 r.2) : Listed mg s l ∧ UpTo s l := by
  have hp := keys_sorted hs
  rw [h1] at hp
  obtain ⟨p1, -, p3⟩ := List.pairwise_append.1 hp
  refine ⟨⟨List.pairwise_map.1 p1, fun r hr => ⟨stored_ne.2 ?_, h2 r hr⟩⟩, fun k hk => ?_⟩
  · rw [h1]
    exact List.mem_append_left _ (List.mem_map_of_mem hr)
  · have := stored_ne.1 hk
    rw [h1] at this
    rcases List.mem_append.1 this with h | h
    · obtain ⟨r, hr, rfl⟩ := List.mem_map.1 h
      exact .inl ⟨r.2, hr⟩
    · exact .inr fun r hr => p3 _ (List.mem_map_of_mem hr) _ h

theorem branch_origin (y : Word) : branchId (branchId y).origin = branchId y := by
  have : ((branchId y).origin).payload = y.payload := Uuid.time_payload _ _
  unfold branchId Uuid.time at *
  rw [this]

/-- The branch that the command works on. -/
theorem scanOn_asked {w : World} {h : Host} {a : List Byte} {args : Args} {b : Status × Uuid × Args}
    (e : scanOn w h h.active (ON :: a :: args) = some b) (hok : b.1.ok = true) : Asked w h (a :: args) b.2.1 := by
  simp only [scanOn] at e
  rw [if_neg (by simp)] at e
  obtain ⟨u, hu, e⟩ := Commit.bind_some e
  refine ⟨u, hu, ?_⟩
  split at e
  · cases e; cases hok
  · obtain ⟨r, hr, e⟩ := Commit.map_some e
    split at e
    · rename_i hb; subst e; exact absurd hok hb
    · have eb : b.2.1 = r.2 := by split at e <;> subst e <;> rfl
      rw [eb]
      rename_i hb
      unfold resolveName at hr
      split at hr
      · cases hr; exact .inl rfl
      · split at hr
        · cases hr; exact .inl rfl
        · split at hr
          · cases hr; exact absurd (show ¬ Status.BADARGS.ok = true by decide) hb
          · obtain ⟨n, hn, e2⟩ := Commit.map_some hr
            rw [if_pos rfl] at hn
            unfold namesOf at hn
            split at hn
            · split at e2
              · rename_i hb2; subst e2; exact absurd hb2 hb
              · rename_i hb2
                split at e2
                · subst e2; exact absurd (show ¬ Status.NOT_FOUND.ok = true by decide) hb
                · rename_i id hid
                  subst e2
                  exact .inr ⟨n.1, n.2, hn, by simpa using hb2, hid⟩
            · cases hn

end Ron.Cli
