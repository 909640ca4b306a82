import Verif.Model.Store
import Verif.Spec.Store
import Verif.Lemmas.Key
/-!
Facts about the in-memory store.
-/
namespace Ron

namespace Key

theorem lt_iff (a b : Key) : Key.lt a b = true ↔
    a.hi.toNat < b.hi.toNat ∨ (a.hi.toNat = b.hi.toNat ∧ a.lo.toNat < b.lo.toNat) := by
  unfold Key.lt
  simp only [Bool.or_eq_true, Bool.and_eq_true, Bool.not_eq_true', decide_eq_true_eq,
    decide_eq_false_iff_not]
  omega

theorem lt_irrefl (a : Key) : Key.lt a a = false := by
  cases h : Key.lt a a
  · rfl
  · rw [lt_iff] at h; omega

theorem lt_trans {a b c : Key} (h : Key.lt a b = true) (h' : Key.lt b c = true) : Key.lt a c = true := by
  rw [lt_iff] at *; omega

theorem lt_asymm {a b : Key} (h : Key.lt a b = true) : Key.lt b a = false := by
  cases h' : Key.lt b a
  · rfl
  · rw [lt_iff] at *; omega

theorem lt_tri (a b : Key) : Key.lt a b = true ∨ a = b ∨ Key.lt b a = true := by
  rcases Nat.lt_trichotomy a.hi.toNat b.hi.toNat with h | h | h
  · exact .inl ((lt_iff _ _).2 (.inl h))
  · rcases Nat.lt_trichotomy a.lo.toNat b.lo.toNat with g | g | g
    · exact .inl ((lt_iff _ _).2 (.inr ⟨h, g⟩))
    · exact .inr (.inl (ext_toNat h g))
    · exact .inr (.inr ((lt_iff _ _).2 (.inr ⟨h.symm, g⟩)))
  · exact .inr (.inr ((lt_iff _ _).2 (.inl h)))

theorem lt_ne {a b : Key} (h : Key.lt a b = true) : a ≠ b := by
  rintro rfl; rw [lt_irrefl] at h; cases h

theorem lt_of_le {a b : Key} (h : Key.lt b a = false) (hn : a ≠ b) : Key.lt a b = true := by
  rcases lt_tri a b with h' | h' | h'
  · exact h'
  · exact absurd h' hn
  · rw [h] at h'; cases h'

theorem not_end_lt (k : Key) : Key.lt Key.END k = false := by
  cases h : Key.lt Key.END k
  · rfl
  · rw [lt_iff] at h
    have h1 : Key.END.hi.toNat = 2 ^ 64 - 1 := by decide
    have h2 : Key.END.lo.toNat = 2 ^ 64 - 1 := by decide
    have := k.hi.isLt
    have := k.lo.isLt
    omega

theorem zero_le (k : Key) : Key.lt k Key.ZERO = false := by
  cases h : Key.lt k Key.ZERO
  · rfl
  · rw [lt_iff] at h
    have h1 : Key.ZERO.hi.toNat = 0 := by decide
    have h2 : Key.ZERO.lo.toNat = 0 := by decide
    omega

end Key

namespace MemStore

/-- The records are in key order. -/
abbrev Sorted (s : MemStore) : Prop := Spec.KeyOrder s

/-- The frames stored for a key, oldest first. -/
abbrev recs (k : Key) (s : MemStore) : List Frame := Spec.stored k s

theorem recs_append (k : Key) (a b : MemStore) : recs k (a ++ b) = recs k a ++ recs k b := by
  unfold recs Spec.stored; rw [List.filter_append, List.map_append]

theorem recs_none {k : Key} {s : MemStore} (h : ∀ r ∈ s, r.1 ≠ k) : recs k s = [] := by
  unfold recs Spec.stored
  rw [List.filter_eq_nil_iff.2 (by intro r hr; simpa using h r hr)]
  rfl

theorem recs_all {k : Key} {s : MemStore} (h : ∀ r ∈ s, r.1 = k) : recs k s = s.map Prod.snd := by
  unfold recs Spec.stored
  rw [List.filter_eq_self.2 (by intro r hr; simpa using h r hr)]

/-- A store cut at a key. -/
structure Cut (k : Key) (s : MemStore) (L M R : MemStore) : Prop where
  eq : s = L ++ (M ++ R)
  less : ∀ r ∈ L, Key.lt r.1 k = true
  same : ∀ r ∈ M, r.1 = k
  more : ∀ r ∈ R, Key.lt k r.1 = true

theorem cut_exists {s : MemStore} (hs : Sorted s) (k : Key) : ∃ L M R, Cut k s L M R := by
  induction s with
  | nil => exact ⟨[], [], [], rfl, by simp, by simp, by simp⟩
  | cons r s ih =>
    obtain ⟨hr, hs'⟩ := List.pairwise_cons.1 hs
    obtain ⟨L, M, R, c⟩ := ih hs'
    rcases Key.lt_tri r.1 k with h | h | h
    · exact ⟨r :: L, M, R, by rw [c.eq]; rfl, by simpa [h] using c.less, c.same, c.more⟩
    · have hL : L = [] := by
        cases L with
        | nil => rfl
        | cons x L =>
          have h1 := hr x (by rw [c.eq]; simp)
          have h2 := c.less x (by simp)
          rw [← h, h1] at h2; cases h2
      subst hL
      refine ⟨[], r :: M, R, by rw [c.eq]; rfl, by simp, ?_, c.more⟩
      intro x hx
      rcases List.mem_cons.1 hx with rfl | hx
      · exact h
      · exact c.same x hx
    · have hn : ∀ x ∈ s, Key.lt k x.1 = true := by
        intro x hx
        have h1 := hr x hx
        by_cases e : x.1 = r.1
        · rw [e]; exact h
        · exact Key.lt_trans h (Key.lt_of_le h1 (Ne.symm e))
      refine ⟨[], [], r :: s, rfl, by simp, by simp, ?_⟩
      intro x hx
      rcases List.mem_cons.1 hx with rfl | hx
      · exact h
      · exact hn x hx

theorem Cut.lower {k : Key} {s L M R : MemStore} (c : Cut k s L M R) : lower k s = L.length := by
  obtain ⟨rfl, hl, hm, hr⟩ := c
  induction L with
  | nil =>
    cases M with
    | nil =>
      cases R with
      | nil => rfl
      | cons r R => simp [MemStore.lower, Key.lt_asymm (hr r (by simp))]
    | cons m M => simp [MemStore.lower, hm m (by simp), Key.lt_irrefl]
  | cons x L ih =>
    simp only [List.cons_append, MemStore.lower, hl x (by simp), if_true, List.length_cons]
    rw [ih fun r h => hl r (by simp [h])]

theorem Cut.upper {k : Key} {s L M R : MemStore} (c : Cut k s L M R) :
    upper k s = L.length + M.length := by
  obtain ⟨rfl, hl, hm, hr⟩ := c
  induction L with
  | nil =>
    induction M with
    | nil =>
      cases R with
      | nil => rfl
      | cons r R => simp [MemStore.upper, hr r (by simp)]
    | cons m M ih =>
      simp only [List.nil_append, List.cons_append, MemStore.upper, hm m (by simp), Key.lt_irrefl,
        Bool.false_eq_true, if_false, List.length_cons]
      have := ih fun r h => hm r (by simp [h])
      simp only [List.nil_append] at this
      rw [this]; simp only [List.length_nil]; omega
  | cons x L ih =>
    simp only [List.cons_append, MemStore.upper, Key.lt_asymm (hl x (by simp)), Bool.false_eq_true,
      if_false, List.length_cons]
    rw [ih fun r h => hl r (by simp [h])]; omega

theorem Cut.insert {k : Key} {s L M R : MemStore} (c : Cut k s L M R) (f : Frame) :
    insert k f s = L ++ (M ++ (k, f) :: R) := by
  obtain ⟨rfl, hl, hm, hr⟩ := c
  induction L with
  | nil =>
    induction M with
    | nil =>
      cases R with
      | nil => rfl
      | cons r R => simp [MemStore.insert, hr r (by simp)]
    | cons m M ih =>
      simp only [List.nil_append, List.cons_append, MemStore.insert, hm m (by simp), Key.lt_irrefl,
        Bool.false_eq_true, if_false]
      have := ih fun r h => hm r (by simp [h])
      simp only [List.nil_append] at this
      rw [this]
  | cons x L ih =>
    simp only [List.cons_append, MemStore.insert, Key.lt_asymm (hl x (by simp)), Bool.false_eq_true,
      if_false]
    rw [ih fun r h => hl r (by simp [h])]

theorem Cut.erase {k : Key} {s L M R : MemStore} (c : Cut k s L M R) :
    MemStore.erase s L.length (L.length + M.length) = L ++ R ∧
    (s.take (L.length + M.length)).drop L.length = M := by
  obtain ⟨rfl, -, -, -⟩ := c
  constructor
  · unfold MemStore.erase
    rw [List.take_left, ← List.append_assoc, ← List.length_append, List.drop_left]
  · rw [← List.append_assoc, ← List.length_append, List.take_left, List.drop_left]

theorem Cut.recs {k : Key} {s L M R : MemStore} (c : Cut k s L M R) : recs k s = M.map Prod.snd := by
  rw [c.eq, recs_append, recs_append, recs_none (s := L) fun r h => Key.lt_ne (c.less r h),
    recs_none (s := R) fun r h => (Key.lt_ne (c.more r h)).symm, recs_all c.same]
  simp

theorem Cut.recs_other {k j : Key} {s L M R : MemStore} (c : Cut k s L M R) (h : j ≠ k) :
    MemStore.recs j s = MemStore.recs j (L ++ R) := by
  rw [c.eq, recs_append, recs_append, recs_append,
    recs_none (s := M) fun r hr => by rw [c.same r hr]; exact h.symm]
  simp

theorem Cut.drop {k : Key} {s L M R : MemStore} (c : Cut k s L M R) : Cut k (L ++ R) L [] R :=
  ⟨rfl, c.less, by simp, c.more⟩

theorem Cut.put {k : Key} {s L M R : MemStore} (c : Cut k s L M R) (fs : MemStore)
    (h : ∀ r ∈ fs, r.1 = k) : Cut k (L ++ (fs ++ R)) L fs R := ⟨rfl, c.less, h, c.more⟩

theorem Cut.sorted {k : Key} {s L M R : MemStore} (c : Cut k s L M R) (hs : Sorted s)
    (fs : MemStore) (h : ∀ r ∈ fs, r.1 = k) : Sorted (L ++ (fs ++ R)) := by
  rw [c.eq] at hs
  obtain ⟨h1, h2, _⟩ := List.pairwise_append.1 hs
  obtain ⟨_, h4, _⟩ := List.pairwise_append.1 h2
  refine List.pairwise_append.2 ⟨h1, List.pairwise_append.2 ⟨?_, h4, ?_⟩, ?_⟩
  · refine List.pairwise_of_forall_mem_list ?_
    intro a ha b hb
    rw [h a ha, h b hb]; exact Key.lt_irrefl k
  · intro a ha b hb
    rw [h a ha]; exact Key.lt_asymm (c.more b hb)
  · intro a ha b hb
    rcases List.mem_append.1 hb with hb | hb
    · rw [h b hb]; exact Key.lt_asymm (c.less a ha)
    · exact Key.lt_asymm (Key.lt_trans (c.less a ha) (c.more b hb))

theorem insert_sorted {s : MemStore} (hs : Sorted s) (k : Key) (f : Frame) : Sorted (insert k f s) := by
  obtain ⟨L, M, R, c⟩ := cut_exists hs k
  rw [c.insert]
  have := c.sorted hs (M ++ [(k, f)]) (by
    intro r hr
    rcases List.mem_append.1 hr with hr | hr
    · exact c.same r hr
    · rw [List.mem_singleton.1 hr])
  simpa using this

theorem insert_recs {s : MemStore} (hs : Sorted s) (k j : Key) (f : Frame) :
    recs j (insert k f s) = recs j s ++ if j = k then [f] else [] := by
  obtain ⟨L, M, R, c⟩ := cut_exists hs k
  by_cases h : j = k
  · subst h
    have c2 := c.put (M ++ [(j, f)]) (by
      intro r hr
      rcases List.mem_append.1 hr with hr | hr
      · exact c.same r hr
      · rw [List.mem_singleton.1 hr])
    have e : L ++ (M ++ (j, f) :: R) = L ++ (M ++ [(j, f)] ++ R) := by simp
    rw [c.insert, e, c2.recs, c.recs]; simp
  · rw [c.insert, c.eq]
    simp only [if_neg h, recs_append, List.append_nil]
    have : recs j ((k, f) :: R) = recs j R := by
      show recs j ([(k, f)] ++ R) = _
      rw [recs_append, recs_none (by simp [Ne.symm h])]; rfl
    rw [this]

/-- What `Read` does, in terms of the records of the key. -/
theorem read_eq (mg : Reducer) {s : MemStore} (hs : Sorted s) (k : Key) (res : Frame) :
    (recs k s = [] ∧ read mg s k res = some (Status.OK, [], s)) ∨
    (∃ f, recs k s = [f] ∧ read mg s k res = some (Status.OK, f, s)) ∨
    (2 ≤ (recs k s).length ∧
      ((mg k.form (withOps (recs k s)) = none ∧ read mg s k res = none) ∨
      ∃ st out s', mg k.form (withOps (recs k s)) = some (st, out) ∧
        read mg s k res = some (st, if st.ok then out else res, s') ∧ Sorted s' ∧
        recs k s' = [if st.ok then out else res] ∧ ∀ j, j ≠ k → recs j s' = recs j s)) := by
  obtain ⟨L, M, R, c⟩ := cut_exists hs k
  have e1 := c.lower
  have e2 := c.upper
  rw [c.recs]
  match M, c, e2 with
  | [], c, e2 =>
    refine .inl ⟨rfl, ?_⟩
    unfold read
    rw [e1, e2]; simp
  | [m], c, e2 =>
    refine .inr (.inl ⟨m.2, rfl, ?_⟩)
    unfold read
    rw [e1, e2]
    have : s[L.length]? = some m := by rw [c.eq]; simp
    simp [this]
  | m :: n :: M, c, e2 =>
    refine .inr (.inr ⟨by simp, ?_⟩)
    obtain ⟨e3, e4⟩ := c.erase
    have hread : read mg s k res =
        (mg k.form (withOps ((m :: n :: M).map Prod.snd))).map fun r =>
          let result := if r.1.ok then r.2 else res
          (r.1, result, insert k result (L ++ R)) := by
      unfold read
      simp only [e1, e2, e3, e4]
      rw [if_neg (by simp only [List.length_cons]; omega),
        if_neg (by simp only [List.length_cons]; omega)]
    cases hm : mg k.form (withOps ((m :: n :: M).map Prod.snd)) with
    | none => exact .inl ⟨rfl, by rw [hread, hm]; rfl⟩
    | some r =>
      refine .inr ⟨r.1, r.2, insert k (if r.1.ok then r.2 else res) (L ++ R), rfl, by rw [hread, hm]; rfl, ?_⟩
      have hi := c.drop.insert (if r.1.ok then r.2 else res)
      have hall : ∀ x ∈ [(k, if r.1.ok then r.2 else res)], x.1 = k := by
        intro x hx; rw [List.mem_singleton.1 hx]
      have c2 := c.put [(k, if r.1.ok then r.2 else res)] hall
      have hi' : insert k (if r.1.ok then r.2 else res) (L ++ R) =
          L ++ ([(k, if r.1.ok then r.2 else res)] ++ R) := by rw [hi]; rfl
      rw [hi']
      refine ⟨c.sorted hs _ hall, by rw [c2.recs]; rfl, fun j hj => ?_⟩
      rw [c2.recs_other hj, c.recs_other hj]

end MemStore
end Ron
