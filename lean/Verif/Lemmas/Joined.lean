import Verif.Lemmas.StoreSeek
/-!
Iteration over an overlay of two stores.
-/
namespace Ron
namespace MemStore

/-- Every readable key reads the same, the others have the same records. -/
def Kept (mg : Reducer) (s s' : MemStore) : Prop := ∀ k st f, readVal mg k (recs k s) = some (st, f) →
  (st.ok = true → ∃ st', st'.ok = true ∧ readVal mg k (recs k s') = some (st', f)) ∧
  (st.ok = false → recs k s' = recs k s)

theorem Kept.refl (mg : Reducer) (s : MemStore) : Kept mg s s :=
  fun _ st _ h => ⟨fun hok => ⟨st, hok, h⟩, fun _ => rfl⟩

theorem Kept.trans {mg : Reducer} {a b c : MemStore} (h : Kept mg a b) (h' : Kept mg b c) :
    Kept mg a c := by
  intro k st f e
  refine ⟨fun hok => ?_, fun hok => ?_⟩
  · obtain ⟨st', h1, h2⟩ := (h k st f e).1 hok
    exact (h' k st' f h2).1 h1
  · have h1 := (h k st f e).2 hok
    have h2 := (h' k st f (by rw [h1]; exact e)).2 hok
    rw [h2, h1]

theorem Kept.read {mg : Reducer} {s s' : MemStore} (h : Kept mg s s') (hs : Sorted s) (hs' : Sorted s')
    {k : Key} {res : Frame} {st : Status} {f : Frame} {t : MemStore}
    (e : s.read mg k res = some (st, f, t)) (hok : st.ok = true) :
    ∃ st' t', s'.read mg k res = some (st', f, t') ∧ st'.ok = true := by
  obtain ⟨st', h1, h2⟩ := (h k st f (read_readVal mg hs e hok)).1 hok
  obtain ⟨t', ht⟩ := read_val mg hs' k res st' f h2
  rw [if_pos h1] at ht
  exact ⟨st', t', ht, h1⟩

end MemStore

namespace Joined
open MemStore MemStore.Iter Spec
namespace JIter

/-- A merged value kept in an iterator belongs to the key it is at. -/
def Valid (mg : Reducer) (s : MemStore) (at_ : Key) (B : MemStore) (m : Frame) : Prop :=
  m ≠ [] → headKey B = at_ ∧ ∃ st, st.ok = true ∧ readVal mg at_ (recs at_ s) = some (st, m)

/-- One layer's part of a step. -/
theorem side (mg : Reducer) {A B : MemStore} {m : Frame} {at_ : Key} (hs : Sorted (A ++ B))
    (hAB : Below A B) (hend : at_ ≠ Key.END) (hB : ∀ b ∈ B, Key.lt b.1 at_ = false)
    (hm : Valid mg (A ++ B) at_ B m) :
    ∃ A' R, step (A ++ B) (pos A B m) at_ = some (Status.OK, A' ++ R, pos A' R []) ∧
      Sorted (A' ++ R) ∧ Below A' R ∧ (∀ x ∈ R, Key.lt at_ x.1 = true) ∧
      (∀ x ∈ B, x.1 = at_ ∨ x ∈ R) ∧ (∀ x ∈ R, x ∈ B) ∧ Kept mg (A ++ B) (A' ++ R) ∧
      (∀ j, j ≠ at_ → recs j (A' ++ R) = recs j (A ++ B)) ∧ R.length ≤ B.length ∧
      (headKey B = at_ → R.length < B.length) := by
  unfold step
  rw [key_at]
  simp only [Option.bind_some]
  by_cases h : headKey B = at_
  · rw [if_pos h]
    cases B with
    | nil => exact absurd h.symm hend
    | cons r B =>
      simp only [headKey] at h
      subst h
      obtain ⟨A', G, R, e, hBR, hG, hR, hGne, h1, h2, h3, h4⟩ :=
        next_at mg hs hAB (fun hne => (hm hne).2)
      refine ⟨A', R, e, h1, h2, hR, ?_, ?_, ?_, h3, ?_, fun _ => ?_⟩
      · intro x hx
        rw [hBR] at hx
        rcases List.mem_append.1 hx with hx | hx
        · exact .inl (hG x hx)
        · exact .inr hx
      · intro x hx; rw [hBR]; exact List.mem_append_right _ hx
      · intro k st f hk
        by_cases hkr : k = r.1
        · subst hkr
          rcases h4 with h | ⟨st2, g1, g2, g3⟩
          · rw [h]; exact ⟨fun hok => ⟨st, hok, hk⟩, fun _ => rfl⟩
          · rw [g3] at hk
            obtain ⟨rfl, rfl⟩ : st2 = st ∧ m = f := by cases hk; exact ⟨rfl, rfl⟩
            refine ⟨fun _ => ⟨Status.OK, by decide, by rw [g2]; rfl⟩, fun h => ?_⟩
            rw [g1] at h; cases h
        · rw [h3 k hkr]; exact ⟨fun hok => ⟨st, hok, hk⟩, fun _ => rfl⟩
      · rw [hBR]; simp
      · rw [hBR, List.length_append]
        have := List.length_pos_iff.2 hGne
        omega
  · rw [if_neg h]
    have hm0 : m = [] := by
      apply Classical.byContradiction
      intro hne; exact h (hm hne).1
    subst hm0
    have hno : ∀ x ∈ B, Key.lt at_ x.1 = true := by
      intro x hx
      have hne : x.1 ≠ at_ := by
        rintro e
        cases B with
        | nil => cases hx
        | cons r B =>
          simp only [headKey] at h
          have h1 := hB r (by simp)
          have h2 := Key.lt_of_le h1 (Ne.symm h)
          rcases List.mem_cons.1 hx with rfl | hx
          · exact h e
          · have := (List.pairwise_cons.1 (List.pairwise_append.1 hs).2.1).1 x hx
            rw [e, h2] at this; cases this
      exact Key.lt_of_le (hB x hx) (Ne.symm hne)
    exact ⟨A, B, rfl, hs, hAB, hno, fun x hx => .inr hx, fun x hx => hx, Kept.refl _ _,
      fun _ _ => rfl, Nat.le_refl _, fun h' => absurd h' h⟩

/-- What iteration has to show. -/
structure Visited (mg : Reducer) (look : Key → Bool) (s : Joined) (Ba Bb : MemStore)
    (out : List (Key × Option (Option Frame))) (s' : Joined) : Prop where
  sorted : out.Pairwise fun a b => Key.lt a.1 b.1 = true
  keys : ∀ k, (∃ v, (k, v) ∈ out) ↔ k ≠ Key.END ∧ ∃ f, (k, f) ∈ Ba ∨ (k, f) ∈ Bb
  looked : ∀ k v, (k, v) ∈ out → (v = none ↔ look k = false)
  vals : ∀ k v sa fa sb fb, (k, some v) ∈ out → readVal mg k (recs k s.a) = some (sa, fa) → sa.ok = true →
    readVal mg k (recs k s.b) = some (sb, fb) → sb.ok = true →
    (recs k s.a = [] → v = some fb) ∧ (recs k s.b = [] → v = some fa) ∧
    (recs k s.a ≠ [] → recs k s.b ≠ [] → ∀ st f, mergeGuess mg [fa, fb] = some (st, f) →
      st.ok = true → v = some f)
  sortedA : Sorted s'.a
  sortedB : Sorted s'.b
  keptA : Kept mg s.a s'.a
  keptB : Kept mg s.b s'.b

theorem headKey_min {A B : MemStore} (hs : Sorted (A ++ B)) : ∀ b ∈ B, Key.lt b.1 (headKey B) = false := by
  intro b hb
  cases B with
  | nil => cases hb
  | cons r B =>
    rcases List.mem_cons.1 hb with rfl | hb
    · exact Key.lt_irrefl _
    · exact (List.pairwise_cons.1 (List.pairwise_append.1 hs).2.1).1 b hb

theorem minKey_le_left (a b x : Key) (h : Key.lt x a = false) : Key.lt x (minKey a b) = false := by
  unfold minKey
  cases hba : Key.lt b a
  · exact h
  · simp only [if_true]
    cases hx : Key.lt x b
    · rfl
    · rw [Key.lt_trans hx hba] at h; cases h

theorem minKey_le_right (a b x : Key) (h : Key.lt x b = false) : Key.lt x (minKey a b) = false := by
  unfold minKey
  cases hba : Key.lt b a
  · simp only [Bool.false_eq_true, if_false]
    cases hx : Key.lt x a
    · rfl
    · by_cases e : a = b
      · rw [e, h] at hx; cases hx
      · have := Key.lt_trans hx (Key.lt_of_le hba e)
        rw [h] at this; cases this
  · exact h

theorem minKey_or (a b : Key) : minKey a b = a ∨ minKey a b = b := by
  unfold minKey; split <;> simp

theorem recs_head {A B : MemStore} (hAB : Below A B) (hs : Sorted (A ++ B)) {k : Key}
    (hB : ∀ b ∈ B, Key.lt b.1 k = false) (hA : ∀ a ∈ A, Key.lt a.1 k = true) (hend : k ≠ Key.END) :
    headKey B = k ↔ recs k (A ++ B) ≠ [] := by
  rw [← mem_recs]
  constructor
  · intro h
    cases B with
    | nil => exact absurd h.symm hend
    | cons r B => exact ⟨r.2, by rw [← h]; simp [headKey]⟩
  · rintro ⟨f, hf⟩
    rcases List.mem_append.1 hf with h | h
    · have := hA _ h; rw [Key.lt_irrefl] at this; cases this
    · cases B with
      | nil => cases h
      | cons r B =>
        have h1 := hB r (by simp)
        have h2 := headKey_min hs _ h
        simp only [headKey] at h2 ⊢
        rcases Key.lt_tri r.1 k with g | g | g
        · rw [h1] at g; cases g
        · exact g
        · rw [h2] at g; cases g

theorem jvisit_spec (mg : Reducer) (look : Key → Bool) (hmg : ∀ f ins, mg f ins ≠ none) :
    ∀ (fuel : Nat) (Aa Ba Ab Bb : MemStore), Ba.length + Bb.length < fuel →
    Sorted (Aa ++ Ba) → Sorted (Ab ++ Bb) → Below Aa Ba → Below Ab Bb → Below Aa Bb → Below Ab Ba →
    (∀ a ∈ Aa, a.1 ≠ Key.END) → (∀ a ∈ Ab, a.1 ≠ Key.END) →
    ∃ out s' it, jvisit mg look fuel ⟨Aa ++ Ba, Ab ++ Bb⟩
        ⟨pos Aa Ba [], pos Ab Bb [], minKey (headKey Ba) (headKey Bb)⟩ = some (out, s', it) ∧
      it.at_ = Key.END ∧ Visited mg look ⟨Aa ++ Ba, Ab ++ Bb⟩ Ba Bb out s' := by
  intro fuel
  induction fuel with
  | zero => intro Aa Ba Ab Bb h; omega
  | succ fuel ih =>
    intro Aa Ba Ab Bb hlen hsa hsb haa hbb hab hba hea heb
    generalize hat : minKey (headKey Ba) (headKey Bb) = at_
    have hBa : ∀ b ∈ Ba, Key.lt b.1 at_ = false := fun b hb => by
      rw [← hat]; exact minKey_le_left _ _ _ (headKey_min hsa b hb)
    have hBb : ∀ b ∈ Bb, Key.lt b.1 at_ = false := fun b hb => by
      rw [← hat]; exact minKey_le_right _ _ _ (headKey_min hsb b hb)
    by_cases hend : at_ = Key.END
    · refine ⟨[], _, _, by unfold jvisit; rw [if_pos hend], hend,
        ⟨List.Pairwise.nil, ?_, by simp, by simp, hsa, hsb, Kept.refl _ _, Kept.refl _ _⟩⟩
      intro k
      simp only [List.not_mem_nil, exists_false, false_iff, not_and, not_exists, not_or]
      intro hk f
      have hlt := Key.lt_of_le (Key.not_end_lt k) hk
      constructor
      · intro h; have := hBa _ h; rw [hend, hlt] at this; cases this
      · intro h; have := hBb _ h; rw [hend, hlt] at this; cases this
    · have hAa : ∀ a ∈ Aa, Key.lt a.1 at_ = true := by
        intro a ha
        rcases minKey_or (headKey Ba) (headKey Bb) with h | h
        · cases Ba with
          | nil => rw [hat] at h; exact absurd h hend
          | cons r B => rw [← hat, h]; exact haa a ha r (by simp)
        · cases Bb with
          | nil => rw [hat] at h; exact absurd h hend
          | cons r B => rw [← hat, h]; exact hab a ha r (by simp)
      have hAb : ∀ a ∈ Ab, Key.lt a.1 at_ = true := by
        intro a ha
        rcases minKey_or (headKey Ba) (headKey Bb) with h | h
        · cases Ba with
          | nil => rw [hat] at h; exact absurd h hend
          | cons r B => rw [← hat, h]; exact hba a ha r (by simp)
        · cases Bb with
          | nil => rw [hat] at h; exact absurd h hend
          | cons r B => rw [← hat, h]; exact hbb a ha r (by simp)
      have hra := recs_head haa hsa hBa hAa hend
      have hrb := recs_head hbb hsb hBb hAb hend
      have valA : headKey Ba = at_ → ∃ x m, Iter.value mg (Aa ++ Ba) (pos Aa Ba []) = some (x, pos Aa Ba m) ∧
          (∀ st f, readVal mg at_ (recs at_ (Aa ++ Ba)) = some (st, f) → st.ok = true → x = f) ∧
          Valid mg (Aa ++ Ba) at_ Ba m := by
        intro h
        cases Ba with
        | nil => exact absurd h.symm hend
        | cons r B =>
          obtain ⟨x, m, h1, h2, h3⟩ := value_at mg hmg hsa haa
          simp only [headKey] at h
          subst h
          exact ⟨x, m, h1, h2, fun hne => ⟨rfl, h3 hne⟩⟩
      have valB : headKey Bb = at_ → ∃ x m, Iter.value mg (Ab ++ Bb) (pos Ab Bb []) = some (x, pos Ab Bb m) ∧
          (∀ st f, readVal mg at_ (recs at_ (Ab ++ Bb)) = some (st, f) → st.ok = true → x = f) ∧
          Valid mg (Ab ++ Bb) at_ Bb m := by
        intro h
        cases Bb with
        | nil => exact absurd h.symm hend
        | cons r B =>
          obtain ⟨x, m, h1, h2, h3⟩ := value_at mg hmg hsb hbb
          simp only [headKey] at h
          subst h
          exact ⟨x, m, h1, h2, fun hne => ⟨rfl, h3 hne⟩⟩
      -- the value, if asked for
      have hval : ∃ v ma mb, (if look at_ then
          (value mg ⟨Aa ++ Ba, Ab ++ Bb⟩ ⟨pos Aa Ba [], pos Ab Bb [], at_⟩).map fun r => (some r.1, r.2)
          else some (none, ⟨pos Aa Ba [], pos Ab Bb [], at_⟩)) =
            some (v, ⟨pos Aa Ba ma, pos Ab Bb mb, at_⟩) ∧ (v = none ↔ look at_ = false) ∧
          Valid mg (Aa ++ Ba) at_ Ba ma ∧ Valid mg (Ab ++ Bb) at_ Bb mb ∧
          (∀ x sa fa sb fb, v = some x →
            readVal mg at_ (recs at_ (Aa ++ Ba)) = some (sa, fa) → sa.ok = true →
            readVal mg at_ (recs at_ (Ab ++ Bb)) = some (sb, fb) → sb.ok = true →
            (recs at_ (Aa ++ Ba) = [] → x = some fb) ∧ (recs at_ (Ab ++ Bb) = [] → x = some fa) ∧
            (recs at_ (Aa ++ Ba) ≠ [] → recs at_ (Ab ++ Bb) ≠ [] → ∀ st f,
              mergeGuess mg [fa, fb] = some (st, f) → st.ok = true → x = some f)) := by
        cases hl : look at_ with
        | false =>
          exact ⟨none, [], [], by simp, by simp, fun h => absurd rfl h, fun h => absurd rfl h, by simp⟩
        | true =>
          rw [if_pos rfl]
          unfold value
          simp only [key_at, Option.bind_some]
          by_cases ha : headKey Ba = at_
          · rw [if_neg (by simpa using ha)]
            obtain ⟨xa, ma, ea, va, wa⟩ := valA ha
            by_cases hb : headKey Bb = at_
            · rw [if_neg (by simpa using hb)]
              obtain ⟨xb, mb, eb, vb, wb⟩ := valB hb
              simp only [ea, eb, Option.bind_some]
              have hne : mergeGuess mg [xa, xb] ≠ none := by
                unfold mergeGuess
                split
                · simp
                · exact hmg _ _
              cases hmgq : mergeGuess mg [xa, xb] with
              | none => exact absurd hmgq hne
              | some w =>
                refine ⟨_, ma, mb, rfl, by simp, wa, wb, ?_⟩
                intro x sa fa sb fb hx h1 h2 h3 h4
                cases hx
                refine ⟨fun h => absurd h (hra.1 ha), fun h => absurd h (hrb.1 hb), fun _ _ st f h5 h6 => ?_⟩
                rw [← va sa fa h1 h2, ← vb sb fb h3 h4, hmgq] at h5
                cases h5
                simp only [if_pos h6]
            · rw [if_pos (by simpa using hb)]
              simp only [ea, Option.map_some]
              refine ⟨_, ma, [], rfl, by simp, wa, fun h => absurd rfl h, ?_⟩
              intro x sa fa sb fb hx h1 h2 h3 h4
              cases hx
              exact ⟨fun h => absurd h (hra.1 ha), fun _ => by rw [va sa fa h1 h2],
                fun _ h => absurd (hrb.2 h) hb⟩
          · rw [if_pos (by simpa using ha)]
            have hb : headKey Bb = at_ := by
              rcases minKey_or (headKey Ba) (headKey Bb) with h | h
              · rw [hat] at h; exact absurd h.symm ha
              · rw [hat] at h; exact h.symm
            obtain ⟨xb, mb, eb, vb, wb⟩ := valB hb
            simp only [eb, Option.map_some]
            refine ⟨_, [], mb, rfl, by simp, fun h => absurd rfl h, wb, ?_⟩
            intro x sa fa sb fb hx h1 h2 h3 h4
            cases hx
            exact ⟨fun _ => by rw [vb sb fb h3 h4], fun h => absurd h (hrb.1 hb),
              fun h => absurd (hra.2 h) ha⟩
      obtain ⟨v, ma, mb, ev, hv1, wa, wb, hv2⟩ := hval
      obtain ⟨Aa', Ra, ea, a1, a2, a3, a4, a5, a6, a7, a8, a9⟩ := side mg hsa haa hend hBa wa
      obtain ⟨Ab', Rb, eb, b1, b2, b3, b4, b5, b6, b7, b8, b9⟩ := side mg hsb hbb hend hBb wb
      -- everything passed is not after the key we were at
      have leA : ∀ x ∈ Aa', Key.lt at_ x.1 = false := by
        intro x hx
        cases hlt : Key.lt at_ x.1
        · rfl
        · have hm : recs x.1 (Aa' ++ Ra) ≠ [] := mem_recs.1 ⟨x.2, by simp [hx]⟩
          rw [a7 _ (Key.lt_ne hlt).symm] at hm
          obtain ⟨f, hf⟩ := mem_recs.2 hm
          rcases List.mem_append.1 hf with h | h
          · have h' := hAa _ h; have := Key.lt_trans hlt h'; rw [Key.lt_irrefl] at this; cases this
          · rcases a4 _ h with h | h
            · simp only at h; rw [h, Key.lt_irrefl] at hlt; cases hlt
            · have := a2 x hx _ h; rw [Key.lt_irrefl] at this; cases this
      have leB : ∀ x ∈ Ab', Key.lt at_ x.1 = false := by
        intro x hx
        cases hlt : Key.lt at_ x.1
        · rfl
        · have hm : recs x.1 (Ab' ++ Rb) ≠ [] := mem_recs.1 ⟨x.2, by simp [hx]⟩
          rw [b7 _ (Key.lt_ne hlt).symm] at hm
          obtain ⟨f, hf⟩ := mem_recs.2 hm
          rcases List.mem_append.1 hf with h | h
          · have h' := hAb _ h; have := Key.lt_trans hlt h'; rw [Key.lt_irrefl] at this; cases this
          · rcases b4 _ h with h | h
            · simp only at h; rw [h, Key.lt_irrefl] at hlt; cases hlt
            · have := b2 x hx _ h; rw [Key.lt_irrefl] at this; cases this
      have cross : ∀ (x y : Key), Key.lt at_ x = false → Key.lt at_ y = true → Key.lt x y = true := by
        intro x y h1 h2
        by_cases e : x = at_
        · rw [e]; exact h2
        · exact Key.lt_trans (Key.lt_of_le h1 e) h2
      have noend : ∀ x : Key, Key.lt at_ x = false → x ≠ Key.END := by
        rintro x h rfl
        have := Key.lt_of_le (Key.not_end_lt at_) hend
        rw [h] at this; cases this
      have hlen' : Ra.length + Rb.length < fuel := by
        rcases minKey_or (headKey Ba) (headKey Bb) with h | h
        · have := a9 (by rw [← h, hat]); omega
        · have := b9 (by rw [← h, hat]); omega
      obtain ⟨out, s', it, eo, hit, vis⟩ := ih Aa' Ra Ab' Rb hlen' a1 b1 a2 b2
        (fun x hx y hy => cross _ _ (leA x hx) (b3 y hy))
        (fun x hx y hy => cross _ _ (leB x hx) (a3 y hy))
        (fun x hx => noend _ (leA x hx)) (fun x hx => noend _ (leB x hx))
      refine ⟨(at_, v) :: out, s', it, ?_, hit, ?_⟩
      · unfold jvisit
        rw [if_neg hend]
        simp only [ev, Option.bind_some]
        have en : next ⟨Aa ++ Ba, Ab ++ Bb⟩ ⟨pos Aa Ba ma, pos Ab Bb mb, at_⟩ =
            some (Status.OK, ⟨Aa' ++ Ra, Ab' ++ Rb⟩,
              ⟨pos Aa' Ra [], pos Ab' Rb [], minKey (headKey Ra) (headKey Rb)⟩) := by
          unfold next
          simp only [ea, eb, Option.bind_some, key_at, Option.map_some]
          rw [if_neg (by decide), if_neg (by decide)]
        rw [en]
        simp only [Option.bind_some]
        rw [if_pos (by decide), eo]
        rfl
      · have notin : ∀ k w, (k, w) ∈ out → Key.lt at_ k = true := by
          intro k w h
          obtain ⟨_, f, hf⟩ := (vis.keys k).1 ⟨w, h⟩
          rcases hf with hf | hf
          · exact a3 _ hf
          · exact b3 _ hf
        refine ⟨List.pairwise_cons.2 ⟨fun x hx => notin x.1 x.2 hx, vis.sorted⟩, ?_, ?_, ?_,
          vis.sortedA, vis.sortedB, a6.trans vis.keptA, b6.trans vis.keptB⟩
        · intro k
          constructor
          · rintro ⟨w, hw⟩
            rcases List.mem_cons.1 hw with h | h
            · cases h
              refine ⟨hend, ?_⟩
              rcases minKey_or (headKey Ba) (headKey Bb) with h | h
              · cases Ba with
                | nil => rw [hat] at h; exact absurd h hend
                | cons r B =>
                  rw [hat] at h; simp only [headKey] at h
                  exact ⟨r.2, .inl (by rw [h]; simp)⟩
              · cases Bb with
                | nil => rw [hat] at h; exact absurd h hend
                | cons r B =>
                  rw [hat] at h; simp only [headKey] at h
                  exact ⟨r.2, .inr (by rw [h]; simp)⟩
            · obtain ⟨h1, f, hf⟩ := (vis.keys k).1 ⟨w, h⟩
              exact ⟨h1, f, hf.imp (a5 _) (b5 _)⟩
          · rintro ⟨hk, f, hf⟩
            by_cases e : k = at_
            · exact ⟨v, by rw [e]; simp⟩
            · have : (k, f) ∈ Ra ∨ (k, f) ∈ Rb := by
                rcases hf with hf | hf
                · exact .inl ((a4 _ hf).resolve_left e)
                · exact .inr ((b4 _ hf).resolve_left e)
              obtain ⟨w, hw⟩ := (vis.keys k).2 ⟨hk, f, this⟩
              exact ⟨w, List.mem_cons_of_mem _ hw⟩
        · intro k w hw
          rcases List.mem_cons.1 hw with h | h
          · cases h; exact hv1
          · exact vis.looked k w h
        · intro k w sa fa sb fb hw h1 h2 h3 h4
          rcases List.mem_cons.1 hw with h | h
          · cases h
            exact hv2 w sa fa sb fb rfl h1 h2 h3 h4
          · have hne : k ≠ at_ := (Key.lt_ne (notin k _ h)).symm
            have := vis.vals k w sa fa sb fb h (by simp only; rw [a7 k hne]; exact h1) h2
              (by simp only; rw [b7 k hne]; exact h3) h4
            simp only [a7 k hne, b7 k hne] at this
            exact this

end JIter
end Joined
end Ron
