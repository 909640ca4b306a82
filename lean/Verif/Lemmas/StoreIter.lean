import Verif.Lemmas.Store
import Verif.Spec.Store
/-!
Iteration over the in-memory store.
-/
namespace Ron
namespace MemStore

/-- What `Read` would return for the given records of a key. -/
def readVal (mg : Reducer) (k : Key) : List Frame → Option (Status × Frame)
  | [] => some (Status.OK, [])
  | [f] => some (Status.OK, f)
  | l => mg k.form (withOps l)

theorem read_val (mg : Reducer) {s : MemStore} (hs : Sorted s) (k : Key) (res : Frame) (st : Status)
    (f : Frame) (h : readVal mg k (recs k s) = some (st, f)) :
    ∃ s', read mg s k res = some (st, if st.ok then f else res, s') := by
  rcases read_eq mg hs k res with ⟨e, h'⟩ | ⟨g, e, h'⟩ | ⟨hl, ⟨e, h'⟩ | ⟨st', out, s', e, h', _⟩⟩
  · rw [e] at h; cases h; exact ⟨s, by rw [h']; rfl⟩
  · rw [e] at h; cases h; exact ⟨s, by rw [h']; rfl⟩
  · match hr : recs k s, hl with
    | a :: b :: l, _ => rw [hr] at h e; simp only [readVal] at h; rw [e] at h; cases h
  · match hr : recs k s, hl with
    | a :: b :: l, _ =>
      rw [hr] at h e; simp only [readVal] at h; rw [e] at h; cases h
      exact ⟨s', h'⟩

/-- The number of records of the first key. -/
def grp : MemStore → Nat
  | [] => 0
  | r :: s => Iter.run r.1 (r :: s)

namespace Iter
open Spec

theorem scroll_at (A B : MemStore) (n : Nat) (m : Frame) :
    scroll (A ++ B) ⟨A.length, A.length, n, m⟩ = ⟨A.length, A.length + grp B, grp B, m⟩ := by
  unfold scroll
  cases B with
  | nil => simp [grp]
  | cons r B =>
    have : (A ++ r :: B)[A.length]? = some r := by simp
    simp only [this, List.drop_left, grp]

theorem run_cut {k : Key} : ∀ {s : MemStore}, Sorted s → (∀ r ∈ s, Key.lt r.1 k = false) →
    Cut k s [] (s.take (run k s)) (s.drop (run k s)) ∧ run k s ≤ s.length := by
  intro s
  induction s with
  | nil => intro _ _; exact ⟨⟨rfl, by simp, by simp [run], by simp [run]⟩, by simp [run]⟩
  | cons r s ih =>
    intro hs hk
    obtain ⟨hr, hs'⟩ := List.pairwise_cons.1 hs
    obtain ⟨c, hlen⟩ := ih hs' fun x hx => hk x (by simp [hx])
    by_cases h : r.1 = k
    · simp only [run, h, if_true, List.take_succ_cons, List.drop_succ_cons, List.length_cons]
      refine ⟨⟨by simp, by simp, ?_, c.more⟩, by omega⟩
      intro x hx
      rcases List.mem_cons.1 hx with rfl | hx
      · exact h
      · exact c.same x hx
    · have hlt : Key.lt k r.1 = true := Key.lt_of_le (hk r (by simp)) (Ne.symm h)
      simp only [run, if_neg h, List.take_zero, List.drop_zero]
      refine ⟨⟨rfl, by simp, by simp, ?_⟩, by omega⟩
      intro x hx
      rcases List.mem_cons.1 hx with rfl | hx
      · exact hlt
      · by_cases e : x.1 = r.1
        · rw [e]; exact hlt
        · exact Key.lt_trans hlt (Key.lt_of_le (hr x hx) (Ne.symm e))

/-- The cut at the key of the first record after `A`. -/
theorem grp_cut {A B : MemStore} {r : Key × Frame} (hs : Sorted (A ++ r :: B))
    (hA : ∀ a ∈ A, Key.lt a.1 r.1 = true) :
    Cut r.1 (A ++ r :: B) A ((r :: B).take (grp (r :: B))) ((r :: B).drop (grp (r :: B))) ∧
      1 ≤ grp (r :: B) ∧ grp (r :: B) ≤ B.length + 1 := by
  obtain ⟨_, hs2, _⟩ := List.pairwise_append.1 hs
  obtain ⟨hr, _⟩ := List.pairwise_cons.1 hs2
  have hk : ∀ x ∈ r :: B, Key.lt x.1 r.1 = false := by
    intro x hx
    rcases List.mem_cons.1 hx with rfl | hx
    · exact Key.lt_irrefl _
    · exact hr x hx
  obtain ⟨c, hlen⟩ := run_cut hs2 hk
  refine ⟨⟨?_, hA, c.same, c.more⟩, ?_, by simpa [grp] using hlen⟩
  · simp [grp]
  · simp [grp, run]

/-- What iteration has to show. -/
structure Visited (mg : Reducer) (look : Key → Bool) (s B : MemStore) (out : List (Key × Option Frame))
    (s' : MemStore) : Prop where
  sorted : out.Pairwise fun a b => Key.lt a.1 b.1 = true
  keys : ∀ k, (∃ v, (k, v) ∈ out) ↔ k ≠ Key.END ∧ ∃ f, (k, f) ∈ B
  looked : ∀ k v, (k, v) ∈ out → (v = none ↔ look k = false)
  vals : ∀ k v st f, (k, some v) ∈ out → readVal mg k (recs k s) = some (st, f) → st.ok = true → v = f
  store : Sorted s' ∧ ∀ k st f, readVal mg k (recs k s) = some (st, f) →
    (st.ok = true → ∃ st', st'.ok = true ∧ readVal mg k (recs k s') = some (st', f)) ∧ (st.ok = false → recs k s' = recs k s)

theorem visit_spec (mg : Reducer) (look : Key → Bool) (hmg : ∀ f ins, mg f ins ≠ none) :
    ∀ (fuel : Nat) (A B : MemStore), B.length < fuel → Sorted (A ++ B) →
    (∀ a ∈ A, ∀ b ∈ B, Key.lt a.1 b.1 = true) →
    ∃ out s' it, visit mg look fuel (A ++ B) ⟨A.length, A.length + grp B, grp B, []⟩ =
        some (out, s', it) ∧ it.key s' = some Key.END ∧ Visited mg look (A ++ B) B out s' := by
  intro fuel
  induction fuel with
  | zero => intro A B h; omega
  | succ fuel ih =>
    intro A B hlen hs hAB
    cases B with
    | nil =>
      refine ⟨[], A ++ [], _, by simp [visit, key, grp]; rfl, by simp [key], ⟨List.Pairwise.nil, by simp, by simp, by simp, hs, ?_⟩⟩
      · intro k st f h; exact ⟨fun hok => ⟨st, hok, h⟩, fun _ => rfl⟩
    | cons r B =>
      have hA : ∀ a ∈ A, Key.lt a.1 r.1 = true := fun a ha => hAB a ha r (by simp)
      obtain ⟨c, g1, g2⟩ := grp_cut hs hA
      obtain ⟨_, hsB, _⟩ := List.pairwise_append.1 hs
      have hrB := (List.pairwise_cons.1 hsB).1
      generalize hg : grp (r :: B) = g at *
      have hkey : ∀ m, key (A ++ r :: B) ⟨A.length, A.length + g, g, m⟩ = some r.1 := by
        intro m
        unfold key
        rw [if_neg (by simp only; omega)]
        simp
      by_cases hend : r.1 = Key.END
      · refine ⟨[], A ++ r :: B, ⟨A.length, A.length + g, g, []⟩, ?_, by rw [hkey, hend], ⟨List.Pairwise.nil, ?_, by simp, by simp, hs, ?_⟩⟩
        · simp only [visit, hkey, Option.bind_some, hend, if_true]
        · intro k
          simp only [List.not_mem_nil, exists_false, false_iff, not_and, not_exists]
          intro hk f hf
          rcases List.mem_cons.1 hf with h | h
          · rw [← h] at hend; exact hk hend
          · have := hrB _ h
            rw [hend] at this
            have h2 := Key.lt_of_le (Key.not_end_lt k) hk
            simp only at this
            rw [this] at h2; cases h2
        · intro k st f h; exact ⟨fun hok => ⟨st, hok, h⟩, fun _ => rfl⟩
      · -- the records of this key
        generalize hG : (r :: B).take g = G at c
        generalize hR : (r :: B).drop g = R at c
        have hGl : G.length = g := by rw [← hG, List.length_take]; simp only [List.length_cons]; omega
        have hBR : r :: B = G ++ R := by rw [← hG, ← hR]; simp
        have hrecs := c.recs
        have htd : ((A ++ r :: B).take (A.length + g)).drop A.length = G := by
          have := c.erase.2; rwa [hGl] at this
        have hRl : R.length < fuel := by
          rw [← hR, List.length_drop]; simp only [List.length_cons] at hlen ⊢; omega
        have hGR : ∀ a ∈ G, ∀ b ∈ R, Key.lt a.1 b.1 = true := by
          intro a ha b hb; rw [c.same a ha]; exact c.more b hb
        -- the value, if asked for
        have hval : ∃ v m, (if look r.1 then
            (value mg (A ++ r :: B) ⟨A.length, A.length + g, g, []⟩).map fun x => (some x.1, x.2)
            else some (none, ⟨A.length, A.length + g, g, []⟩)) = some (v, ⟨A.length, A.length + g, g, m⟩) ∧
            (v = none ↔ look r.1 = false) ∧
            (∀ x st f, v = some x → readVal mg r.1 (G.map Prod.snd) = some (st, f) → st.ok = true → x = f) ∧
            (m ≠ [] → ∃ st, st.ok = true ∧ readVal mg r.1 (G.map Prod.snd) = some (st, m)) := by
          cases hl : look r.1
          · exact ⟨none, [], by simp, by simp, by simp, by simp⟩
          · simp only [if_true]
            match hGG : G, hGl with
            | [], h0 => simp only [List.length_nil] at h0; omega
            | [x], h0 =>
              simp only [List.length_singleton] at h0
              have hx : (A ++ r :: B)[A.length]? = some x := by rw [hBR]; simp
              refine ⟨some x.2, [], ?_, by simp, ?_, by simp⟩
              · unfold value
                simp only [← h0, if_neg (show ¬ (1 : Nat) = 0 by omega), if_true, hx, Option.map_some]
              · intro y st f e1 e2 _
                cases e1
                simp only [List.map_cons, List.map_nil, readVal] at e2
                cases e2; rfl
            | x :: y :: G', h0 =>
              simp only [List.length_cons] at h0
              cases hm : mg r.1.form (withOps ((x :: y :: G').map Prod.snd)) with
              | none => exact absurd hm (hmg _ _)
              | some w =>
                refine ⟨some (if w.1.ok then w.2 else []), if w.1.ok then w.2 else [], ?_, by simp, ?_, ?_⟩
                · unfold value
                  rw [if_neg (by simp only; omega), if_neg (by simp only; omega)]
                  simp only [hkey, Option.bind_some, htd, hm, Option.map_some]
                · intro z st f e1 e2 hok
                  cases e1
                  simp only [List.map_cons, readVal] at e2
                  simp only [List.map_cons] at hm
                  rw [hm] at e2; cases e2
                  rw [if_pos hok]
                · intro hne
                  cases hok : w.1.ok with
                  | false => rw [hok] at hne; simp at hne
                  | true =>
                    refine ⟨w.1, hok, ?_⟩
                    simp only [List.map_cons, readVal] at hm ⊢
                    rw [hm, if_pos trivial]
        obtain ⟨v, m, ev, hv1, hv2, hv3⟩ := hval
        -- the next position
        have hnext : ∃ A' st, next (A ++ r :: B) ⟨A.length, A.length + g, g, m⟩ =
              some (st, A' ++ R, ⟨A'.length, A'.length + grp R, grp R, []⟩) ∧ Sorted (A' ++ R) ∧
            (∀ a ∈ A', ∀ b ∈ R, Key.lt a.1 b.1 = true) ∧
            (∀ j, j ≠ r.1 → recs j (A' ++ R) = recs j (A ++ r :: B)) ∧
            (recs r.1 (A' ++ R) = G.map Prod.snd ∨ ∃ st, st.ok = true ∧
              recs r.1 (A' ++ R) = [m] ∧ readVal mg r.1 (G.map Prod.snd) = some (st, m)) := by
          by_cases hc : g > 1 ∧ m ≠ []
          · obtain ⟨st, hst, hrv⟩ := hv3 hc.2
            have hall : ∀ x ∈ [(r.1, m)], x.1 = r.1 := by intro x hx; rw [List.mem_singleton.1 hx]
            have c2 := c.put [(r.1, m)] hall
            refine ⟨A ++ [(r.1, m)], Status.OK, ?_, ?_, ?_, ?_, .inr ⟨st, hst, ?_, hrv⟩⟩
            · have he := c.erase.1
              rw [hGl] at he
              have hi := c.drop.insert m
              have hu := c.drop.upper
              simp only [List.length_nil, Nat.add_zero] at hu
              unfold next
              rw [if_neg (by simp only; omega)]
              simp only [hkey, Option.map_some, if_pos hc, he, hi, hu]
              have e1 : A ++ ([] ++ (r.1, m) :: R) = (A ++ [(r.1, m)]) ++ R := by simp
              have e2 : A.length + 1 = (A ++ [(r.1, m)]).length := by simp
              rw [e1, e2, scroll_at]
            · have := c.sorted hs [(r.1, m)] hall
              simpa using this
            · intro a ha b hb
              rcases List.mem_append.1 ha with ha | ha
              · exact hAB a ha b (by rw [hBR]; simp [hb])
              · rw [List.mem_singleton.1 ha]; exact c.more b hb
            · intro j hj
              have := c2.recs_other hj
              rw [c.recs_other hj, ← this]; simp
            · have := c2.recs
              rw [show A ++ [(r.1, m)] ++ R = A ++ ([(r.1, m)] ++ R) by simp, this]; rfl
          · refine ⟨A ++ G, Status.OK, ?_, ?_, ?_, ?_, .inl ?_⟩
            · unfold next
              rw [if_neg (by simp only; omega)]
              simp only [hkey, Option.map_some, if_neg hc]
              have e2 : A.length + g = (A ++ G).length := by simp [hGl]
              rw [hBR, ← List.append_assoc, e2, scroll_at]
            · rw [List.append_assoc, ← hBR]; exact hs
            · intro a ha b hb
              rcases List.mem_append.1 ha with ha | ha
              · exact hAB a ha b (by rw [hBR]; simp [hb])
              · exact hGR a ha b hb
            · intro j _; rw [List.append_assoc, ← hBR]
            · rw [List.append_assoc, ← hBR, c.recs]
        obtain ⟨A', st', en, hs', hA'R, hoth, hown⟩ := hnext
        obtain ⟨out, s', it, eo, hit, vis⟩ := ih A' R hRl hs' hA'R
        refine ⟨(r.1, v) :: out, s', it, ?_, hit, ?_⟩
        · simp only [visit, hkey, Option.bind_some, if_neg hend, ev, en, eo, Option.map_some]
        · have notin : ∀ k w, (k, w) ∈ out → Key.lt r.1 k = true := by
            intro k w h
            obtain ⟨_, f, hf⟩ := (vis.keys k).1 ⟨w, h⟩
            exact c.more _ hf
          refine ⟨?_, ?_, ?_, ?_, vis.store.1, ?_⟩
          · exact List.pairwise_cons.2 ⟨fun x hx => notin x.1 x.2 hx, vis.sorted⟩
          · intro k
            rw [hBR]
            constructor
            · rintro ⟨w, hw⟩
              rcases List.mem_cons.1 hw with h | h
              · cases h
                refine ⟨hend, r.2, ?_⟩
                have : r ∈ G ++ R := by rw [← hBR]; simp
                exact this
              · obtain ⟨h1, f, hf⟩ := (vis.keys k).1 ⟨w, h⟩
                exact ⟨h1, f, by simp [hf]⟩
            · rintro ⟨hk, f, hf⟩
              rcases List.mem_append.1 hf with h | h
              · have := c.same _ h
                simp only at this
                exact ⟨v, by simp [this]⟩
              · obtain ⟨w, hw⟩ := (vis.keys k).2 ⟨hk, f, h⟩
                exact ⟨w, by simp [hw]⟩
          · intro k w hw
            rcases List.mem_cons.1 hw with h | h
            · cases h; exact hv1
            · exact vis.looked k w h
          · intro k w st f hw hr hok
            rcases List.mem_cons.1 hw with h | h
            · cases h
              rw [hrecs] at hr
              exact hv2 w st f rfl hr hok
            · have hne : k ≠ r.1 := (Key.lt_ne (notin k _ h)).symm
              exact vis.vals k w st f h (by rw [hoth k hne]; exact hr) hok
          · intro k st f hr
            by_cases hk : k = r.1
            · subst hk
              rw [hrecs] at hr
              have hno : ∀ f, (r.1, f) ∉ R := fun f hf => by
                have := c.more _ hf
                rw [Key.lt_irrefl] at this; cases this
              rcases hown with h | ⟨st2, h1, h2, h3⟩
              · have := vis.store.2 r.1 st f (by rw [h]; exact hr)
                rw [h] at this
                rw [hrecs]
                exact this
              · rw [h3] at hr
                obtain ⟨rfl, rfl⟩ : st2 = st ∧ m = f := by
                  cases hr; exact ⟨rfl, rfl⟩
                refine ⟨fun _ => ?_, fun h => by rw [h1] at h; cases h⟩
                have hrv : readVal mg r.1 (recs r.1 (A' ++ R)) = some (Status.OK, m) := by
                  rw [h2]; rfl
                exact (vis.store.2 r.1 _ _ hrv).1 (by decide)
            · have := vis.store.2 k st f (by rw [hoth k hk]; exact hr)
              rw [hoth k hk] at this
              exact this

end Iter
end MemStore
end Ron
