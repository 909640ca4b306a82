import Verif.Lemmas.StoreRun
/-!
Seeking, single steps of an iterator, and two iterators side by side.
-/
namespace Ron
namespace MemStore

/-- The key of the first record; `Key::END` if there is none. -/
def headKey : MemStore → Key
  | [] => Key.END
  | r :: _ => r.1

namespace Iter
open Spec

/-- An iterator between the records before it and the rest. -/
abbrev pos (A B : MemStore) (m : Frame) : Iter := ⟨A.length, A.length + grp B, grp B, m⟩

/-- All keys of `A` are less than those of `B`. -/
def Below (A B : MemStore) : Prop := ∀ a ∈ A, ∀ b ∈ B, Key.lt a.1 b.1 = true

theorem grp_cons (r : Key × Frame) (B : MemStore) : grp (r :: B) ≠ 0 := by
  simp [grp, run]

theorem key_at (A B : MemStore) (m : Frame) : key (A ++ B) (pos A B m) = some (headKey B) := by
  cases B with
  | nil => simp [key, grp, headKey]
  | cons r B =>
    unfold key
    rw [if_neg (grp_cons r B)]
    simp [headKey]

theorem value_at (mg : Reducer) (hmg : ∀ f ins, mg f ins ≠ none) {A B : MemStore} {r : Key × Frame}
    (hs : Sorted (A ++ r :: B)) (hA : Below A (r :: B)) :
    ∃ x m, value mg (A ++ r :: B) (pos A (r :: B) []) = some (x, pos A (r :: B) m) ∧
      (∀ st f, readVal mg r.1 (recs r.1 (A ++ r :: B)) = some (st, f) → st.ok = true → x = f) ∧
      (m ≠ [] → ∃ st, st.ok = true ∧ readVal mg r.1 (recs r.1 (A ++ r :: B)) = some (st, m)) := by
  obtain ⟨c, g1, g2⟩ := grp_cut hs fun a ha => hA a ha r (by simp)
  have hkey := fun m => key_at A (r :: B) m
  simp only [headKey] at hkey
  unfold pos at *
  generalize hg : grp (r :: B) = g at *
  have hrecs := c.recs
  have htd := c.erase.2
  have hGl : ((r :: B).take g).length = g := by rw [List.length_take]; simp only [List.length_cons]; omega
  rw [hGl] at htd
  rw [hrecs]
  have hBR : r :: B = (r :: B).take g ++ (r :: B).drop g := by simp
  generalize (r :: B).take g = G at *
  match hGG : G, hGl with
  | [], h0 => simp only [List.length_nil] at h0; omega
  | [x], h0 =>
    simp only [List.length_singleton] at h0
    have hx : (A ++ r :: B)[A.length]? = some x := by rw [hBR]; simp
    refine ⟨x.2, [], ?_, ?_, by simp⟩
    · unfold value
      simp only [← h0, if_neg (show ¬ (1 : Nat) = 0 by omega), if_true, hx, Option.map_some]
    · intro st f e2 _
      simp only [List.map_cons, List.map_nil, readVal] at e2
      cases e2; rfl
  | x :: y :: G', h0 =>
    simp only [List.length_cons] at h0
    cases hm : mg r.1.form (withOps ((x :: y :: G').map Prod.snd)) with
    | none => exact absurd hm (hmg _ _)
    | some w =>
      refine ⟨if w.1.ok then w.2 else [], if w.1.ok then w.2 else [], ?_, ?_, ?_⟩
      · unfold value
        rw [if_neg (by simp only; omega), if_neg (by simp only; omega)]
        simp only [hkey, Option.bind_some, htd, hm, Option.map_some]
      · intro st f e2 hok
        simp only [List.map_cons, readVal] at e2
        simp only [List.map_cons] at hm
        rw [hm] at e2; cases e2
        rw [if_pos hok]
      · intro hne
        cases hok : w.1.ok with
        | false => rw [hok] at hne; simp at hne
        | true =>
          refine ⟨w.1, hok, ?_⟩
          simp only [List.map_cons, readVal] at hm ⊢
          rw [hm, if_pos trivial]

theorem next_at (mg : Reducer) {A B : MemStore} {r : Key × Frame} {m : Frame}
    (hs : Sorted (A ++ r :: B)) (hA : Below A (r :: B))
    (hm : m ≠ [] → ∃ st, st.ok = true ∧ readVal mg r.1 (recs r.1 (A ++ r :: B)) = some (st, m)) :
    ∃ A' G R, next (A ++ r :: B) (pos A (r :: B) m) = some (Status.OK, A' ++ R, pos A' R []) ∧
      r :: B = G ++ R ∧ (∀ x ∈ G, x.1 = r.1) ∧ (∀ x ∈ R, Key.lt r.1 x.1 = true) ∧ G ≠ [] ∧
      Sorted (A' ++ R) ∧ Below A' R ∧
      (∀ j, j ≠ r.1 → recs j (A' ++ R) = recs j (A ++ r :: B)) ∧
      (recs r.1 (A' ++ R) = recs r.1 (A ++ r :: B) ∨ ∃ st, st.ok = true ∧
        recs r.1 (A' ++ R) = [m] ∧ readVal mg r.1 (recs r.1 (A ++ r :: B)) = some (st, m)) := by
  obtain ⟨c, g1, g2⟩ := grp_cut hs fun a ha => hA a ha r (by simp)
  have hkey := fun m => key_at A (r :: B) m
  simp only [headKey] at hkey
  unfold pos at hkey ⊢
  generalize hg : grp (r :: B) = g at *
  have hGl : ((r :: B).take g).length = g := by rw [List.length_take]; simp only [List.length_cons]; omega
  have hBR : r :: B = (r :: B).take g ++ (r :: B).drop g := by simp
  generalize (r :: B).take g = G at *
  generalize (r :: B).drop g = R at *
  have hGne : G ≠ [] := by rintro rfl; simp only [List.length_nil] at hGl; omega
  by_cases hc : g > 1 ∧ m ≠ []
  · obtain ⟨st, hst, hrv⟩ := hm hc.2
    have hall : ∀ x ∈ [(r.1, m)], x.1 = r.1 := by intro x hx; rw [List.mem_singleton.1 hx]
    have c2 := c.put [(r.1, m)] hall
    refine ⟨A ++ [(r.1, m)], G, R, ?_, hBR, c.same, c.more, hGne, ?_, ?_, ?_, .inr ⟨st, hst, ?_, hrv⟩⟩
    · have he := c.erase.1
      rw [hGl] at he
      have hi := c.drop.insert m
      have hu := c.drop.upper
      simp only [List.length_nil, Nat.add_zero] at hu
      unfold next
      rw [if_neg (by simp only; omega)]
      simp only [hkey, Option.map_some, if_pos hc, he, hi, hu]
      have e1 : A ++ ([] ++ (r.1, m) :: R) = (A ++ [(r.1, m)]) ++ R := by simp
      have e2 : A.length + 1 = (A ++ [(r.1, m)]).length := by simp
      rw [e1, e2, scroll_at]
    · have := c.sorted hs [(r.1, m)] hall
      simpa using this
    · intro a ha b hb
      rcases List.mem_append.1 ha with ha | ha
      · exact hA a ha b (by rw [hBR]; simp [hb])
      · rw [List.mem_singleton.1 ha]; exact c.more b hb
    · intro j hj
      have := c2.recs_other hj
      rw [c.recs_other hj, ← this]; simp
    · have := c2.recs
      rw [show A ++ [(r.1, m)] ++ R = A ++ ([(r.1, m)] ++ R) by simp, this]; rfl
  · refine ⟨A ++ G, G, R, ?_, hBR, c.same, c.more, hGne, ?_, ?_, ?_, .inl ?_⟩
    · unfold next
      rw [if_neg (by simp only; omega)]
      simp only [hkey, Option.map_some, if_neg hc]
      have e2 : A.length + g = (A ++ G).length := by simp [hGl]
      rw [hBR, ← List.append_assoc, e2, scroll_at]
    · rw [List.append_assoc, ← hBR]; exact hs
    · intro a ha b hb
      rcases List.mem_append.1 ha with ha | ha
      · exact hA a ha b (by rw [hBR]; simp [hb])
      · rw [c.same a ha]; exact c.more b hb
    · intro j _; rw [List.append_assoc, ← hBR]
    · rw [List.append_assoc, ← hBR]

/-- A forward seek. -/
theorem seek_at {s : MemStore} (hs : Sorted s) (k : Key) :
    ∃ A B, s = A ++ B ∧ fresh.seekTo s k = pos A B [] ∧ Below A B ∧
      (∀ a ∈ A, Key.lt a.1 k = true) ∧ ∀ b ∈ B, Key.lt b.1 k = false := by
  obtain ⟨L, M, R, c⟩ := cut_exists hs k
  have hb : ∀ b ∈ M ++ R, Key.lt b.1 k = false := by
    intro b hb
    rcases List.mem_append.1 hb with h | h
    · rw [c.same b h]; exact Key.lt_irrefl k
    · exact Key.lt_asymm (c.more b h)
  refine ⟨L, M ++ R, c.eq, ?_, ?_, c.less, hb⟩
  · unfold seekTo
    rw [c.lower]
    have e := c.eq
    generalize M ++ R = B at e
    subst e
    cases B with
    | nil => simp [fresh, grp]
    | cons r B =>
      have : (L ++ r :: B)[L.length]? = some r := by simp
      simp only [this]
      have h := scroll_at L (r :: B) 0 []
      simpa [fresh] using h
  · intro a ha b hb'
    have h1 := c.less a ha
    rcases List.mem_append.1 hb' with h | h
    · rw [c.same b h]; exact h1
    · exact Key.lt_trans h1 (c.more b h)

end Iter

theorem mem_recs {k : Key} {s : MemStore} : (∃ f, (k, f) ∈ s) ↔ recs k s ≠ [] := by
  unfold recs Spec.stored
  rw [Ne, List.map_eq_nil_iff, List.filter_eq_nil_iff]
  constructor
  · rintro ⟨f, hf⟩ h
    exact h (k, f) hf (by simp)
  · intro h
    apply Classical.byContradiction
    intro hn
    apply h
    intro r hr
    simp only [decide_eq_true_eq]
    intro e
    exact hn ⟨r.2, by rw [← e]; exact hr⟩

theorem read_readVal (mg : Reducer) {s : MemStore} (hs : Sorted s) {k : Key} {res : Frame} {st : Status}
    {f : Frame} {t : MemStore} (h : s.read mg k res = some (st, f, t)) (hok : st.ok = true) :
    readVal mg k (recs k s) = some (st, f) := by
  rcases read_eq mg hs k res with ⟨e, h'⟩ | ⟨g, e, h'⟩ | ⟨hl, ⟨e, h'⟩ | ⟨st', out, s', e, h', _⟩⟩
  · rw [h'] at h; cases h; rw [e]; rfl
  · rw [h'] at h; cases h; rw [e]; rfl
  · rw [h'] at h; cases h
  · rw [h'] at h; cases h
    rw [if_pos hok]
    match hr : recs k s, hl with
    | a :: b :: l, _ => rw [hr] at e; simp only [readVal]; exact e

end MemStore
end Ron
