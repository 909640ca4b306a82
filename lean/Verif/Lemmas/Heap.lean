import Verif.Model.Merge
/-!
The heap of `MergeCursor` keeps the least cursor at the front.
-/
namespace Ron
namespace Heap
variable {α : Type}

/-- `lt` is a strict weak order. -/
structure Order (lt : α → α → Bool) : Prop where
  asymm : ∀ a b, lt a b = true → lt b a = false
  neg : ∀ a b c, lt b a = false → lt c b = false → lt c a = false

theorem Order.irrefl {lt : α → α → Bool} (o : Order lt) (a : α) : lt a a = false := by
  cases h : lt a a with
  | false => rfl
  | true => have := o.asymm a a h; rw [h] at this; exact this

/-- The order holds between an index and its parent. -/
def Ok (lt : α → α → Bool) (h : List (Cur α)) (i : Nat) : Prop :=
  ∀ a b, h[up i]? = some a → h[i]? = some b → lt b.1 a.1 = false

def IsHeap (lt : α → α → Bool) (h : List (Cur α)) : Prop := ∀ i, 0 < i → Ok lt h i

theorem up_lt {i : Nat} (h : 0 < i) : up i < i := by unfold up; omega
theorem up_left (i : Nat) : up (left i) = i := by unfold up left; omega
theorem up_right (i : Nat) : up (right i) = i := by unfold up right; omega
theorem up_eq {i j : Nat} (h : 0 < i) (e : up i = j) : i = left j ∨ i = right j := by
  unfold up left right at *; omega

theorem getElem?_some {l : List (Cur α)} {i : Nat} (h : i < l.length) : ∃ a, l[i]? = some a :=
  ⟨_, List.getElem?_eq_getElem h⟩

theorem lt_len {l : List (Cur α)} {i : Nat} {a : Cur α} (h : l[i]? = some a) : i < l.length := by
  rcases Nat.lt_or_ge i l.length with h' | h'
  · exact h'
  · rw [List.getElem?_eq_none h'] at h; cases h

theorem lessAt_some {lt : α → α → Bool} {h : List (Cur α)} {a b : Nat} {x y : Cur α}
    (ha : h[a]? = some x) (hb : h[b]? = some y) : lessAt lt h a b = some (lt x.1 y.1) := by
  unfold lessAt; rw [ha, hb]

theorem swap_some {h : List (Cur α)} {a b : Nat} {x y : Cur α}
    (ha : h[a]? = some x) (hb : h[b]? = some y) (hab : a ≠ b) :
    ∃ h', swap h a b = some h' ∧ h'.Perm h ∧ h'[a]? = some y ∧ h'[b]? = some x ∧
      ∀ k, k ≠ a → k ≠ b → h'[k]? = h[k]? := by
  have la := lt_len ha
  have lb := lt_len hb
  refine ⟨_, by unfold swap; rw [ha, hb], ?_, ?_, ?_, ?_⟩
  · have := List.set_set_perm la lb
    rw [List.getElem?_eq_getElem la] at ha
    rw [List.getElem?_eq_getElem lb] at hb
    cases ha; cases hb
    exact this
  · rw [List.getElem?_set_ne (by omega), List.getElem?_set_self la]
  · rw [List.getElem?_set_self (by rw [List.length_set]; exact lb)]
  · intro k h1 h2
    rw [List.getElem?_set_ne (by omega), List.getElem?_set_ne (by omega)]

/-- The front of a heap is minimal. -/
theorem front_min {lt : α → α → Bool} (o : Order lt) {h : List (Cur α)} (hh : IsHeap lt h)
    {c : Cur α} (hc : h[0]? = some c) : ∀ (i : Nat) (x : Cur α), h[i]? = some x →
    lt x.1 c.1 = false := by
  intro i
  induction i using Nat.strongRecOn with
  | ind i ih =>
    intro x hx
    by_cases hi : i = 0
    · subst hi; rw [hc] at hx; cases hx; exact o.irrefl _
    · have hi : 0 < i := by omega
      obtain ⟨p, hp⟩ := getElem?_some (l := h) (Nat.lt_trans (up_lt hi) (lt_len hx))
      exact o.neg _ _ _ (ih _ (up_lt hi) p hp) (hh i hi p x hp hx)

/-- The condition of `pop(idx)`: only `idx` may be out of place, being too small. -/
structure Up (lt : α → α → Bool) (h : List (Cur α)) (idx : Nat) : Prop where
  other : ∀ i, 0 < i → i ≠ idx → Ok lt h i
  grand : ∀ i, 0 < i → up i = idx → 0 < idx → ∀ a b, h[up idx]? = some a → h[i]? = some b →
    lt b.1 a.1 = false

theorem pop_spec {lt : α → α → Bool} (o : Order lt) : ∀ (fuel : Nat) (h : List (Cur α)) (idx : Nat),
    idx < h.length → idx < fuel → Up lt h idx →
    ∃ h', pop lt fuel h idx = some h' ∧ h'.Perm h ∧ IsHeap lt h' := by
  intro fuel
  induction fuel with
  | zero => intro h idx _ h2; omega
  | succ fuel ih =>
    intro h idx hl hf u
    unfold pop
    by_cases h0 : idx = 0
    · rw [if_pos h0]
      exact ⟨h, rfl, .refl _, fun i hi => u.other i hi (by omega)⟩
    · rw [if_neg h0]
      have hpos : 0 < idx := by omega
      have hup := up_lt hpos
      obtain ⟨x, hx⟩ := getElem?_some hl
      obtain ⟨p, hp⟩ := getElem?_some (l := h) (i := up idx) (by omega)
      rw [lessAt_some hp hx]
      simp only [Option.bind_some]
      cases hlt : lt p.1 x.1 with
      | true =>
        refine ⟨h, rfl, .refl _, fun i hi => ?_⟩
        by_cases e : i = idx
        · subst e
          intro a b ha hb
          rw [hp] at ha; rw [hx] at hb; cases ha; cases hb
          exact o.asymm _ _ hlt
        · exact u.other i hi e
      | false =>
        simp only [Bool.false_eq_true, if_false]
        obtain ⟨h1, e1, p1, g1, g2, g3⟩ := swap_some hx hp (by omega)
        rw [e1]
        simp only [Option.bind_some]
        have hu1 : Up lt h1 (up idx) := by
          refine ⟨?_, ?_⟩
          · intro i hi hne a b ha hb
            by_cases e : i = idx
            · subst e
              rw [g2] at ha; rw [g1] at hb; cases ha; cases hb; exact hlt
            · rw [g3 i e hne] at hb
              by_cases e2 : up i = idx
              · rw [e2, g1] at ha; cases ha
                exact u.grand i hi e2 hpos _ _ hp hb
              · by_cases e3 : up i = up idx
                · rw [e3, g2] at ha; cases ha
                  have := u.other i hi e _ _ (by rw [e3]; exact hp) hb
                  exact o.neg _ _ _ hlt this
                · rw [g3 _ e2 e3] at ha
                  exact u.other i hi e _ _ ha hb
          · intro i hi he hp0 a b ha hb
            have hlt2 := up_lt hp0
            rw [g3 _ (by omega) (by omega)] at ha
            have ha' := ha
            have hpa := u.other (up idx) hp0 (by omega) _ _ ha hp
            by_cases e : i = idx
            · subst e; rw [g1] at hb; cases hb; exact hpa
            · rw [g3 i e (by intro e'; rw [e'] at he; omega)] at hb
              have := u.other i hi e _ _ (by rw [he]; exact hp) hb
              exact o.neg _ _ _ hpa this
        obtain ⟨h2, e2, p2, hh2⟩ := ih h1 (up idx) (by rw [p1.length_eq]; omega) (by omega) hu1
        exact ⟨h2, e2, p2.trans p1, hh2⟩

/-- The condition of `push(idx)`: only `idx` may be out of place, being too big. -/
structure Down (lt : α → α → Bool) (h : List (Cur α)) (idx : Nat) : Prop where
  other : ∀ i, 0 < i → up i ≠ idx → Ok lt h i
  grand : ∀ i, 0 < i → up i = idx → 0 < idx → ∀ a b, h[up idx]? = some a → h[i]? = some b →
    lt b.1 a.1 = false

/-- Swapping with the least child moves the problem one level down. -/
theorem Down.swap {lt : α → α → Bool} (o : Order lt) {h h1 : List (Cur α)} {idx k : Nat}
    {x y : Cur α} (d : Down lt h idx) (hk0 : 0 < k) (hk : up k = idx) (hx : h[idx]? = some x)
    (hy : h[k]? = some y) (hlt : lt y.1 x.1 = true)
    (hmin : ∀ i z, 0 < i → up i = idx → h[i]? = some z → lt z.1 y.1 = false)
    (g1 : h1[k]? = some x) (g2 : h1[idx]? = some y)
    (g3 : ∀ j, j ≠ k → j ≠ idx → h1[j]? = h[j]?) : Down lt h1 k := by
  have hik : idx < k := hk ▸ up_lt hk0
  refine ⟨?_, ?_⟩
  · intro i hi hne a b ha hb
    by_cases e : i = idx
    · subst e
      have hu := up_lt hi
      rw [g3 _ (by omega) (by omega)] at ha
      rw [g2] at hb; cases hb
      exact d.grand k hk0 hk hi _ _ ha hy
    · by_cases e2 : i = k
      · subst e2
        rw [hk, g2] at ha; rw [g1] at hb; cases ha; cases hb
        exact o.asymm _ _ hlt
      · rw [g3 _ e2 e] at hb
        by_cases e3 : up i = idx
        · rw [e3, g2] at ha; cases ha
          exact hmin i b hi e3 hb
        · rw [g3 _ hne e3] at ha
          exact d.other i hi e3 _ _ ha hb
  · intro i hi he hk' a b ha hb
    rw [hk, g2] at ha; cases ha
    have hgt : k < i := he ▸ up_lt hi
    rw [g3 _ (by omega) (by omega)] at hb
    exact d.other i hi (by omega) _ _ (by rw [he]; exact hy) hb

theorem Down.done {lt : α → α → Bool} {h : List (Cur α)} {idx : Nat} (d : Down lt h idx)
    (hc : ∀ i, 0 < i → up i = idx → Ok lt h i) : IsHeap lt h := fun i hi => by
  by_cases e : up i = idx
  · exact hc i hi e
  · exact d.other i hi e

theorem push_spec {lt : α → α → Bool} (o : Order lt) : ∀ (fuel : Nat) (h : List (Cur α)) (idx : Nat),
    (idx < h.length ∨ h = []) → h.length < fuel + idx + 1 → 0 < fuel → Down lt h idx →
    ∃ h', push lt fuel h idx = some h' ∧ h'.Perm h ∧ IsHeap lt h' := by
  intro fuel
  induction fuel with
  | zero => intro h idx _ _ h3; omega
  | succ fuel ih =>
    intro h idx hl hf _ d
    have go : ∀ k x y, 0 < k → up k = idx → h[idx]? = some x → h[k]? = some y →
        lt y.1 x.1 = true → (∀ i z, 0 < i → up i = idx → h[i]? = some z → lt z.1 y.1 = false) →
        ∃ h', ((Heap.swap h k idx).bind fun h' => push lt fuel h' k) = some h' ∧ h'.Perm h ∧
          IsHeap lt h' := by
      intro k x y hk0 hk hx hy hlt hmin
      have hik : idx < k := hk ▸ up_lt hk0
      have hkl := lt_len hy
      obtain ⟨h1, e1, p1, g1, g2, g3⟩ := swap_some hy hx (by omega)
      have hpl := p1.length_eq
      obtain ⟨h2, e2, p2, hh⟩ := ih h1 k (by omega) (by omega) (by omega)
        (d.swap o hk0 hk hx hy hlt hmin g1 g2 g3)
      exact ⟨h2, by rw [e1]; exact e2, p2.trans p1, hh⟩
    have hlr : left idx < right idx := by unfold left right; omega
    have hli : idx < left idx := by unfold left; omega
    have child : ∀ i, 0 < i → up i = idx → i = left idx ∨ i = right idx := fun i h1 h2 => up_eq h1 h2
    -- the branch without a right child in play
    have leftOnly : (∀ x z, h[idx]? = some x → h[right idx]? = some z → lt z.1 x.1 = false) →
        ∃ h', (if left idx < h.length then
          (lessAt lt h (left idx) idx).bind fun ll =>
          if ll then (Heap.swap h (left idx) idx).bind fun h' => push lt fuel h' (left idx) else some h
        else some h) = some h' ∧ h'.Perm h ∧ IsHeap lt h' := by
      intro hr
      by_cases hll : left idx < h.length
      · rw [if_pos hll]
        obtain ⟨x, hx⟩ := getElem?_some (l := h) (i := idx) (by omega)
        obtain ⟨y, hy⟩ := getElem?_some hll
        rw [lessAt_some hy hx]
        simp only [Option.bind_some]
        cases hlt : lt y.1 x.1 with
        | true =>
          simp only [if_true]
          apply go (left idx) x y (by omega) (up_left _) hx hy hlt
          intro i z hi hu hz
          rcases child i hi hu with e | e
          · subst e; rw [hy] at hz; cases hz; exact o.irrefl _
          · subst e; exact o.neg _ _ _ (o.asymm _ _ hlt) (hr x z hx hz)
        | false =>
          simp only [Bool.false_eq_true, if_false]
          refine ⟨h, rfl, .refl _, d.done fun i hi hu a b ha hb => ?_⟩
          rw [hu, hx] at ha; cases ha
          rcases child i hi hu with e | e
          · subst e; rw [hy] at hb; cases hb; exact hlt
          · subst e; exact hr _ _ hx hb
      · rw [if_neg hll]
        refine ⟨h, rfl, .refl _, d.done fun i hi hu a b ha hb => ?_⟩
        have := lt_len hb
        rcases child i hi hu with e | e <;> omega
    unfold push
    simp only
    by_cases hrl : right idx < h.length
    · rw [if_pos hrl]
      obtain ⟨x, hx⟩ := getElem?_some (l := h) (i := idx) (by omega)
      obtain ⟨y, hy⟩ := getElem?_some (l := h) (i := left idx) (by omega)
      obtain ⟨z, hz⟩ := getElem?_some hrl
      rw [lessAt_some hz hx]
      simp only [Option.bind_some]
      cases hlt : lt z.1 x.1 with
      | true =>
        simp only [if_true]
        rw [lessAt_some hy hz]
        simp only [Option.bind_some]
        cases hyz : lt y.1 z.1 with
        | true =>
          simp only [if_true]
          have hyx : lt y.1 x.1 = true := by
            cases e : lt y.1 x.1 with
            | true => rfl
            | false =>
              have := o.neg _ _ _ (o.asymm _ _ hlt) e
              rw [this] at hyz; cases hyz
          apply go (left idx) x y (by omega) (up_left _) hx hy hyx
          intro i w hi hu hw
          rcases child i hi hu with e | e
          · subst e; rw [hy] at hw; cases hw; exact o.irrefl _
          · subst e; rw [hz] at hw; cases hw; exact o.asymm _ _ hyz
        | false =>
          simp only [Bool.false_eq_true, if_false]
          apply go (right idx) x z (by omega) (up_right _) hx hz hlt
          intro i w hi hu hw
          rcases child i hi hu with e | e
          · subst e; rw [hy] at hw; cases hw; exact hyz
          · subst e; rw [hz] at hw; cases hw; exact o.irrefl _
      | false =>
        simp only [Bool.false_eq_true, if_false]
        apply leftOnly
        intro x' z' hx' hz'
        rw [hx] at hx'; rw [hz] at hz'; cases hx'; cases hz'; exact hlt
    · rw [if_neg hrl]
      apply leftOnly
      intro x z _ hz
      have := lt_len hz
      omega

end Heap
end Ron
