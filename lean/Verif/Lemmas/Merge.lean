import Verif.Lemmas.Heap
/-!
The k-way merge: which ops come out, and in which order.
-/
namespace Ron
namespace Heap
variable {α K : Type}

/-- All the ops left in a heap. -/
def flat (h : List (Cur α)) : List α := h.flatMap fun c => c.1 :: c.2

theorem flat_perm {h h' : List (Cur α)} (p : h'.Perm h) : (flat h').Perm (flat h) := by
  induction p with
  | nil => exact .refl _
  | cons x _ ih =>
    simp only [flat, List.flatMap_cons] at *
    exact ih.append_left _
  | swap x y l =>
    simp only [flat, List.flatMap_cons]
    rw [← List.append_assoc, ← List.append_assoc]
    exact List.perm_append_comm.append_right _
  | trans _ _ i1 i2 => exact i1.trans i2

theorem flat_cons (c : Cur α) (h : List (Cur α)) : flat (c :: h) = c.1 :: (c.2 ++ flat h) := by
  simp [flat]

theorem flat_length (h : List (Cur α)) : (flat h).length = total h := by
  induction h with
  | nil => rfl
  | cons c h ih => rw [flat_cons]; simp [total] at *; omega

theorem add_spec {lt : α → α → Bool} (o : Order lt) {h : List (Cur α)} (hh : IsHeap lt h)
    (c : Cur α) : ∃ h', add lt h c = some h' ∧ h'.Perm (h ++ [c]) ∧ IsHeap lt h' := by
  unfold add
  apply pop_spec o _ _ _ (by simp) (by omega)
  refine ⟨fun i hi hne a b ha hb => ?_, fun i hi he h0 a b ha hb => ?_⟩
  · have hl := lt_len hb
    simp only [List.length_append, List.length_singleton] at hl
    have hi' : i < h.length := by omega
    have := up_lt hi
    rw [List.getElem?_append_left (by omega)] at ha hb
    exact hh i hi a b ha hb
  · have hl := lt_len hb
    have := up_lt hi
    simp only [List.length_append, List.length_singleton] at hl
    omega

theorem set0_down {lt : α → α → Bool} {c d : Cur α} {t : List (Cur α)} (hh : IsHeap lt (c :: t)) :
    Down lt (d :: t) 0 := by
  refine ⟨fun i hi hne a b ha hb => ?_, fun i _ _ h0 => absurd h0 (by omega)⟩
  have e : ∀ j, 0 < j → (d :: t)[j]? = (c :: t)[j]? := by
    intro j hj
    cases j with
    | zero => omega
    | succ j => rfl
  rw [e _ (by omega)] at ha
  rw [e _ hi] at hb
  exact hh i hi a b ha hb

/-- The effect of one `step` on a heap. -/
structure Stepped (lt : α → α → Bool) (c : Cur α) (t h' : List (Cur α)) : Prop where
  heap : IsHeap lt h'
  flat : (c.1 :: Heap.flat h').Perm (Heap.flat (c :: t))
  mem : ∀ d ∈ h', d ∈ t ∨ d.1 :: d.2 = c.2

theorem step_spec {lt : α → α → Bool} (o : Order lt) {c : Cur α} {t : List (Cur α)}
    (hh : IsHeap lt (c :: t)) : ∃ h', step lt (c :: t) = some h' ∧ Stepped lt c t h' := by
  obtain ⟨x, xs⟩ := c
  cases xs with
  | cons y ys =>
    obtain ⟨h', e, p, hp⟩ := push_spec o ((y, ys) :: t).length.succ ((y, ys) :: t) 0 (by simp)
      (by omega) (by omega) (set0_down hh)
    refine ⟨h', e, hp, ?_, ?_⟩
    · have := flat_perm p
      rw [flat_cons] at this ⊢
      exact this.cons _
    · intro d hd
      have := p.mem_iff.1 hd
      simp only [List.mem_cons] at this
      rcases this with rfl | h1
      · exact .inr rfl
      · exact .inl h1
  | nil =>
    show ∃ h', eject lt ((x, []) :: t) = some h' ∧ _
    rcases List.eq_nil_or_concat t with rfl | ⟨t', l, rfl⟩
    · have hd : Down lt ([] : List (Cur α)) 0 := by
        refine ⟨fun i _ _ a b ha => ?_, fun i _ _ h0 => absurd h0 (by omega)⟩
        simp at ha
      obtain ⟨h', e, p, hp⟩ := push_spec o 2 ([] : List (Cur α)) 0 (.inr rfl) (by simp) (by omega) hd
      refine ⟨h', e, hp, ?_, ?_⟩
      · have := flat_perm p
        rw [flat_cons]
        exact this.cons _
      · intro d hd; have := p.mem_iff.1 hd; simp at this
    · rw [List.concat_eq_append] at *
      have hd : Down lt (l :: t') 0 := by
        refine ⟨fun i hi hne a b ha hb => ?_, fun i _ _ h0 => absurd h0 (by omega)⟩
        have e : ∀ j, 0 < j → ∀ w, (l :: t')[j]? = some w → ((x, []) :: (t' ++ [l]))[j]? = some w := by
          intro j hj w hw
          cases j with
          | zero => omega
          | succ j =>
            have hw' : t'[j]? = some w := hw
            show (t' ++ [l])[j]? = some w
            rw [List.getElem?_append_left (lt_len hw')]; exact hw'
        exact hh i hi a b (e _ (by omega) _ ha) (e _ hi _ hb)
      have ee : eject lt ((x, []) :: (t' ++ [l])) =
          push lt (((x, []) :: (t' ++ [l])).length + 1) (l :: t') 0 := by
        unfold eject
        rw [show ((x, ([] : List α)) :: (t' ++ [l])) = ((x, []) :: t') ++ [l] from rfl,
          List.getLast?_concat]
        simp only [List.cons_append, List.set_cons_zero]
        rw [show l :: (t' ++ [l]) = (l :: t') ++ [l] from rfl, List.dropLast_concat]
      obtain ⟨h', e, p, hp⟩ := push_spec o (((x, []) :: (t' ++ [l])).length + 1) (l :: t') 0 (by simp)
        (by simp only [List.length_cons, List.length_append]; omega) (by omega) hd
      have p2 : (l :: t').Perm (t' ++ [l]) := (List.perm_append_singleton l t').symm
      refine ⟨h', ee.trans e, hp, ?_, ?_⟩
      · have := flat_perm (p.trans p2)
        rw [flat_cons]
        exact this.cons _
      · intro d hd'
        exact .inl ((p.trans p2).mem_iff.1 hd')

/-- A strict linear order. -/
structure Lin (klt : K → K → Bool) : Prop where
  irrefl : ∀ a, klt a a = false
  trans : ∀ a b c, klt a b = true → klt b c = true → klt a c = true
  tri : ∀ a b, klt a b = true ∨ a = b ∨ klt b a = true

theorem Lin.asymm {klt : K → K → Bool} (l : Lin klt) {a b : K} (h : klt a b = true) :
    klt b a = false := by
  cases e : klt b a with
  | false => rfl
  | true => have := l.trans _ _ _ h e; rw [l.irrefl] at this; cases this

theorem Lin.of_not {klt : K → K → Bool} (l : Lin klt) {a b : K} (h : klt a b = false) (hn : a ≠ b) :
    klt b a = true := by
  rcases l.tri a b with e | e | e
  · rw [h] at e; cases e
  · exact absurd e hn
  · exact e

/-- The setting of a merge by key. -/
structure Keyed (lt same : α → α → Bool) (key : α → K) (klt : K → K → Bool) : Prop where
  ord : Order lt
  lin : Lin klt
  less : ∀ a b, klt (key a) (key b) = true → lt a b = true
  same : ∀ a b, same a b = true ↔ key a = key b

/-- Every cursor is sorted by key. -/
def Sorted (key : α → K) (klt : K → K → Bool) (h : List (Cur α)) : Prop :=
  ∀ c ∈ h, (c.1 :: c.2).Pairwise fun a b => klt (key a) (key b) = true

variable {lt same : α → α → Bool} {key : α → K} {klt : K → K → Bool}

theorem Stepped.sorted {c : Cur α} {t h' : List (Cur α)} (s : Stepped lt c t h')
    (hs : Sorted key klt (c :: t)) : Sorted key klt h' := by
  intro d hd
  rcases s.mem d hd with h | h
  · exact hs d (by simp [h])
  · have := hs c (by simp)
    rw [h]
    exact (List.pairwise_cons.1 this).2

/-- Nothing in a heap precedes its front. -/
theorem front_le (k : Keyed lt same key klt) {c : Cur α} {t : List (Cur α)}
    (hh : IsHeap lt (c :: t)) (hs : Sorted key klt (c :: t)) :
    ∀ x ∈ flat (c :: t), key x = key c.1 ∧ lt x c.1 = false ∨ klt (key c.1) (key x) = true := by
  intro x hx
  unfold flat at hx
  rw [List.mem_flatMap] at hx
  obtain ⟨d, hd, hx⟩ := hx
  obtain ⟨i, hi⟩ := List.getElem?_of_mem hd
  have hmin := front_min k.ord hh (c := c) rfl i d hi
  have hkd : klt (key d.1) (key c.1) = false := by
    cases e : klt (key d.1) (key c.1) with
    | false => rfl
    | true => rw [k.less _ _ e] at hmin; cases hmin
  simp only [List.mem_cons] at hx
  rcases hx with rfl | hx
  · rcases k.lin.tri (key d.1) (key c.1) with e | e | e
    · rw [hkd] at e; cases e
    · exact .inl ⟨e, hmin⟩
    · exact .inr e
  · have := (List.pairwise_cons.1 (hs d hd)).1 x hx
    right
    rcases k.lin.tri (key d.1) (key c.1) with e | e | e
    · rw [hkd] at e; cases e
    · rw [← e]; exact this
    · exact k.lin.trans _ _ _ e this

/-- `Next`: everything with the key of the current op is skipped, nothing else is. -/
theorem nextFrom_spec (k : Keyed lt same key klt) (x : α) : ∀ (fuel : Nat) (h : List (Cur α)),
    h ≠ [] → total h < fuel → IsHeap lt h → Sorted key klt h →
    (∀ y ∈ flat h, key y = key x ∨ klt (key x) (key y) = true) →
    (∀ c t, h = c :: t → key c.1 = key x) →
    ∃ h' skipped, nextFrom lt same x fuel h = some h' ∧ IsHeap lt h' ∧ Sorted key klt h' ∧
      (skipped ++ flat h').Perm (flat h) ∧ (∀ y ∈ skipped, key y = key x) ∧ skipped ≠ [] ∧
      ∀ y ∈ flat h', klt (key x) (key y) = true := by
  intro fuel
  induction fuel with
  | zero => intro h _ hf; omega
  | succ fuel ih =>
    intro h hne hf hh hs hge hfront
    cases h with
    | nil => exact absurd rfl hne
    | cons c t =>
      obtain ⟨h1, e1, s1⟩ := step_spec k.ord hh
      have hs1 := s1.sorted hs
      have hlen := s1.flat.length_eq
      rw [List.length_cons, flat_length, flat_length] at hlen
      unfold nextFrom
      rw [e1]
      simp only [Option.bind_some]
      cases h1 with
      | nil =>
        refine ⟨[], [c.1], rfl, s1.heap, by intro d hd; simp at hd, s1.flat, ?_, by simp, ?_⟩
        · intro y hy; rw [List.mem_singleton] at hy; rw [hy]; exact hfront c t rfl
        · intro y hy; simp [flat] at hy
      | cons c1 t1 =>
        simp only
        have hsub : ∀ y ∈ flat (c1 :: t1), y ∈ flat (c :: t) := fun y hy =>
          s1.flat.mem_iff.1 (by simp [hy])
        cases hsm : same c1.1 x with
        | true =>
          simp only [if_true]
          have hk1 := (k.same _ _).1 hsm
          obtain ⟨h', sk, e2, a1, a2, a3, a4, a5, a6⟩ := ih (c1 :: t1) (by simp) (by omega) s1.heap hs1
            (fun y hy => hge y (hsub y hy)) (by intro c' t' e; cases e; exact hk1)
          refine ⟨h', c.1 :: sk, e2, a1, a2, (a3.cons _).trans s1.flat, ?_, by simp, a6⟩
          intro y hy
          simp only [List.mem_cons] at hy
          rcases hy with rfl | hy
          · exact hfront c t rfl
          · exact a4 y hy
        | false =>
          simp only [Bool.false_eq_true, if_false]
          have hk1 : key c1.1 ≠ key x := fun e => by
            rw [(k.same _ _).2 e] at hsm; cases hsm
          refine ⟨c1 :: t1, [c.1], rfl, s1.heap, hs1, s1.flat, ?_, by simp, ?_⟩
          · intro y hy; rw [List.mem_singleton] at hy; rw [hy]; exact hfront c t rfl
          · intro y hy
            have hc1 : klt (key x) (key c1.1) = true :=
              (hge c1.1 (hsub _ (by simp [flat]))).resolve_left hk1
            rcases front_le k s1.heap hs1 y hy with ⟨e, _⟩ | e
            · rw [e]; exact hc1
            · exact k.lin.trans _ _ _ hc1 e

/-- What a merge has to deliver. -/
structure Merged (lt : α → α → Bool) (key : α → K) (klt : K → K → Bool) (inp out : List α) :
    Prop where
  sorted : out.Pairwise fun a b => klt (key a) (key b) = true
  sound : ∀ x ∈ out, x ∈ inp ∧ ∀ y ∈ inp, key y = key x → lt y x = false
  full : ∀ y ∈ inp, ∃ x ∈ out, key x = key y

theorem drain_spec (k : Keyed lt same key klt) : ∀ (fuel : Nat) (h : List (Cur α)),
    total h < fuel → IsHeap lt h → Sorted key klt h →
    ∃ out, drain lt same fuel h = some out ∧ Merged lt key klt (flat h) out := by
  intro fuel
  induction fuel with
  | zero => intro h hf; omega
  | succ fuel ih =>
    intro h hf hh hs
    cases h with
    | nil =>
      exact ⟨[], rfl, List.Pairwise.nil, by simp, by simp [flat]⟩
    | cons c t =>
      have hfl := front_le k hh hs
      obtain ⟨h', sk, e, a1, a2, a3, a4, a5, a6⟩ := nextFrom_spec k c.1 (total (c :: t) + 1) (c :: t)
        (by simp) (by omega) hh hs (fun y hy => (hfl y hy).imp (·.1) id) (by intro c' t' e; cases e; rfl)
      have hlen := a3.length_eq
      rw [List.length_append, flat_length, flat_length] at hlen
      have hpos : 0 < sk.length := List.length_pos_iff.2 a5
      obtain ⟨out, e2, m⟩ := ih h' (by omega) a1 a2
      unfold drain
      rw [e]
      simp only [Option.bind_some, e2]
      refine ⟨_, rfl, ?_, ?_, ?_⟩
      · rw [List.pairwise_cons]
        exact ⟨fun x hx => a6 x (m.sound x hx).1, m.sorted⟩
      · intro x hx
        simp only [List.mem_cons] at hx
        rcases hx with rfl | hx
        · refine ⟨by simp [flat], fun y hy hk => ?_⟩
          rcases hfl y hy with ⟨_, h2⟩ | h2
          · exact h2
          · rw [hk, k.lin.irrefl] at h2; cases h2
        · obtain ⟨m1, m2⟩ := m.sound x hx
          refine ⟨a3.mem_iff.1 (by simp [m1]), fun y hy hk => ?_⟩
          have := a3.mem_iff.2 hy
          rw [List.mem_append] at this
          rcases this with h1 | h1
          · have := a6 x m1
            rw [← hk, a4 y h1, k.lin.irrefl] at this; cases this
          · exact m2 y h1 hk
      · intro y hy
        have := a3.mem_iff.2 hy
        rw [List.mem_append] at this
        rcases this with h1 | h1
        · exact ⟨c.1, by simp, (a4 y h1).symm⟩
        · obtain ⟨x, hx, e⟩ := m.full y h1
          exact ⟨x, by simp [hx], e⟩

/-- Building the heap from the inputs. -/
theorem build_spec (o : Order lt) : ∀ (inputs : List (List α)) (h : List (Cur α)), IsHeap lt h →
    ∃ h', build lt h inputs = some h' ∧ IsHeap lt h' ∧ (flat h').Perm (flat h ++ inputs.flatten) ∧
      ∀ d ∈ h', d ∈ h ∨ d.1 :: d.2 ∈ inputs := by
  intro inputs
  induction inputs with
  | nil =>
    intro h hh
    exact ⟨h, rfl, hh, by simp, fun d hd => .inl hd⟩
  | cons i is ih =>
    intro h hh
    unfold build
    cases i with
    | nil =>
      obtain ⟨h', e, a1, a2, a3⟩ := ih h hh
      exact ⟨h', e, a1, by simpa using a2, fun d hd => (a3 d hd).imp_right (by intro x; simp [x])⟩
    | cons x xs =>
      obtain ⟨h1, e1, p1, hh1⟩ := add_spec o hh (x, xs)
      obtain ⟨h', e, a1, a2, a3⟩ := ih h1 hh1
      refine ⟨h', ?_, a1, ?_, ?_⟩
      · show (add lt h (x, xs)).bind _ = _
        rw [e1]; exact e
      · have := flat_perm p1
        refine a2.trans ((this.append_right _).trans ?_)
        simp [flat]
      · intro d hd
        rcases a3 d hd with h2 | h2
        · have := p1.mem_iff.1 h2
          simp only [List.mem_append, List.mem_singleton] at this
          rcases this with h3 | rfl
          · exact .inl h3
          · exact .inr (by simp)
        · exact .inr (by simp [h2])

/-- The merge of sorted inputs. -/
theorem merge_spec (k : Keyed lt same key klt) (inputs : List (List α))
    (hs : ∀ i ∈ inputs, i.Pairwise fun a b => klt (key a) (key b) = true) :
    ∃ out, merge lt same inputs = some out ∧ Merged lt key klt inputs.flatten out := by
  obtain ⟨h, e, a1, a2, a3⟩ := build_spec (lt := lt) k.ord inputs [] (by
    intro i _ a b ha; simp at ha)
  obtain ⟨out, e2, m⟩ := drain_spec k (total h + 1) h (by omega) a1 (by
    intro c hc
    rcases a3 c hc with h1 | h1
    · simp at h1
    · exact hs _ h1)
  have hp : (flat h).Perm inputs.flatten := by simpa [flat] using a2
  refine ⟨out, ?_, m.sorted, fun x hx => ?_, fun y hy => m.full y (hp.mem_iff.2 hy)⟩
  · unfold merge; rw [e]; exact e2
  · obtain ⟨m1, m2⟩ := m.sound x hx
    exact ⟨hp.mem_iff.1 m1, fun y hy => m2 y (hp.mem_iff.2 hy)⟩

end Heap
end Ron
