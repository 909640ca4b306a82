import Verif.Lemmas.ScanSem
/-!
Runs of `ScanRGA`.
-/
namespace Ron.Rga
open Ron Spec

variable {ops : List AOp} {n : Nat} {s s' : Scan}

theorem Shape.split {E R U T : List Nat} (h : Shape ops n s E R U T) :
    ∃ Q t k, s.positions = Q ++ [t] ∧ 0 :: (E ++ R ++ U ++ T) = Q ++ [t] ∧ PathTo ops t (Q ++ [t]) ∧
      s.kills.getLast? = some k ∧ s.path.getLast? = some (idAt ops t) ∧ t < n ∧
      s.kills.length = s.positions.length ∧ (E ++ R ++ U ++ T = [] ↔ Q = []) := by
  obtain ⟨t, ht⟩ := h.to
  obtain ⟨Q, hq, _⟩ := ht.last
  have hkl : s.kills.length = s.positions.length := by
    rw [h.kills, h.pos]; simp; omega
  obtain ⟨k, hk⟩ : ∃ k, s.kills.getLast? = some k := by
    cases hh : s.kills.getLast? with
    | none =>
      rw [List.getLast?_eq_none_iff] at hh
      have := h.kills; rw [hh] at this; simp at this; omega
    | some k => exact ⟨k, rfl⟩
  refine ⟨Q, t, k, by rw [h.pos, hq], hq, hq ▸ ht, hk, ?_, h.bound t (by rw [hq]; simp), hkl, ?_⟩
  · rw [h.path, hq, List.map_append, List.map_singleton, List.getLast?_concat]
  · have hlen := congrArg List.length hq
    simp only [List.length_cons, List.length_append, List.length_nil] at hlen
    constructor
    · intro e
      have := congrArg List.length e
      simp only [List.length_append, List.length_nil] at this
      exact List.eq_nil_of_length_eq_zero (by omega)
    · intro e
      subst e
      simp only [List.length_nil] at hlen
      apply List.eq_nil_of_length_eq_zero
      simp only [List.length_append]; omega

/-- One op off the stack. -/
theorem one_spec {E R U T : List Nat} (h : Shape ops n s E R U T) {Q : List Nat} {t : Nat} {k : Bool}
    (hpos : s.positions = Q ++ [t]) (hP : 0 :: (E ++ R ++ U ++ T) = Q ++ [t]) (hQ : Q ≠ [])
    (hto : PathTo ops t (Q ++ [t])) (hk : s.kills.getLast? = some k) (htn : t < n)
    (hkl : s.kills.length = s.positions.length) :
    (¬ Bounded ops ∧ one s k t = .ub) ∨
    ∃ s' E' R' U' T', one s k t = .ok s' ∧ Shape ops n s' E' R' U' T' ∧ s'.pos = s.pos ∧
      s'.positions = Q ∧ ((ops.map AOp.id).Nodup → Sem ops n s → Sem ops n s') := by
  have hlenQ : Q.length = E.length + R.length + U.length + T.length := by
    have := congrArg List.length hP
    simp only [List.length_cons, List.length_append, List.length_nil] at this; omega
  have hQof : ∀ (L : List Nat) (x : Nat), E ++ R ++ U ++ T = L ++ [x] → Q = 0 :: L ∧ t = x := by
    intro L x e
    rw [e, ← List.cons_append] at hP
    have := List.append_inj' hP rfl
    simp only [List.cons.injEq, and_true] at this
    exact ⟨this.1.symm, this.2.symm⟩
  have same : ∀ i < Q.length, s.kills.dropLast[i]? = s.kills[i]? := by
    intro i hi
    rw [List.dropLast_eq_take, List.getElem?_take_of_lt]
    rw [hkl, hpos]; simp; exact hi
  have setd : ∀ (at_ i : Nat), at_ < Q.length → i < Q.length →
      ((s.kills.set at_ true).dropLast[i]? = some true ↔ s.kills[i]? = some true ∨ i = at_) := by
    intro at_ i ha hi
    rw [List.dropLast_eq_take, List.getElem?_take_of_lt (by rw [List.length_set, hkl, hpos]; simp; exact hi)]
    rw [List.getElem?_set]
    by_cases e : at_ = i
    · rw [if_pos e, if_pos (by rw [hkl, hpos]; simp; omega)]
      simp [e]
    · rw [if_neg e]
      constructor
      · exact .inl
      · rintro (h1 | h1)
        · exact h1
        · exact absurd h1.symm e
  rcases List.eq_nil_or_concat T with hT | ⟨T', x, hT⟩
  · subst hT
    rcases List.eq_nil_or_concat U with hU | ⟨U', x, hU⟩
    · subst hU
      rcases List.eq_nil_or_concat R with hR | ⟨R', x, hR⟩
      · subst hR
        rcases List.eq_nil_or_concat E with hE | ⟨E', x, hE⟩
        · subst hE
          exact absurd (by simpa using hP) (by
            intro e
            have := congrArg List.length e
            simp only [List.length_append, List.length_cons, List.length_nil] at this
            exact hQ (List.eq_nil_of_length_eq_zero (by omega)))
        · -- an element
          rw [List.concat_eq_append] at hE
          subst hE
          obtain ⟨rfl, rfl⟩ := hQof E' x (by simp)
          right
          obtain ⟨s', e, hs, hks, hts, hp⟩ := one_entry h k
          refine ⟨s', E', [], [], [], e, hs, hp, by rw [hs.pos]; simp, fun hu sem => ?_⟩
          obtain ⟨hno, hel⟩ := hit_entry hu h (by simp) (t := t) (by simpa using hto)
          refine sem.pop hu hpos (by rw [hs.pos]; simp) hto hkl hk htn ?_ h.tombs (.inr ⟨hel, hts⟩)
          intro i hi
          rw [hks, same i hi]
          constructor
          · exact .inl
          · rintro (h1 | ⟨y, _, h2⟩)
            · exact h1
            · exact absurd h2 (hno y)
      · -- a removal
        rw [List.concat_eq_append] at hR
        subst hR
        obtain ⟨rfl, rfl⟩ := hQof (E ++ R') x (by simp)
        rcases one_remove h k t with ⟨hb, e⟩ | ⟨s', e, hs, hks, hts, hp⟩
        · left
          refine ⟨fun hB => ?_, e⟩
          have := (hB t E (R' ++ [t]) [] (h.rE (by simp)) (h.regular.branch (by simpa using hto))).1
          simp at this; omega
        · right
          refine ⟨s', E, R', [], [], e, hs, hp, by rw [hs.pos]; simp, fun hu sem => ?_⟩
          obtain ⟨hit, hel⟩ := hit_remove hu h (by simp) (t := t) (by simpa using hto)
          refine sem.pop hu hpos (by rw [hs.pos]; simp) hto hkl hk htn ?_ h.tombs (.inl ⟨hts, hel⟩)
          -- an undo of the op on top has left the stack
          have hkill : k = true ↔ ∃ u < n, Late ops u t := by
            have hkx := sem.kills (0 :: (E ++ R')).length t (by rw [hpos]; simp)
            have hkk : s.kills[(0 :: (E ++ R')).length]? = some k := by
              rw [List.getLast?_eq_getElem?, hkl, hpos] at hk
              simpa [Nat.add_assoc] using hk
            rw [hkk, Option.some.injEq] at hkx
            rw [hkx]
            have hkind : kindAt ops t = 2 := h.kR t (by simp)
            constructor
            · rintro ⟨q, h1, h2, h3 | h3⟩
              · obtain ⟨_, _, _, _, h5⟩ := h3.1.mem; omega
              · exact ⟨q, h1, h3⟩
            · rintro ⟨q, h1, h3⟩
              refine ⟨q, h1, ?_, .inr h3⟩
              intro hq
              obtain ⟨_, _, _, hlt, _⟩ := h3.mem
              obtain ⟨Q', hQ', hl⟩ := hto.last
              have := List.append_inj_left' hQ' rfl
              subst this
              rw [hpos] at hq
              rcases List.mem_append.1 hq with hq | hq
              · have := hl q hq; omega
              · rw [List.mem_singleton.1 hq] at hlt; omega
          intro i hi
          have hEl : E.length ≤ (0 :: (E ++ R')).length := by simp; omega
          by_cases hc : k = false ∧ R'.length + 1 ≤ E.length
          · rw [hks, if_pos hc, setd _ i (by simp; omega) hi]
            have hlate : ¬ ∃ u < n, Late ops u t := by
              intro hh; have := hkill.2 hh; rw [hc.1] at this; cases this
            have : (i = E.length - R'.length) ↔ ∃ x, (0 :: (E ++ R'))[i]? = some x ∧ Hit ops n t x := by
              constructor
              · intro e
                obtain ⟨y, hy⟩ : ∃ y, (0 :: (E ++ R'))[i]? = some y := ⟨_, List.getElem?_eq_getElem hi⟩
                refine ⟨y, hy, (hit y).2 ⟨?_, hlate⟩⟩
                rw [List.length_append, List.length_singleton, Nat.add_sub_cancel,
                  List.getElem?_reverse (by omega)]
                rw [← hy, e, show E.length - R'.length = (E.length - 1 - R'.length) + 1 by omega,
                  List.getElem?_cons_succ, List.getElem?_append_left (by omega)]
              · rintro ⟨y, hy, hh⟩
                have h2 := ((hit y).1 hh).1
                rw [List.length_append, List.length_singleton, Nat.add_sub_cancel,
                  List.getElem?_reverse (by omega)] at h2
                -- positions on a path are different
                have hlt : ∀ (a b : Nat) (y : Nat), (0 :: (E ++ R'))[a]? = some y → (0 :: (E ++ R'))[b]? = some y → a = b := by
                  intro a b y ha hb
                  exact path_inj hto ha hb
                refine hlt i (E.length - R'.length) y hy ?_
                rw [show E.length - R'.length = (E.length - 1 - R'.length) + 1 by omega,
                  List.getElem?_cons_succ, List.getElem?_append_left (by omega), h2]
            rw [this]
          · rw [hks, if_neg hc, same i hi]
            constructor
            · exact .inl
            · rintro (h1 | ⟨y, _, h2⟩)
              · exact h1
              · exfalso
                have h3 := (hit y).1 h2
                apply hc
                refine ⟨?_, ?_⟩
                · cases k with
                  | false => rfl
                  | true => exact absurd (hkill.1 rfl) h3.2
                · have := (List.getElem?_eq_some_iff.1 h3.1).1
                  simp at this; omega
    · -- an undo
      rw [List.concat_eq_append] at hU
      subst hU
      obtain ⟨rfl, rfl⟩ := hQof (E ++ R ++ U') x (by simp)
      have hR : R ≠ [] := h.uR (by simp)
      rcases one_undo h k t with ⟨hb, e⟩ | ⟨s', e, hs, hks, hts, hp⟩
      · left
        refine ⟨fun hB => ?_, e⟩
        have := (hB t E R (U' ++ [t]) (h.rE hR) (h.regular.branch (by simpa using hto))).2 hR
        simp at this; omega
      · right
        refine ⟨s', E, R, U', [], e, hs, hp, by rw [hs.pos]; simp, fun hu sem => ?_⟩
        obtain ⟨hit, hel⟩ := hit_undo hu h (by simp) (t := t) (by simpa using hto)
        refine sem.pop hu hpos (by rw [hs.pos]; simp) hto hkl hk htn ?_ h.tombs (.inl ⟨hts, hel⟩)
        intro i hi
        by_cases hc : U'.length + 1 < R.length
        · rw [hks, if_pos hc, setd _ i (by simp; omega) hi]
          have : (i = E.length + R.length - U'.length) ↔
              ∃ x, (0 :: (E ++ R ++ U'))[i]? = some x ∧ Hit ops n t x := by
            have hat : ∀ y, R.reverse[(U' ++ [t]).length - 1]? = some y ↔
                (0 :: (E ++ R ++ U'))[E.length + R.length - U'.length]? = some y := by
              intro y
              rw [List.length_append, List.length_singleton, Nat.add_sub_cancel,
                List.getElem?_reverse (by omega),
                show E.length + R.length - U'.length = (E.length + (R.length - 1 - U'.length)) + 1 by omega,
                List.getElem?_cons_succ, List.getElem?_append_left (by simp; omega),
                List.getElem?_append_right (by omega), Nat.add_sub_cancel_left]
            constructor
            · intro e
              obtain ⟨y, hy⟩ : ∃ y, (0 :: (E ++ R ++ U'))[i]? = some y := ⟨_, List.getElem?_eq_getElem hi⟩
              refine ⟨y, hy, (hit y).2 ⟨by simpa using hc, (hat y).2 (by rw [← e]; exact hy)⟩⟩
            · rintro ⟨y, hy, hh⟩
              have h2 := (hat y).1 ((hit y).1 hh).2
              exact path_inj hto hy h2
          rw [this]
        · rw [hks, if_neg hc, same i hi]
          constructor
          · exact .inl
          · rintro (h1 | ⟨y, _, h2⟩)
            · exact h1
            · exact absurd (by simpa using ((hit y).1 h2).1) hc
  · -- trash
    rw [List.concat_eq_append] at hT
    subst hT
    obtain ⟨rfl, rfl⟩ := hQof (E ++ R ++ U ++ T') x (by simp)
    right
    obtain ⟨s', e, hs, hks, hts, hp⟩ := one_trash h k t
    refine ⟨s', E, R, U, T', e, hs, hp, by rw [hs.pos], fun hu sem => ?_⟩
    obtain ⟨hno, hel⟩ := hit_trash hu h (by simp) (t := t) (by simpa using hto)
    refine sem.pop hu hpos (by rw [hs.pos]) hto hkl hk htn ?_ h.tombs (.inl ⟨hts, hel⟩)
    intro i hi
    rw [hks, same i hi]
    constructor
    · exact .inl
    · rintro (h1 | ⟨y, _, h2⟩)
      · exact h1
      · exact absurd h2 (hno y)
where
  path_inj {Q : List Nat} {t : Nat} (hto : PathTo ops t (Q ++ [t])) {a b y : Nat}
      (ha : Q[a]? = some y) (hb : Q[b]? = some y) : a = b := by
    have asc : ∀ {t p}, PathTo ops t p → p.Pairwise (· < ·) := by
      intro t p hp
      induction hp with
      | root _ => simp
      | child i j p c d hj hlt _ _ _ ih =>
        rw [List.pairwise_append]
        refine ⟨ih, by simp, ?_⟩
        intro x hx z hz
        rw [List.mem_singleton.1 hz]
        obtain ⟨q, rfl, hq⟩ := hj.last
        rcases List.mem_append.1 hx with hx | hx
        · have := hq x hx; omega
        · rw [List.mem_singleton.1 hx]; exact hlt
    have := (List.pairwise_append.1 (asc hto)).1
    rw [List.pairwise_iff_getElem] at this
    obtain ⟨la, ea⟩ := List.getElem?_eq_some_iff.1 ha
    obtain ⟨lb, eb⟩ := List.getElem?_eq_some_iff.1 hb
    rcases Nat.lt_trichotomy a b with h | h | h
    · have := this a b la lb h; omega
    · exact h
    · have := this b a lb la h; omega

/-- Unrolling the stack: stays inside of the arrays if bounded, and keeps the invariants. -/
theorem unroll_spec (ref : Uuid) : ∀ (fuel : Nat) (s : Scan) {E R U T : List Nat},
    Shape ops n s E R U T → s.positions.length ≤ fuel →
    (unroll ref fuel s = .ub ∧ ¬ Bounded ops) ∨ (∃ e, unroll ref fuel s = .bad e) ∨
    ∃ s' E' R' U' T', unroll ref fuel s = .ok s' ∧ Shape ops n s' E' R' U' T' ∧ s'.pos = s.pos ∧
      s'.path.getLast? = some ref ∧ ((ops.map AOp.id).Nodup → Sem ops n s → Sem ops n s') := by
  intro fuel
  induction fuel with
  | zero =>
    intro s E R U T h hf
    rw [h.pos] at hf; simp at hf
  | succ fuel ih =>
    intro s E R U T h hf
    obtain ⟨Q, t, k, hpos, hP, hto, hk, hpath, htn, hkl, hnil⟩ := h.split
    have hpl : s.positions.getLast? = some t := by rw [hpos]; simp
    rw [unroll_succ, hpath, hk, hpl]
    dsimp only
    by_cases ht : idAt ops t = ref
    · rw [if_pos ht]
      exact .inr (.inr ⟨s, E, R, U, T, rfl, h, rfl, by rw [hpath, ht], fun _ => id⟩)
    · rw [if_neg ht]
      by_cases hQ : Q = []
      · have := hnil.2 hQ
        have hE : E = [] ∧ R = [] ∧ U = [] ∧ T = [] := by
          simp only [List.append_eq_nil_iff] at this; exact ⟨this.1.1.1, this.1.1.2, this.1.2, this.2⟩
        obtain ⟨rfl, rfl, rfl, rfl⟩ := hE
        rw [one_root h]
        exact .inr (.inl ⟨_, rfl⟩)
      · rcases one_spec h hpos hP hQ hto hk htn hkl with ⟨hb, e⟩ | ⟨s', E', R', U', T', e, hs, hp, hpos', hsem⟩
        · rw [e]; exact .inl ⟨rfl, hb⟩
        · rw [e]
          dsimp only
          have hl : s'.positions.length ≤ fuel := by
            rw [hpos']; rw [hpos] at hf; simp at hf; omega
          rcases ih s' hs hl with h1 | h1 | ⟨s'', E'', R'', U'', T'', e2, hs2, hp2, hpa, hsem2⟩
          · exact .inl h1
          · exact .inr (.inl h1)
          · exact .inr (.inr ⟨s'', E'', R'', U'', T'', e2, hs2, hp2.trans hp, hpa,
              fun hu sem => hsem2 hu (hsem hu sem)⟩)

theorem Shape.withPos {E R U T : List Nat} (h : Shape ops n s E R U T) (p : Nat) :
    Shape ops n { s with pos := p } E R U T :=
  ⟨h.pos, h.path, h.kills, h.tombs, h.depth, h.ceilLen, h.ceil, h.state, h.to, h.bound, h.small, h.kE,
    h.kR, h.kU, h.rE, h.uR, h.irr⟩

/-- An op goes on the stack. -/
theorem Sem.push (hu : (ops.map AOp.id).Nodup) (h : Sem ops n s) {E R U T E' R' U' T' : List Nat}
    (sh : Shape ops n s E R U T) (sh' : Shape ops (n + 1) s' E' R' U' T')
    (he : E' ++ R' ++ U' ++ T' = E ++ R ++ U ++ T ++ [n])
    (hk : s'.kills = s.kills ++ [false]) (ht : s'.tombs = s.tombs ++ [decide (stOf E' R' U' T' ≠ 1)]) :
    Sem ops (n + 1) s' := by
  have hpos : s'.positions = s.positions ++ [n] := by rw [sh'.pos, sh.pos, he]; rfl
  have hkl : s.kills.length = s.positions.length := by rw [sh.kills, sh.pos]; simp; omega
  have hto : PathTo ops n (s.positions ++ [n]) := by
    obtain ⟨t, ht⟩ := sh'.to
    rw [← sh'.pos, hpos] at ht
    obtain ⟨q, hq, _⟩ := ht.last
    have := (List.append_inj' hq rfl).2
    simp only [List.cons.injEq, and_true] at this
    subst this; exact ht
  have hlate : ∀ q, q ∉ s.positions → q < n → ¬ Late ops n q := by
    intro q hq hqn hl
    obtain ⟨p, hp, hm, _⟩ := hl.mem
    rw [hp.unique hu hto] at hm
    rcases List.mem_append.1 hm with hm | hm
    · exact hq hm
    · rw [List.mem_singleton.1 hm] at hqn; omega
  have hhit : ∀ q x, q ∉ s.positions → q < n → (Hit ops (n + 1) q x ↔ Hit ops n q x) := by
    intro q x hq hqn
    have : (∃ u < n + 1, Late ops u q) ↔ ∃ u < n, Late ops u q := by
      constructor
      · rintro ⟨u, h1, h2⟩
        by_cases e : u = n
        · subst e; exact absurd h2 (hlate q hq hqn)
        · exact ⟨u, by omega, h2⟩
      · rintro ⟨u, h1, h2⟩; exact ⟨u, by omega, h2⟩
    unfold Hit
    rw [this]
  have hex : ∀ x, (∃ q < n + 1, q ∉ s'.positions ∧ Hit ops (n + 1) q x) ↔
      ∃ q < n, q ∉ s.positions ∧ Hit ops n q x := by
    intro x
    rw [hpos]
    simp only [List.mem_append, List.mem_singleton, not_or]
    constructor
    · rintro ⟨q, h1, ⟨h2, h3⟩, h4⟩
      exact ⟨q, by omega, h2, (hhit q x h2 (by omega)).1 h4⟩
    · rintro ⟨q, h1, h2, h4⟩
      exact ⟨q, by omega, ⟨h2, by omega⟩, (hhit q x h2 h1).2 h4⟩
  have hself : ¬ ∃ q < n, q ∉ s.positions ∧ Hit ops n q n := by
    rintro ⟨q, h1, _, h3⟩
    obtain ⟨_, _, _, h4⟩ := h3.mem
    omega
  constructor
  · intro i x hx
    rw [hex, hk]
    rw [hpos, List.getElem?_append] at hx
    by_cases hi : i < s.positions.length
    · rw [if_pos hi] at hx
      rw [List.getElem?_append_left (by omega), h.kills i x hx]
    · rw [if_neg hi] at hx
      have hi0 : i - s.positions.length = 0 := by
        have := (List.getElem?_eq_some_iff.1 hx).1
        simp at this; omega
      rw [hi0] at hx
      simp at hx
      subst hx
      have : (s.kills ++ [false])[i]? = some false := by
        rw [show i = s.kills.length by omega, List.getElem?_append_right (Nat.le_refl _)]; simp
      rw [this]
      constructor
      · intro h1; cases h1
      · intro h1; exact absurd h1 hself
  · intro x hx
    rw [hex, ht]
    by_cases e : x = n
    · subst e
      have hin : x ∈ s'.positions := by rw [hpos]; simp
      simp only [hin, not_true, false_and, not_false_iff, and_true]
      rw [List.getElem?_append_right (by rw [sh.tombs]; exact Nat.le_refl _), sh.tombs, Nat.sub_self]
      simp only [List.getElem?_cons_zero, Option.some.injEq, decide_eq_false_iff_not, Classical.not_not]
      have hp' : PathTo ops x (0 :: (E' ++ R' ++ U' ++ T')) := by
        rw [← sh'.pos, hpos]; exact hto
      constructor
      · intro h1
        have hno : R' = [] ∧ U' = [] ∧ T' = [] ∧ E' ≠ [] := by
          revert h1; unfold stOf
          (repeat' split) <;> simp_all
        obtain ⟨rfl, rfl, rfl, hE⟩ := hno
        exact ⟨E', hE, sh'.regular.branch (by simpa using hp')⟩
      · rintro ⟨E'', hE, hb⟩
        have := hb.path.unique hu hp'
        rw [List.cons.injEq] at this
        obtain ⟨rfl, rfl, rfl, rfl⟩ := regular_unique sh'.regular sh'.irr (hb.regular (by simp) (by simp)) this.2.symm
        simp [stOf, hE]
    · have hxn : x < n := by omega
      rw [List.getElem?_append_left (by rw [sh.tombs]; exact hxn), h.tombs x hxn]
      have : x ∉ s'.positions ↔ x ∉ s.positions := by rw [hpos]; simp [e]
      rw [this]

/-- One turn. -/
theorem turn_spec {E R U T : List Nat} {o : AOp} (h : Shape ops n s E R U T) (hp : s.pos + 1 = n)
    (hn : n < 2 ^ 31 - 1) (ho : ops[n]? = some o) :
    (turn s o.id o.ref (entryType o) = .ub ∧ ¬ Bounded ops) ∨
    (∃ e, turn s o.id o.ref (entryType o) = .bad e) ∨
    ∃ s' E' R' U' T', turn s o.id o.ref (entryType o) = .ok s' ∧ Shape ops (n + 1) s' E' R' U' T' ∧
      s'.pos = n ∧ ((ops.map AOp.id).Nodup → Sem ops n s → Sem ops (n + 1) s') := by
  unfold turn
  dsimp only
  rw [show (s.pos + 1) % 2 ^ 32 = n by rw [hp]; exact Nat.mod_eq_of_lt (by omega)]
  split
  · exact .inr (.inl ⟨_, rfl⟩)
  split
  · exact .inr (.inl ⟨_, rfl⟩)
  have hpl : ({ s with pos := n } : Scan).positions.length ≤ ({ s with pos := n } : Scan).path.length + 1 := by
    show s.positions.length ≤ s.path.length + 1
    rw [h.pos, h.path, List.length_map]; omega
  rcases unroll_spec o.ref _ { s with pos := n } (h.withPos n) hpl with ⟨e, hb⟩ | ⟨e, e2⟩ |
      ⟨s', E', R', U', T', e, hs, hpos, hpa, hsem⟩
  · exact .inl ⟨by rw [e], hb⟩
  · exact .inr (.inl ⟨e, by rw [e2]⟩)
  · obtain ⟨E2, R2, U2, T2, he, hs2, hk2, ht2, hp2⟩ := enter_shape hs hn ho hpos hpa
    refine .inr (.inr ⟨enter s' o.id (entryType o), E2, R2, U2, T2, ?_, hs2, hp2.trans hpos, ?_⟩)
    · rw [e]
    · intro hu sem
      exact (hsem hu ⟨sem.kills, sem.tombs⟩).push hu hs hs2 he hk2 ht2

/-- All the turns. -/
theorem turns_spec (hN : ops.length < 2 ^ 31) : ∀ (os : List AOp) (n : Nat) (s : Scan)
    {E R U T : List Nat}, Shape ops n s E R U T → s.pos + 1 = n → ops.drop n = os →
    (turns s os = .ub ∧ ¬ Bounded ops) ∨ (∃ e, turns s os = .bad e) ∨
    ∃ s' E' R' U' T', turns s os = .ok s' ∧ Shape ops (n + os.length) s' E' R' U' T' ∧
      s'.pos + 1 = n + os.length ∧ ((ops.map AOp.id).Nodup → Sem ops n s → Sem ops (n + os.length) s') := by
  intro os
  induction os with
  | nil =>
    intro n s E R U T h hp _
    exact .inr (.inr ⟨s, E, R, U, T, rfl, h, hp, fun _ => id⟩)
  | cons o os ih =>
    intro n s E R U T h hp hd
    have hlen : n + os.length + 1 = ops.length := by
      have := congrArg List.length hd
      simp only [List.length_drop, List.length_cons] at this; omega
    have ho : ops[n]? = some o := by
      have : (ops.drop n)[0]? = some o := by rw [hd]; rfl
      simpa [List.getElem?_drop] using this
    rw [turns]
    rcases turn_spec h hp (by omega) ho with ⟨e, hb⟩ | ⟨e, e2⟩ | ⟨s', E', R', U', T', e, hs, hpos, hsem⟩
    · exact .inl ⟨by rw [e], hb⟩
    · exact .inr (.inl ⟨e, by rw [e2]⟩)
    · rw [e]
      dsimp only
      have hd' : ops.drop (n + 1) = os := by
        rw [← List.drop_drop, hd]; rfl
      rcases ih (n + 1) s' hs (by omega) hd' with h1 | h1 | ⟨s2, E2, R2, U2, T2, e2, hs2, hp2, hsem2⟩
      · exact .inl h1
      · exact .inr (.inl h1)
      · have hl : n + 1 + os.length = n + (o :: os).length := by simp; omega
        rw [hl] at hs2 hp2 hsem2
        exact .inr (.inr ⟨s2, E2, R2, U2, T2, e2, hs2, hp2, fun hu sem => hsem2 hu (hsem hu sem)⟩)

theorem start_shape {o : AOp} {os : List AOp} : Shape (o :: os) 1 (start o.id) [] [] [] [] := by
  constructor
  · rfl
  · rfl
  · rfl
  · rfl
  · rfl
  · rfl
  · intro i hi
    have : i = 0 := by simpa [stOf] using hi
    subst this; rfl
  · rfl
  · exact ⟨0, .root (by simp)⟩
  · simp
  · simp
  all_goals simp

theorem start_sem {o : AOp} {os : List AOp} : Sem (o :: os) 1 (start o.id) := by
  constructor
  · intro i x hx
    have hx : [0][i]? = some x := hx
    have hi : i = 0 := by have := (List.getElem?_eq_some_iff.1 hx).1; simpa using this
    subst hi
    show some false = some true ↔ _
    constructor
    · intro h; cases h
    · rintro ⟨q, h1, h2, _⟩
      exact absurd (show q ∈ [0] by simp; omega) h2
  · intro x hx
    have : x = 0 := by omega
    subst this
    show some true = some false ↔ _
    constructor
    · intro h; cases h
    · rintro ⟨⟨E, hE, hb⟩, _⟩
      exfalso
      obtain ⟨q, hq, hlt⟩ := hb.path.last
      cases q with
      | nil => simp at hq; exact hE hq
      | cons y ys => have := hlt y (by simp); omega

/-- The whole scan: it stays inside of its arrays if bounded, and the flags are the tombstones. -/
theorem scan_spec (hN : ops.length < 2 ^ 31) :
    (scan ops = .ub ∧ ¬ Bounded ops) ∨ (∃ e, scan ops = .bad e) ∨
    ∃ flags, scan ops = .ok flags ∧ flags.length = ops.length ∧
      ((ops.map AOp.id).Nodup → ∀ x < ops.length, flags[x]? = some false ↔
        Element ops x ∧ ∀ q, Removes ops q x → ∃ u, Late ops u q) := by
  cases ops with
  | nil => exact .inr (.inr ⟨[], rfl, rfl, by simp⟩)
  | cons o os =>
    unfold scan
    dsimp only
    split
    · exact .inr (.inl ⟨_, rfl⟩)
    rcases turns_spec hN os 1 (start o.id) start_shape rfl rfl with ⟨e, hb⟩ | ⟨e, e2⟩ |
        ⟨s, E, R, U, T, e, hs, hp, hsem⟩
    · exact .inl ⟨by rw [e], hb⟩
    · exact .inr (.inl ⟨e, by rw [e2]⟩)
    · rw [e]
      dsimp only
      unfold turn
      dsimp only
      by_cases c1 : Uuid.gt o.id (Uuid.time NEVER 0#64) = true
      · rw [if_pos c1]; exact .inr (.inl ⟨_, rfl⟩)
      rw [if_neg c1]
      by_cases c2 : (Uuid.time NEVER 0#64).version ≠ Uuid.vTIME ∨ o.id.version ≠ Uuid.vTIME
      · rw [if_pos c2]; exact .inr (.inl ⟨_, rfl⟩)
      rw [if_neg c2]
      generalize hpn : (s.pos + 1) % 2 ^ 32 = pn
      have hpl : ({ s with pos := pn } : Scan).positions.length ≤ ({ s with pos := pn } : Scan).path.length + 1 := by
        show s.positions.length ≤ s.path.length + 1
        rw [hs.pos, hs.path, List.length_map]; omega
      rcases unroll_spec o.id _ { s with pos := pn } (hs.withPos pn) hpl with ⟨e2, hb⟩ | ⟨e2, e3⟩ |
          ⟨s', E', R', U', T', e2, hs', hpos, hpa, hsem'⟩
      · exact .inl ⟨by rw [e2], hb⟩
      · exact .inr (.inl ⟨e2, by rw [e3]⟩)
      · rw [e2]
        dsimp only
        have htl : (enter s' (Uuid.time NEVER 0#64) META).tombs.dropLast = s'.tombs := by
          unfold enter
          dsimp only
          rw [List.dropLast_concat]
          split
          · split <;> rfl
          · rfl
        refine .inr (.inr ⟨_, rfl, ?_, ?_⟩)
        · rw [htl, hs'.tombs]; simp; omega
        · intro hu x hx
          rw [htl]
          have sem := hsem' hu ⟨(hsem hu start_sem).kills, (hsem hu start_sem).tombs⟩
          have hlen : 1 + os.length = (o :: os).length := by simp; omega
          rw [hlen] at sem hs'
          -- the stack is the root
          obtain ⟨Q, t, k, hpos', hP, hto, hk, hpath, htn, hkl, hnil⟩ := hs'.split
          rw [hpath, Option.some.injEq] at hpa
          have ht0 : t = 0 := by
            obtain ⟨a, ha⟩ : ∃ a, (o :: os)[t]? = some a := ⟨_, List.getElem?_eq_getElem hto.lt⟩
            have hid : a.id = o.id := by simpa [idAt, ha] using hpa
            obtain ⟨la, ea⟩ := List.getElem?_eq_some_iff.1 ha
            have hne := List.pairwise_iff_getElem.1 hu
            apply Classical.byContradiction
            intro h0
            refine absurd ?_ (hne 0 t (by simp) (by simpa using la) (by omega))
            simp only [List.getElem_map, ea, hid]
            rfl
          subst ht0
          have hQ : Q = [] := by
            obtain ⟨q, hq, hlt⟩ := hto.last
            have := List.append_inj_left' hq rfl
            subst this
            cases Q with
            | nil => rfl
            | cons y ys => have := hlt y (by simp); omega
          subst hQ
          rw [sem.tombs x hx, hpos']
          simp only [List.nil_append, List.mem_singleton]
          have hkind : Element (o :: os) x → kindAt (o :: os) x = 1 ∧ x ≠ 0 := by
            rintro ⟨E, hE, hb⟩
            obtain ⟨q, hq, hlt⟩ := hb.path.last
            rcases List.eq_nil_or_concat E with rfl | ⟨E', y, rfl⟩
            · exact absurd rfl hE
            · rw [List.concat_eq_append, List.append_nil, List.append_nil, ← List.cons_append] at hq
              obtain ⟨rfl, h2⟩ := List.append_inj' hq rfl
              simp only [List.cons.injEq, and_true] at h2
              subst h2
              refine ⟨(kindAt_iff .insert).1 (hb.inserts y (by simp)), ?_⟩
              have := hlt 0 (by simp); omega
          constructor
          · rintro ⟨h1, h2⟩
            refine ⟨h1, fun q hq => ?_⟩
            apply Classical.byContradiction
            intro hno
            apply h2
            obtain ⟨_, hpq, _, hlt, _⟩ := hq.mem
            refine ⟨(hkind h1).2, q, hpq.lt, by omega, .inl ⟨hq, ?_⟩⟩
            rintro ⟨u, _, hl⟩
            exact hno ⟨u, hl⟩
          · rintro ⟨h1, h2⟩
            refine ⟨h1, ?_⟩
            rintro ⟨_, q, _, _, h3 | h3⟩
            · obtain ⟨u, hl⟩ := h2 q h3.1
              obtain ⟨_, hpu, _⟩ := hl.mem
              exact h3.2 ⟨u, hpu.lt, hl⟩
            · obtain ⟨_, _, _, _, h5⟩ := h3.mem
              have := (hkind h1).1
              omega

end Ron.Rga
