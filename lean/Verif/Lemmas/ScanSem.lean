import Verif.Lemmas.Scan
/-!
What `ScanRGA` computes.
-/
namespace Ron.Rga
open Ron Spec

/-! ### The decomposition of a path -/

/-- The kinds along a path go up by at most one. -/
def reg : Nat → List Nat → Prop
  | _, [] => True
  | st, k :: ks => (k = st ∨ k = st + 1) ∧ reg k ks

def lastOf (st : Nat) (ks : List Nat) : Nat := ks.getLast?.getD st

theorem reg_append (st : Nat) (a b : List Nat) : reg st (a ++ b) ↔ reg st a ∧ reg (lastOf st a) b := by
  induction a generalizing st with
  | nil => simp [reg, lastOf]
  | cons k ks ih =>
    simp only [List.cons_append, reg, ih, and_assoc]
    have : lastOf k ks = lastOf st (k :: ks) := by
      cases ks with
      | nil => rfl
      | cons y ys => simp [lastOf, List.getLast?_cons_cons]; cases h : (y :: ys).getLast? <;> simp_all
    rw [this]

theorem reg_const {ks : List Nat} {k st : Nat} (h : ∀ x ∈ ks, x = k) (hk : k = st ∨ k = st + 1) : reg st ks := by
  induction ks generalizing st with
  | nil => trivial
  | cons x xs ih =>
    have := h x (by simp)
    subst this
    exact ⟨hk, ih (fun y hy => h y (by simp [hy])) (.inl rfl)⟩

theorem lastOf_append (st : Nat) (a b : List Nat) : lastOf st (a ++ b) = lastOf (lastOf st a) b := by
  rcases List.eq_nil_or_concat b with rfl | ⟨c, d, h⟩
  · simp [lastOf]
  · subst h; simp [lastOf, List.concat_eq_append]

theorem lastOf_const {l : List Nat} {f : Nat → Nat} {k st : Nat} (h : ∀ x ∈ l, f x = k) :
    lastOf st (l.map f) = if l = [] then st else k := by
  rcases List.eq_nil_or_concat l with rfl | ⟨c, d, hc⟩
  · simp [lastOf]
  · rw [List.concat_eq_append] at hc
    have : l ≠ [] := by rw [hc]; simp
    rw [if_neg this]
    simp [lastOf, hc, h d (by rw [hc]; simp)]

/-- Elements, removals and undos along a path, in this order. -/
structure Regular (ops : List AOp) (E R U : List Nat) : Prop where
  kE : ∀ x ∈ E, kindAt ops x = 1
  kR : ∀ x ∈ R, kindAt ops x = 2
  kU : ∀ x ∈ U, kindAt ops x = 3
  rE : R ≠ [] → E ≠ []
  uR : U ≠ [] → R ≠ []

theorem Regular.reg {ops : List AOp} {E R U : List Nat} (h : Regular ops E R U) :
    reg 0 ((E ++ R ++ U).map (kindAt ops)) ∧
      lastOf 0 ((E ++ R ++ U).map (kindAt ops)) = stOf E R U [] := by
  have m : ∀ {l : List Nat} {k : Nat}, (∀ x ∈ l, kindAt ops x = k) → ∀ y ∈ l.map (kindAt ops), y = k := by
    intro l k hl y hy
    obtain ⟨x, hx, rfl⟩ := List.mem_map.1 hy
    exact hl x hx
  simp only [List.map_append, reg_append, lastOf_append]
  rw [lastOf_const h.kE, lastOf_const h.kR, lastOf_const h.kU]
  refine ⟨⟨⟨reg_const (m h.kE) (.inr rfl), ?_⟩, ?_⟩, ?_⟩
  · by_cases hR : R = []
    · subst hR; trivial
    · rw [if_neg (h.rE hR)]; exact reg_const (m h.kR) (.inr rfl)
  · by_cases hU : U = []
    · subst hU; trivial
    · rw [if_neg (h.uR hU)]; exact reg_const (m h.kU) (.inr rfl)
  · simp only [stOf, ne_eq, not_true, if_false, ite_not]

/-- A path has at most one such decomposition, and a stack with trash on it has none. -/
theorem regular_unique {ops : List AOp} {E R U T E' R' U' : List Nat} (h : Regular ops E R U)
    (hirr : ∀ x, T.head? = some x → kindAt ops x ≠ stOf E R U [] ∧ kindAt ops x ≠ stOf E R U [] + 1)
    (h' : Regular ops E' R' U') (he : E ++ R ++ U ++ T = E' ++ R' ++ U') :
    E = E' ∧ R = R' ∧ U = U' ∧ T = [] := by
  have hT : T = [] := by
    cases T with
    | nil => rfl
    | cons t ts =>
      exfalso
      have := h'.reg.1
      rw [← he, List.map_append, reg_append] at this
      rw [h.reg.2, List.map_cons] at this
      have h1 := this.2.1
      have h2 := hirr t rfl
      rcases h1 with h1 | h1
      · exact h2.1 h1
      · exact h2.2 h1
  subst hT
  rw [List.append_nil] at he
  have f : ∀ (k : Nat) {A B C : List Nat}, Regular ops A B C →
      (A ++ B ++ C).filter (fun x => decide (kindAt ops x = k)) =
      (if k = 1 then A else []) ++ (if k = 2 then B else []) ++ (if k = 3 then C else []) := by
    intro k A B C hr
    have g : ∀ {l : List Nat} {j : Nat}, (∀ x ∈ l, kindAt ops x = j) →
        l.filter (fun x => decide (kindAt ops x = k)) = if k = j then l else [] := by
      intro l j hl
      split
      · rename_i e; subst e
        exact List.filter_eq_self.2 fun x hx => by simp [hl x hx]
      · rename_i e
        exact List.filter_eq_nil_iff.2 fun x hx => by simp [hl x hx]; exact fun e' => e e'.symm
    rw [List.filter_append, List.filter_append, g hr.kE, g hr.kR, g hr.kU]
  have f1 := f 1 h
  have f2 := f 2 h
  have f3 := f 3 h
  rw [he] at f1 f2 f3
  rw [f _ h'] at f1 f2 f3
  simp at f1 f2 f3
  exact ⟨f1.symm, f2.symm, f3.symm, rfl⟩

theorem Shape.regular {ops : List AOp} {n : Nat} {s : Scan} {E R U T : List Nat}
    (h : Shape ops n s E R U T) : Regular ops E R U := ⟨h.kE, h.kR, h.kU, h.rE, h.uR⟩

theorem _root_.Ron.Spec.Branch.regular {ops : List AOp} {q : Nat} {E R U : List Nat} (h : Branch ops q E R U)
    (rE : R ≠ [] → E ≠ []) (uR : U ≠ [] → R ≠ []) : Regular ops E R U :=
  ⟨fun x hx => (kindAt_iff .insert).1 (h.inserts x hx), fun x hx => (kindAt_iff .remove).1 (h.removes x hx),
    fun x hx => (kindAt_iff .undo).1 (h.undos x hx), rE, uR⟩

theorem Regular.branch {ops : List AOp} {q : Nat} {E R U : List Nat} (h : Regular ops E R U)
    (hp : PathTo ops q (0 :: (E ++ R ++ U))) : Branch ops q E R U :=
  ⟨hp, fun x hx => (kindAt_iff .insert).2 (h.kE x hx), fun x hx => (kindAt_iff .remove).2 (h.kR x hx),
    fun x hx => (kindAt_iff .undo).2 (h.kU x hx)⟩

/-! ### What hits what -/

/-- The op at `q` takes back the one at `x`, among the first `n` ops. -/
def Hit (ops : List AOp) (n q x : Nat) : Prop :=
  (Removes ops q x ∧ ¬ ∃ u < n, Late ops u q) ∨ Late ops q x

theorem _root_.Ron.Spec.Removes.mem {ops : List AOp} {q x : Nat} (h : Removes ops q x) :
    ∃ p, PathTo ops q p ∧ x ∈ p ∧ x < q ∧ kindAt ops x = 1 := by
  obtain ⟨E, R, hR, hb, hx⟩ := h
  have hxE : x ∈ E := List.mem_reverse.1 (List.mem_of_getElem? hx)
  refine ⟨_, hb.path, by simp [hxE], ?_, (kindAt_iff .insert).1 (hb.inserts x hxE)⟩
  obtain ⟨p, hp, hlt⟩ := hb.path.last
  rcases List.eq_nil_or_concat R with rfl | ⟨R', r, rfl⟩
  · exact absurd rfl hR
  · apply hlt
    rw [List.concat_eq_append, List.append_nil, ← List.append_assoc, ← List.cons_append] at hp
    rw [← List.append_inj_left' hp rfl]
    simp [hxE]

theorem _root_.Ron.Spec.Late.mem {ops : List AOp} {q x : Nat} (h : Late ops q x) :
    ∃ p, PathTo ops q p ∧ x ∈ p ∧ x < q ∧ kindAt ops x = 2 := by
  obtain ⟨E, R, U, hE, hU, hb, _, hx⟩ := h
  have hxR : x ∈ R := List.mem_reverse.1 (List.mem_of_getElem? hx)
  refine ⟨_, hb.path, by simp [hxR], ?_, (kindAt_iff .remove).1 (hb.removes x hxR)⟩
  obtain ⟨p, hp, hlt⟩ := hb.path.last
  rcases List.eq_nil_or_concat U with rfl | ⟨U', r, rfl⟩
  · exact absurd rfl hU
  · apply hlt
    rw [List.concat_eq_append, ← List.append_assoc, ← List.cons_append] at hp
    rw [← List.append_inj_left' hp rfl]
    simp [hxR]

theorem Hit.mem {ops : List AOp} {n q x : Nat} (h : Hit ops n q x) :
    ∃ p, PathTo ops q p ∧ x ∈ p ∧ x < q := by
  rcases h with h | h
  · obtain ⟨p, a, b, c, _⟩ := h.1.mem; exact ⟨p, a, b, c⟩
  · obtain ⟨p, a, b, c, _⟩ := h.mem; exact ⟨p, a, b, c⟩

/-- The flags after `n` ops: an op is killed if an op that has left the stack hits it, and an
element becomes a tombstone when it leaves the stack killed. -/
structure Sem (ops : List AOp) (n : Nat) (s : Scan) : Prop where
  kills : ∀ (i x : Nat), s.positions[i]? = some x →
    (s.kills[i]? = some true ↔ ∃ q < n, q ∉ s.positions ∧ Hit ops n q x)
  tombs : ∀ (x : Nat), x < n → (s.tombs[x]? = some false ↔
    Element ops x ∧ ¬ (x ∉ s.positions ∧ ∃ q < n, q ∉ s.positions ∧ Hit ops n q x))

variable {ops : List AOp} {n : Nat} {s s' : Scan}

/-- The op on top leaves. -/
theorem Sem.pop (hu : (ops.map AOp.id).Nodup) (h : Sem ops n s) {Q : List Nat} {t : Nat} {k : Bool}
    (hpos : s.positions = Q ++ [t]) (hpos' : s'.positions = Q) (hto : PathTo ops t (Q ++ [t]))
    (hlen : s.kills.length = s.positions.length) (hk : s.kills.getLast? = some k) (htn : t < n)
    (hkills : ∀ i < Q.length, s'.kills[i]? = some true ↔
      s.kills[i]? = some true ∨ ∃ x, Q[i]? = some x ∧ Hit ops n t x)
    (htl : s.tombs.length = n)
    (htombs : s'.tombs = s.tombs ∧ ¬ Element ops t ∨
      Element ops t ∧ s'.tombs = if k then s.tombs.set t true else s.tombs) : Sem ops n s' := by
  have hQ : t ∉ Q := by
    obtain ⟨q, hq, hlt⟩ := hto.last
    have := List.append_inj_left' hq rfl
    subst this
    intro ht; exact absurd (hlt t ht) (by omega)
  have hnot : ∀ q, q ∉ Q ↔ q ∉ s.positions ∨ q = t := by
    intro q
    rw [hpos]
    simp only [List.mem_append, List.mem_singleton, not_or]
    constructor
    · intro hq
      by_cases e : q = t
      · exact .inr e
      · exact .inl ⟨hq, e⟩
    · rintro (⟨a, _⟩ | rfl)
      · exact a
      · exact hQ
  have hex : ∀ x, (∃ q < n, q ∉ Q ∧ Hit ops n q x) ↔
      (∃ q < n, q ∉ s.positions ∧ Hit ops n q x) ∨ Hit ops n t x := by
    intro x
    constructor
    · rintro ⟨q, h1, h2, h3⟩
      rcases (hnot q).1 h2 with h2 | rfl
      · exact .inl ⟨q, h1, h2, h3⟩
      · exact .inr h3
    · rintro (⟨q, h1, h2, h3⟩ | h3)
      · exact ⟨q, h1, (hnot q).2 (.inl h2), h3⟩
      · exact ⟨t, htn, hQ, h3⟩
  constructor
  · intro i x hx
    rw [hpos'] at hx ⊢
    have hi : i < Q.length := (List.getElem?_eq_some_iff.1 hx).1
    have hx' : s.positions[i]? = some x := by rw [hpos, List.getElem?_append_left hi, hx]
    rw [hkills i hi, hex, h.kills i x hx']
    constructor
    · rintro (h1 | ⟨y, hy, h2⟩)
      · exact .inl h1
      · rw [hx] at hy; cases hy; exact .inr h2
    · rintro (h1 | h2)
      · exact .inl h1
      · exact .inr ⟨x, hx, h2⟩
  · intro x hxn
    rw [hpos', hex]
    by_cases hxt : x = t
    · subst hxt
      have hself : ¬ Hit ops n x x := by
        intro hh; obtain ⟨_, _, _, h3⟩ := hh.mem; omega
      have hin : x ∈ s.positions := by rw [hpos]; simp
      have hold := h.tombs x hxn
      simp only [hin, not_true, false_and, not_false_iff, and_true] at hold
      have hkx := h.kills Q.length x (by rw [hpos]; simp)
      have hkl : s.kills[Q.length]? = some k := by
        rw [List.getLast?_eq_getElem?, hlen, hpos] at hk
        simpa using hk
      rw [hkl] at hkx
      rcases htombs with ⟨e, hne⟩ | ⟨he, e⟩
      · rw [e, hold]
        constructor
        · intro h1; exact absurd h1 hne
        · intro h1; exact h1.1
      · rw [e]
        cases k with
        | true =>
          rw [if_pos rfl, List.getElem?_set_self (by omega)]
          constructor
          · intro h1; cases h1
          · intro h1; exact absurd ⟨hQ, .inl (hkx.1 rfl)⟩ h1.2
        | false =>
          rw [if_neg (by simp), hold]
          constructor
          · intro h1
            refine ⟨h1, ?_⟩
            rintro ⟨_, h2 | h2⟩
            · exact absurd (hkx.2 h2) (by simp)
            · exact hself h2
          · intro h1; exact h1.1
    · have hset : s'.tombs[x]? = s.tombs[x]? := by
        rcases htombs with ⟨e, _⟩ | ⟨_, e⟩
        · rw [e]
        · rw [e]; cases k <;> simp [List.getElem?_set_ne (Ne.symm hxt)]
      rw [hset, h.tombs x hxn]
      have hiff : (x ∉ s.positions) ↔ x ∉ Q := by
        rw [hpos]; simp [hxt]
      have hno : x ∉ s.positions → ¬ Hit ops n t x := by
        intro hx hh
        obtain ⟨p, hp, hm, _⟩ := hh.mem
        rw [hp.unique hu hto, ← hpos] at hm
        exact hx hm
      rw [hiff] at *
      constructor
      · rintro ⟨h1, h2⟩
        refine ⟨h1, ?_⟩
        rintro ⟨a, b | b⟩
        · exact h2 ⟨a, b⟩
        · exact hno a b
      · rintro ⟨h1, h2⟩
        refine ⟨h1, ?_⟩
        rintro ⟨a, b⟩
        exact h2 ⟨a, .inl b⟩

/-- What the op on top hits, by the shape of the stack. -/
theorem hit_trash (hu : (ops.map AOp.id).Nodup) {E R U T : List Nat} {t : Nat}
    (h : Shape ops n s E R U T) (hT : T ≠ []) (hto : PathTo ops t (0 :: (E ++ R ++ U ++ T))) :
    (∀ x, ¬ Hit ops n t x) ∧ ¬ Element ops t := by
  have key : ∀ E' R' U', Branch ops t E' R' U' → (R' ≠ [] → E' ≠ []) → (U' ≠ [] → R' ≠ []) → False := by
    intro E' R' U' hb h1 h2
    have := hb.path.unique hu hto
    rw [List.cons.injEq] at this
    exact hT (regular_unique h.regular h.irr (hb.regular h1 h2) this.2.symm).2.2.2
  refine ⟨fun x hh => ?_, fun ⟨E', hE, hb⟩ => key E' [] [] hb (by simp) (by simp)⟩
  rcases hh with ⟨⟨E', R', _, hb, hx⟩, _⟩ | ⟨E', R', U', hE, hU, hb, hlt, hx⟩
  · refine key E' R' [] hb (fun _ => ?_) (by simp)
    rintro rfl; simp at hx
  · refine key E' R' U' hb (fun _ => hE) (fun _ => ?_)
    rintro rfl; simp at hx

theorem hit_undo (hu : (ops.map AOp.id).Nodup) {E R U : List Nat} {t : Nat}
    (h : Shape ops n s E R U []) (hU : U ≠ []) (hto : PathTo ops t (0 :: (E ++ R ++ U))) :
    (∀ x, Hit ops n t x ↔ U.length < R.length ∧ R.reverse[U.length - 1]? = some x) ∧ ¬ Element ops t := by
  have key : ∀ E' R' U', Branch ops t E' R' U' → (R' ≠ [] → E' ≠ []) → (U' ≠ [] → R' ≠ []) →
      E = E' ∧ R = R' ∧ U = U' := by
    intro E' R' U' hb h1 h2
    have := hb.path.unique hu hto
    rw [List.cons.injEq] at this
    obtain ⟨a, b, c, _⟩ := regular_unique (T := []) h.regular h.irr (hb.regular h1 h2) (by rw [List.append_nil]; exact this.2.symm)
    exact ⟨a, b, c⟩
  refine ⟨fun x => ⟨fun hh => ?_, fun hh => ?_⟩, fun ⟨E', hE, hb⟩ => ?_⟩
  · rcases hh with ⟨⟨E', R', _, hb, hx⟩, _⟩ | ⟨E', R', U', hE, hU', hb, hlt, hx⟩
    · obtain ⟨_, _, c⟩ := key E' R' [] hb (fun _ => by rintro rfl; simp at hx) (by simp)
      exact absurd c hU
    · obtain ⟨rfl, rfl, rfl⟩ := key E' R' U' hb (fun _ => hE) (fun _ => by rintro rfl; simp at hx)
      exact ⟨hlt, hx⟩
  · right
    exact ⟨E, R, U, h.rE (h.uR hU), hU, h.regular.branch hto, hh.1, hh.2⟩
  · obtain ⟨_, _, c⟩ := key E' [] [] hb (by simp) (by simp)
    exact hU c

theorem hit_remove (hu : (ops.map AOp.id).Nodup) {E R : List Nat} {t : Nat}
    (h : Shape ops n s E R [] []) (hR : R ≠ []) (hto : PathTo ops t (0 :: (E ++ R))) :
    (∀ x, Hit ops n t x ↔ E.reverse[R.length - 1]? = some x ∧ ¬ ∃ u < n, Late ops u t) ∧
      ¬ Element ops t := by
  have key : ∀ E' R' U', Branch ops t E' R' U' → (R' ≠ [] → E' ≠ []) → (U' ≠ [] → R' ≠ []) →
      E = E' ∧ R = R' ∧ [] = U' := by
    intro E' R' U' hb h1 h2
    have := hb.path.unique hu hto
    rw [List.cons.injEq] at this
    obtain ⟨a, b, c, _⟩ := regular_unique (T := []) h.regular h.irr (hb.regular h1 h2) (by rw [List.append_nil, List.append_nil]; exact this.2.symm)
    exact ⟨a, b, c⟩
  refine ⟨fun x => ⟨fun hh => ?_, fun hh => ?_⟩, fun ⟨E', hE, hb⟩ => ?_⟩
  · rcases hh with ⟨⟨E', R', _, hb, hx⟩, hl⟩ | ⟨E', R', U', hE, hU', hb, hlt, hx⟩
    · obtain ⟨rfl, rfl, _⟩ := key E' R' [] hb (fun _ => by rintro rfl; simp at hx) (by simp)
      exact ⟨hx, hl⟩
    · obtain ⟨_, _, c⟩ := key E' R' U' hb (fun _ => hE) (fun _ => by rintro rfl; simp at hx)
      exact absurd c.symm hU'
  · left
    exact ⟨⟨E, R, hR, h.regular.branch (by rw [List.append_nil]; exact hto), hh.1⟩, hh.2⟩
  · obtain ⟨_, c, _⟩ := key E' [] [] hb (by simp) (by simp)
    exact hR c

theorem hit_entry (hu : (ops.map AOp.id).Nodup) {E : List Nat} {t : Nat}
    (h : Shape ops n s E [] [] []) (hE : E ≠ []) (hto : PathTo ops t (0 :: E)) :
    (∀ x, ¬ Hit ops n t x) ∧ Element ops t := by
  have key : ∀ E' R' U', Branch ops t E' R' U' → (R' ≠ [] → E' ≠ []) → (U' ≠ [] → R' ≠ []) →
      E = E' ∧ [] = R' ∧ [] = U' := by
    intro E' R' U' hb h1 h2
    have := hb.path.unique hu hto
    rw [List.cons.injEq] at this
    obtain ⟨a, b, c, _⟩ := regular_unique (T := []) h.regular h.irr (hb.regular h1 h2)
      (by rw [List.append_nil, List.append_nil, List.append_nil]; exact this.2.symm)
    exact ⟨a, b, c⟩
  refine ⟨fun x hh => ?_, ⟨E, hE, h.regular.branch (by rw [List.append_nil, List.append_nil]; exact hto)⟩⟩
  rcases hh with ⟨⟨E', R', hR, hb, hx⟩, hl⟩ | ⟨E', R', U', hE, hU', hb, hlt, hx⟩
  · obtain ⟨_, c, _⟩ := key E' R' [] hb (fun _ => by rintro rfl; simp at hx) (by simp)
    exact hR c.symm
  · obtain ⟨_, _, c⟩ := key E' R' U' hb (fun _ => hE) (fun _ => by rintro rfl; simp at hx)
    exact hU' c.symm

end Ron.Rga
