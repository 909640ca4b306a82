import Verif.Spec.Rga
import Verif.Lemmas.MergeAny
/-!
Paths and the order of the weave.
-/
namespace Ron
namespace Spec
open Rdt

theorem before_nil (a : List Uuid) : before a [] = false := by
  cases a <;> rfl

theorem before_cons (a b : Uuid) (as bs : List Uuid) :
    before (a :: as) (b :: bs) = (Uuid.lt b a || (decide (a = b) && before as bs)) := by
  simp only [before]

theorem before_irrefl : ∀ a, before a a = false
  | [] => rfl
  | x :: xs => by simp [before_cons, uuid_lin.irrefl, before_irrefl xs]

theorem before_trans : ∀ a b c, before a b = true → before b c = true → before a c = true
  | _, [], _, h, _ => by rw [before_nil] at h; cases h
  | _, _ :: _, [], _, h => by rw [before_nil] at h; cases h
  | [], _ :: _, _ :: _, _, _ => rfl
  | x :: xs, y :: ys, z :: zs, h1, h2 => by
    rw [before_cons] at h1 h2 ⊢
    simp only [Bool.or_eq_true, Bool.and_eq_true, decide_eq_true_eq] at h1 h2 ⊢
    rcases h1 with h1 | ⟨rfl, h1⟩ <;> rcases h2 with h2 | ⟨rfl, h2⟩
    · exact .inl (uuid_lin.trans _ _ _ h2 h1)
    · exact .inl h1
    · exact .inl h2
    · exact .inr ⟨rfl, before_trans xs ys zs h1 h2⟩

theorem before_asymm {a b : List Uuid} (h : before a b = true) : before b a = false := by
  cases e : before b a with
  | false => rfl
  | true => have := before_trans _ _ _ h e; rw [before_irrefl] at this; cases this

theorem before_total : ∀ a b, a ≠ b → before a b = true ∨ before b a = true
  | [], [], h => absurd rfl h
  | [], _ :: _, _ => .inl rfl
  | _ :: _, [], _ => .inr rfl
  | x :: xs, y :: ys, h => by
    rw [before_cons, before_cons]
    simp only [Bool.or_eq_true, Bool.and_eq_true, decide_eq_true_eq]
    rcases uuid_lin.tri x y with e | rfl | e
    · exact .inr (.inl e)
    · have : xs ≠ ys := fun e => h (by rw [e])
      rcases before_total xs ys this with e | e
      · exact .inl (.inr ⟨rfl, e⟩)
      · exact .inr (.inr ⟨rfl, e⟩)
    · exact .inl (.inl e)

theorem before_append : ∀ (a s : List Uuid), s ≠ [] → before a (a ++ s) = true
  | [], [], h => absurd rfl h
  | [], _ :: _, _ => rfl
  | x :: xs, s, h => by
    rw [List.cons_append, before_cons, before_append xs s h]
    simp

theorem before_cases : ∀ a b, before a b = true → (∃ s, s ≠ [] ∧ b = a ++ s) ∨
    ∃ c x y s t, a = c ++ x :: s ∧ b = c ++ y :: t ∧ Uuid.lt y x = true
  | _, [], h => by rw [before_nil] at h; cases h
  | [], y :: ys, _ => .inl ⟨y :: ys, by simp, rfl⟩
  | x :: xs, y :: ys, h => by
    rw [before_cons] at h
    simp only [Bool.or_eq_true, Bool.and_eq_true, decide_eq_true_eq] at h
    rcases h with h | ⟨rfl, h⟩
    · exact .inr ⟨[], x, y, xs, ys, rfl, rfl, h⟩
    · rcases before_cases xs ys h with ⟨s, hs, e⟩ | ⟨c, a, b, s, t, e1, e2, h⟩
      · exact .inl ⟨s, hs, by rw [e]; rfl⟩
      · exact .inr ⟨x :: c, a, b, s, t, by rw [e1]; rfl, by rw [e2]; rfl, h⟩

/-- Between two extensions of a path there are only extensions of it. -/
theorem before_between (p s t : List Uuid) (x : List Uuid) (h1 : before (p ++ s) x = true)
    (h2 : before x (p ++ t) = true) : ∃ r, x = p ++ r := by
  induction p generalizing x with
  | nil => exact ⟨x, rfl⟩
  | cons a p ih =>
    cases x with
    | nil => rw [before_nil] at h1; cases h1
    | cons y ys =>
      rw [List.cons_append, before_cons] at h1 h2
      simp only [Bool.or_eq_true, Bool.and_eq_true, decide_eq_true_eq] at h1 h2
      have l := uuid_lin
      rcases h1 with h1 | ⟨rfl, h1⟩ <;> rcases h2 with h2 | ⟨e, h2⟩
      · have := l.trans _ _ _ h1 h2; rw [l.irrefl] at this; cases this
      · rw [e, l.irrefl] at h1; cases h1
      · rw [l.irrefl] at h2; cases h2
      · obtain ⟨r, hr⟩ := ih ys h1 h2
        exact ⟨r, by rw [hr]; rfl⟩

/-- The setting: a path for every op. -/
structure Paths (ops : List AOp) (root : Uuid) (path : AOp → List Uuid) : Prop where
  unique : ∀ a ∈ ops, ∀ b ∈ ops, a.id = b.id → a = b
  step : ∀ o ∈ ops, (o.id = root ∧ path o = [o.id]) ∨
    ∃ p ∈ ops, o.ref = p.id ∧ Uuid.lt p.id o.id = true ∧ path o = path p ++ [o.id]
  -- paths grow
  len : ∀ o ∈ ops, path o ≠ []
  last : ∀ o ∈ ops, ∃ l, path o = l ++ [o.id]

theorem Path.mem {ops : List AOp} {root : Uuid} {o : AOp} {l : List Uuid}
    (h : Path ops root o l) : o ∈ ops := by cases h <;> assumption

theorem Path.ge_root {ops : List AOp} {root : Uuid} {o : AOp} {l : List Uuid}
    (h : Path ops root o l) : o.id = root ∨ Uuid.lt root o.id = true := by
  induction h with
  | root o _ e => exact .inl e
  | child p o l _ _ _ h ih =>
    right
    rcases ih with e | e
    · rw [← e]; exact h
    · exact uuid_lin.trans _ _ _ e h

theorem ids_inj {ops : List AOp} (h : (ops.map AOp.id).Nodup) : ∀ a ∈ ops, ∀ b ∈ ops, a.id = b.id → a = b := by
  intro a ha b hb e
  induction ops with
  | nil => simp at ha
  | cons x xs ih =>
    rw [List.map_cons, List.nodup_cons] at h
    simp only [List.mem_cons] at ha hb
    rcases ha with rfl | ha <;> rcases hb with rfl | hb
    · rfl
    · exact absurd (List.mem_map.2 ⟨b, hb, e.symm⟩) h.1
    · exact absurd (List.mem_map.2 ⟨a, ha, e⟩) h.1
    · exact ih h.2 ha hb

theorem Path.fun {ops : List AOp} {root : Uuid} (hu : ∀ a ∈ ops, ∀ b ∈ ops, a.id = b.id → a = b)
    {o : AOp} {l l' : List Uuid} (h : Path ops root o l) (h' : Path ops root o l') : l = l' := by
  induction h generalizing l' with
  | root o ho e =>
    cases h' with
    | root => rfl
    | child p _ l hp _ _ hlt =>
      rcases hp.ge_root with e2 | e2
      · rw [e, ← e2, uuid_lin.irrefl] at hlt; cases hlt
      · have := uuid_lin.trans _ _ _ e2 hlt
        rw [e, uuid_lin.irrefl] at this; cases this
  | child p o l hp ho hr hlt ih =>
    cases h' with
    | root _ _ e =>
      rcases hp.ge_root with e2 | e2
      · rw [e, ← e2, uuid_lin.irrefl] at hlt; cases hlt
      · have := uuid_lin.trans _ _ _ e2 hlt
        rw [e, uuid_lin.irrefl] at this; cases this
    | child p' _ l' hp' _ hr' _ =>
      have : p = p' := hu p hp.mem p' hp'.mem (hr.symm.trans hr')
      subst this
      rw [ih hp']

/-- A tree has paths. -/
theorem Tree.paths {ops : List AOp} {root : Uuid} (t : Tree ops root) :
    ∃ path : AOp → List Uuid, Paths ops root path ∧ ∀ o ∈ ops, ∀ l, Path ops root o l ↔ path o = l := by
  classical
  let path : AOp → List Uuid := fun o => if h : ∃ l, Path ops root o l then h.choose else []
  have hu := ids_inj t.unique
  have hp : ∀ o ∈ ops, Path ops root o (path o) := by
    intro o ho
    have h := t.reached o ho
    show Path ops root o (if h : ∃ l, Path ops root o l then h.choose else [])
    rw [dif_pos h]; exact h.choose_spec
  have hiff : ∀ o ∈ ops, ∀ l, Path ops root o l ↔ path o = l := by
    intro o ho l
    constructor
    · intro h; exact (hp o ho).fun hu h
    · intro h; rw [← h]; exact hp o ho
  refine ⟨path, ⟨hu, ?_, ?_, ?_⟩, hiff⟩
  · intro o ho
    have h0 := hp o ho
    generalize he : path o = l at h0
    cases h0 with
    | root _ _ e => exact .inl ⟨e, rfl⟩
    | child p _ l h1 _ hr hlt =>
      exact .inr ⟨p, h1.mem, hr, hlt, by rw [(hiff p h1.mem l).1 h1]⟩
  · intro o ho e
    have h0 := hp o ho
    rw [e] at h0
    generalize he : ([] : List Uuid) = l at h0
    cases h0 with
    | root => cases he
    | child => simp at he
  · intro o ho
    have h0 := hp o ho
    generalize he : path o = l at h0
    cases h0 with
    | root => exact ⟨[], rfl⟩
    | child _ _ l => exact ⟨l, rfl⟩

variable {ops : List AOp} {root : Uuid} {path : AOp → List Uuid}

/-- A proper ancestor. -/
def Anc (path : AOp → List Uuid) (z r : AOp) : Prop := ∃ s, s ≠ [] ∧ path r = path z ++ s

theorem Paths.inj (P : Paths ops root path) {a b : AOp} (ha : a ∈ ops) (hb : b ∈ ops)
    (h : path a = path b) : a = b := by
  obtain ⟨l, e1⟩ := P.last a ha
  obtain ⟨m, e2⟩ := P.last b hb
  apply P.unique a ha b hb
  rw [e1, e2] at h
  have := List.append_inj_right' h rfl
  simpa using this

/-- Induction along the tree, on the length of the path. -/
theorem Paths.induct (P : Paths ops root path) {Q : AOp → Prop}
    (hroot : ∀ o ∈ ops, o.id = root → path o = [o.id] → Q o)
    (hstep : ∀ p ∈ ops, ∀ o ∈ ops, o.ref = p.id → Uuid.lt p.id o.id = true →
      path o = path p ++ [o.id] → Q p → Q o) : ∀ o ∈ ops, Q o := by
  have : ∀ n, ∀ o ∈ ops, (path o).length = n → Q o := by
    intro n
    induction n with
    | zero =>
      intro o ho h
      exact absurd (List.length_eq_zero_iff.1 h) (P.len o ho)
    | succ n ih =>
      intro o ho h
      rcases P.step o ho with ⟨e, e2⟩ | ⟨p, hp, hr, hlt, e⟩
      · exact hroot o ho e e2
      · refine hstep p hp o ho hr hlt e (ih p hp ?_)
        rw [e] at h; simpa using h
  intro o ho
  exact this _ o ho rfl

/-- Every nonempty prefix of a path is the path of an op. -/
theorem Paths.prefix (P : Paths ops root path) : ∀ o ∈ ops, ∀ q s, path o = q ++ s → q ≠ [] →
    ∃ a ∈ ops, path a = q := by
  apply P.induct (Q := fun o => ∀ q s, path o = q ++ s → q ≠ [] → ∃ a ∈ ops, path a = q)
  · intro o ho _ e q s h hq
    rw [e] at h
    cases q with
    | nil => exact absurd rfl hq
    | cons x xs =>
      simp only [List.cons_append, List.cons.injEq, List.nil_eq, List.append_eq_nil_iff] at h
      exact ⟨o, ho, by rw [e, h.1, h.2.1]⟩
  · intro p hp o ho _ _ e ih q s h hq
    rcases List.eq_nil_or_concat s with rfl | ⟨s', x, rfl⟩
    · exact ⟨o, ho, by simpa using h⟩
    · rw [e, List.concat_eq_append, ← List.append_assoc] at h
      exact ih q s' (List.append_inj_left' h rfl) hq

/-- The ids on the path to an op are not above its own. -/
theorem Paths.le (P : Paths ops root path) : ∀ o ∈ ops, ∀ x ∈ path o,
    x = o.id ∨ Uuid.lt x o.id = true := by
  apply P.induct (Q := fun o => ∀ x ∈ path o, x = o.id ∨ Uuid.lt x o.id = true)
  · intro o _ _ e x hx
    rw [e] at hx; exact .inl (by simpa using hx)
  · intro p _ o _ _ hlt e ih x hx
    rw [e, List.mem_append] at hx
    rcases hx with h | h
    · right
      rcases ih x h with rfl | h
      · exact hlt
      · exact uuid_lin.trans _ _ _ h hlt
    · exact .inl (by simpa using h)

theorem Anc.lt {z r : AOp} (h : Anc path z r) : before (path z) (path r) = true := by
  obtain ⟨s, hs, e⟩ := h
  rw [e]; exact before_append _ _ hs

/-- The ancestors of a child are its parent and the ancestors of the parent. -/
theorem Anc.parent (P : Paths ops root path) {z p r : AOp} (hz : z ∈ ops) (hp : p ∈ ops)
    (e : path r = path p ++ [r.id]) (h : Anc path z r) : z = p ∨ Anc path z p := by
  obtain ⟨s, hs, e2⟩ := h
  rcases List.eq_nil_or_concat s with rfl | ⟨s', x, rfl⟩
  · exact absurd rfl hs
  · rw [e, List.concat_eq_append, ← List.append_assoc] at e2
    have h1 := List.append_inj_left' e2 rfl
    cases s' with
    | nil => exact .inl (P.inj hz hp (by rw [h1]; simp))
    | cons y ys => exact .inr ⟨y :: ys, by simp, h1⟩

/-- The heart of the merge: if an op with a smaller id comes first, then it comes before (or is)
an ancestor of the other. -/
theorem Paths.key (P : Paths ops root path) {x y : AOp} (hx : x ∈ ops) (hy : y ∈ ops)
    (hid : Uuid.lt y.id x.id = true) (hb : before (path y) (path x) = true) :
    ∃ z ∈ ops, Anc path z x ∧ (z = y ∨ before (path y) (path z) = true) := by
  rcases before_cases _ _ hb with ⟨s, hs, e⟩ | ⟨c, a, b, s, t, e1, e2, hlt⟩
  · exact ⟨y, hy, ⟨s, hs, e⟩, .inl rfl⟩
  · -- the branch of `x` at the fork
    have e2' : path x = (c ++ [b]) ++ t := by rw [e2]; simp
    obtain ⟨z, hz, ez⟩ := P.prefix x hx (c ++ [b]) t e2' (by simp)
    have ht : t ≠ [] := by
      rintro rfl
      -- then `x` is the branch itself
      have hxb : x.id = b := by
        obtain ⟨l, e3⟩ := P.last x hx
        rw [e2] at e3
        have := List.append_inj_right' e3 rfl
        simpa using this.symm
      have hay := P.le y hy a (by rw [e1]; simp)
      rw [← hxb] at hlt
      rcases hay with h | h
      · rw [h] at hlt
        have := uuid_lin.trans _ _ _ hid hlt
        rw [uuid_lin.irrefl] at this; cases this
      · have := uuid_lin.trans _ _ _ (uuid_lin.trans _ _ _ hid hlt) h
        rw [uuid_lin.irrefl] at this; cases this
    refine ⟨z, hz, ⟨t, ht, by rw [ez]; exact e2'⟩, .inr ?_⟩
    rw [ez, e1]
    clear e1 e2 e2' ez
    induction c with
    | nil => simp [before_cons, hlt]
    | cons d c ih => rw [List.cons_append, List.cons_append, before_cons, ih]; simp

end Spec
end Ron
