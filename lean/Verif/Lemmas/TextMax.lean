import Verif.Lemmas.TextMerge
import Verif.Model.TextMax
import Verif.Props.Literals
import Verif.Spec.TextMax
/-!
`MaxRDT` on text frames.
-/
namespace Ron.TextMerge
open Spec

/-- Ops of these kinds are compared by the key. -/
def Scaled (fl : List Byte → Word) (P : OpView → Prop) (key : OpView → Nat) : Prop :=
  ∀ (c d : Cursor) (x y : Nat × OpView), At c x → At d y → P x.2 → P y.2 →
    ∃ l, maxLess fl c d = .ok l ∧ (l = true → key x.2 ≤ key y.2) ∧ (l = false → key y.2 ≤ key x.2)

variable {fl : List Byte → Word} {P : OpView → Prop} {key : OpView → Nat}

/-- The cursor is not valid, or at the first of the ops. -/
def Live (c : Cursor) (l : List (Nat × OpView)) : Prop := (c.cs = 0 ∧ l = []) ∨ Starts At c l

/-- The next op. -/
theorem Tail.step {c : Cursor} {x : Nat × OpView} {xs : List (Nat × OpView)} (h : Tail At c (x, xs)) :
    ∃ r, c.next = .ok r ∧ Live r.1 xs := by
  obtain ⟨m, st, ht, -, hm⟩ := h
  cases ht with
  | stop hn hs =>
    cases hm
    exact ⟨_, hn, .inl ⟨Builder.next_invalid hn hs, rfl⟩⟩
  | more hn ht =>
    cases hm with
    | @cons _ y _ ys hc hm => exact ⟨_, hn, .inr ⟨y, ys, rfl, _, _, ht, hc, hm⟩⟩

theorem maxScan_ok (g : Scaled fl P key) : ∀ {l : List (Nat × OpView)} {c : Cursor}, Live c l → (∀ y ∈ l, P y.2) →
    ∀ {m : Cursor} {z : Nat × OpView}, At m z → P z.2 →
    ∃ m' z', At m' z' ∧ (z' = z ∨ z' ∈ l) ∧ key z.2 ≤ key z'.2 ∧ (∀ y ∈ l, key y.2 ≤ key z'.2) ∧
      ∀ n, l.length < n → maxScan fl n m c = .ok (some m')
  | [], c, hc, _, m, z, hm, _ => by
    rcases hc with ⟨hc, -⟩ | ⟨x, xs, e, -⟩
    · refine ⟨m, z, hm, .inl rfl, Nat.le_refl _, fun y hy => by simp at hy, ?_⟩
      intro n hn
      obtain ⟨n, rfl⟩ : ∃ k, n = k + 1 := ⟨n - 1, by simp at hn; omega⟩
      rw [maxScan, if_pos hc]
    · cases e
  | x :: xs, c, hc, hP, m, z, hm, hz => by
    rcases hc with ⟨-, hc⟩ | ⟨x', xs', e, ht⟩
    · cases hc
    · injection e with e1 e2
      subst e1 e2
      obtain ⟨r, hn, hl⟩ := Tail.step ht
      have hat := ht.choose_spec.choose_spec.2.1
      obtain ⟨l, e, k1, k2⟩ := g _ _ _ _ hm hat hz (hP x (by simp))
      have step : ∀ {b : Cursor} {w : Nat × OpView}, At b w → P w.2 → b = (if l then c else m) → (w = z ∨ w = x) →
          key z.2 ≤ key w.2 → key x.2 ≤ key w.2 →
          ∃ m' z', At m' z' ∧ (z' = z ∨ z' ∈ x :: xs) ∧ key z.2 ≤ key z'.2 ∧ (∀ y ∈ x :: xs, key y.2 ≤ key z'.2) ∧
            ∀ n, (x :: xs).length < n → maxScan fl n m c = .ok (some m') := by
        intro b w hb hw hbe hwe h1 h2
        obtain ⟨m', z', a1, a2, a3, a4, a5⟩ := maxScan_ok g hl (fun y hy => hP y (List.mem_cons_of_mem _ hy)) hb hw
        refine ⟨m', z', a1, ?_, by omega, ?_, ?_⟩
        · rcases a2 with rfl | a2
          · rcases hwe with rfl | rfl
            · exact .inl rfl
            · exact .inr (by simp)
          · exact .inr (List.mem_cons_of_mem _ a2)
        · intro y hy
          rcases List.mem_cons.1 hy with rfl | hy
          · omega
          · exact a4 y hy
        · intro n hn'
          obtain ⟨n, rfl⟩ : ∃ k, n = k + 1 := ⟨n - 1, by simp at hn'; omega⟩
          rw [maxScan, if_neg hat.cs, e, Op.obind, hn, Op.obind, ← hbe]
          exact a5 n (by simp at hn'; omega)
      cases l with
      | true => exact step hat (hP x (by simp)) rfl (.inr rfl) (k1 rfl) (Nat.le_refl _)
      | false => exact step hm hz rfl (.inl rfl) (Nat.le_refl _) (k2 rfl)

theorem maxScans_ok (g : Scaled fl P key) {cs : List Cursor} {ls : List (List (Nat × OpView))} (h : Same2 Live cs ls) :
    (∀ l ∈ ls, ∀ y ∈ l, P y.2) → ∀ {m : Cursor} {z : Nat × OpView}, At m z → P z.2 →
    ∃ m' z', At m' z' ∧ (z' = z ∨ z' ∈ ls.flatten) ∧ key z.2 ≤ key z'.2 ∧ (∀ y ∈ ls.flatten, key y.2 ≤ key z'.2) ∧
      ∀ n, ls.flatten.length < n → maxScans fl n m cs = .ok (some m') := by
  induction h with
  | nil => exact fun _ m z hm _ => ⟨m, z, hm, .inl rfl, Nat.le_refl _, fun y hy => by simp at hy, fun n _ => rfl⟩
  | @cons c l cs ls hc _ ih =>
    intro hP m z hm hz
    obtain ⟨m1, z1, a1, a2, a3, a4, a5⟩ := maxScan_ok g hc (hP l (by simp)) hm hz
    have hz1 : P z1.2 := by
      rcases a2 with rfl | a2
      · exact hz
      · exact hP l (by simp) _ a2
    obtain ⟨m2, z2, b1, b2, b3, b4, b5⟩ := ih (fun l hl => hP l (List.mem_cons_of_mem _ hl)) a1 hz1
    refine ⟨m2, z2, b1, ?_, by omega, ?_, ?_⟩
    · rw [List.flatten_cons, List.mem_append]
      rcases b2 with rfl | b2
      · rcases a2 with rfl | a2
        · exact .inl rfl
        · exact .inr (.inl a2)
      · exact .inr (.inr b2)
    · intro y hy
      rw [List.flatten_cons, List.mem_append] at hy
      rcases hy with hy | hy
      · have := a4 y hy; omega
      · exact b4 y hy
    · intro n hn
      rw [List.flatten_cons, List.length_append] at hn
      rw [maxScans, a5 n (by omega), Op.obind]
      exact b5 n (by omega)

theorem same2_snoc {α β : Type} {R : α → β → Prop} {a : List α} {b : List β} {x : α} (h : Same2 R (a ++ [x]) b) :
    ∃ b' y, b = b' ++ [y] ∧ Same2 R a b' ∧ R x y := by
  induction a generalizing b with
  | nil =>
    cases h with
    | cons h t => cases t; exact ⟨[], _, rfl, .nil, h⟩
  | cons c a ih =>
    cases h with
    | cons h t =>
      obtain ⟨b', y, rfl, h1, h2⟩ := ih t
      exact ⟨_ :: b', y, rfl, .cons h h1, h2⟩

theorem same2_reverse {α β : Type} {R : α → β → Prop} {a : List α} {b : List β} (h : Same2 R a b) :
    Same2 R a.reverse b.reverse := by
  induction h with
  | nil => exact .nil
  | cons h _ ih =>
    rw [List.reverse_cons, List.reverse_cons]
    exact TextParser.same2_append ih (.cons h .nil)

theorem maxRest_ok (g : Scaled fl P key) {cs : List Cursor} {ls : List (List (Nat × OpView))} (h : Same2 Live cs ls)
    (hP : ∀ l ∈ ls, ∀ y ∈ l, P y.2) (hlast : ∃ l, ls.getLast? = some l ∧ l ≠ []) :
    ∃ m z, At m z ∧ z ∈ ls.flatten ∧ (∀ y ∈ ls.flatten, key y.2 ≤ key z.2) ∧
      ∀ n, ls.flatten.length < n → ∀ b b', Builder.doWork (merged [m]) b = .ok b' → maxRest fl n b cs = .ok (some b') := by
  obtain ⟨l, hl, hne⟩ := hlast
  rcases List.eq_nil_or_concat cs with rfl | ⟨cs, c, rfl⟩
  · cases h; cases hl
  · rw [List.concat_eq_append] at h ⊢
    obtain ⟨ls, l', rfl, h1, h2⟩ := same2_snoc h
    rw [List.getLast?_concat] at hl
    injection hl with hl
    subst hl
    rcases h2 with ⟨-, h2⟩ | ⟨x, xs, rfl, ht⟩
    · exact absurd h2 hne
    · obtain ⟨r, hn, hlive⟩ := Tail.step ht
      have hat := ht.choose_spec.choose_spec.2.1
      have mem : ∀ y, y ∈ (ls ++ [x :: xs]).flatten ↔ y = x ∨ y ∈ (xs :: ls.reverse).flatten := by
        intro y
        simp only [List.flatten_append, List.flatten_cons, List.flatten_nil, List.append_nil, List.mem_append,
          List.mem_cons, List.mem_flatten, List.mem_reverse]
        grind
      obtain ⟨m, z, a1, a2, a3, a4, a5⟩ := maxScans_ok (z := x) g (.cons hlive (same2_reverse h1)) (by
        intro l hl y hy
        rcases List.mem_cons.1 hl with rfl | hl
        · exact hP _ (List.mem_append_right _ (List.mem_singleton.2 rfl)) y (List.mem_cons_of_mem _ hy)
        · exact hP l (List.mem_append_left _ (List.mem_reverse.1 hl)) y hy) hat
        (hP _ (List.mem_append_right _ (List.mem_singleton.2 rfl)) x (by simp))
      refine ⟨m, z, a1, (mem z).2 a2, ?_, ?_⟩
      · intro y hy
        rcases (mem y).1 hy with rfl | hy
        · exact a3
        · exact a4 y hy
      · intro n hlen b b' hw
        have hlen' : (xs :: ls.reverse).flatten.length < n := by
          have e : (xs :: ls.reverse).flatten.length ≤ (ls ++ [x :: xs]).flatten.length := by
            simp only [List.flatten_append, List.flatten_cons, List.flatten_nil, List.append_nil, List.length_append,
              List.length_cons, List.length_flatten, List.map_reverse, List.sum_reverse]
            omega
          omega
        unfold maxRest
        rw [List.getLast?_concat]
        simp only
        rw [hn, Op.obind, List.dropLast_concat, a5 n hlen', Op.obind]
        simp only
        unfold merged at hw
        obtain ⟨b1, w1, w2⟩ := work_cons hw
        rw [w1, Op.obind]
        change Builder.doWork [.endChunk 0] b1 = _ at w2
        rw [Builder.doWork] at w2
        obtain ⟨b2, w2, w3⟩ := Cursor.bind_ok w2
        rw [w2, Op.obind]
        simp only [Builder.doWork] at w3
        injection w3 with w3
        rw [w3]

/-- The first op is the header, and there are more in the last input. -/
theorem max_ok (g : Scaled fl P key) {cs : List Cursor} {h : Nat × OpView} {xs : List (Nat × OpView)}
    {ls : List (List (Nat × OpView))} (hs : Same2 (Starts At) cs ((h :: xs) :: ls)) (hh : h.2.ref = Rdt.MAX_UUID)
    (hP : ∀ l ∈ xs :: ls, ∀ y ∈ l, P y.2) (hne : ls = [] → xs ≠ []) :
    ∃ c m z, Same2 At [c, m] [h, z] ∧ z ∈ (xs :: ls).flatten ∧ (∀ y ∈ (xs :: ls).flatten, key y.2 ≤ key z.2) ∧
      ∀ n, (xs :: ls).flatten.length < n → ∀ b b', Builder.doWork (merged [c, m]) b = .ok b' →
        max fl n b cs = .ok (some (b', Status.OK)) := by
  cases hs with
  | @cons c _ cs _ hc hs =>
    obtain ⟨x, xs', e, ht⟩ := hc
    injection e with e1 e2
    subst e1 e2
    have hat := ht.choose_spec.choose_spec.2.1
    obtain ⟨r, hn, hlive⟩ := Tail.step ht
    have hs' : Same2 Live cs ls := TextParser.same2_imp (fun _ _ h => .inr h) hs
    obtain ⟨m, z, a1, a2, a3, a4⟩ := maxRest_ok g (.cons hlive hs') hP (by
      rcases List.eq_nil_or_concat ls with rfl | ⟨ls, l, rfl⟩
      · exact ⟨xs, rfl, hne rfl⟩
      · refine ⟨l, ?_, ?_⟩
        · rw [List.concat_eq_append, ← List.cons_append, List.getLast?_concat]
        · rw [List.concat_eq_append] at hs
          have key : ∀ {cs : List Cursor} {ls : List (List (Nat × OpView))}, Same2 (Starts At) cs ls → ∀ l ∈ ls, l ≠ [] := by
            intro cs ls h
            induction h with
            | nil => intro l hl; simp at hl
            | cons h _ ih =>
              intro l hl
              rcases List.mem_cons.1 hl with rfl | hl
              · obtain ⟨x, xs, rfl, -⟩ := h
                simp
              · exact ih l hl
          exact key hs l (by simp))
    refine ⟨c, m, z, .cons hat (.cons a1 .nil), a2, a3, ?_⟩
    intro n hlen b b' hw
    unfold merged at hw
    rw [List.map_cons, List.cons_append] at hw
    obtain ⟨b1, w1, w2⟩ := work_cons hw
    unfold max
    simp only
    rw [if_pos ⟨hat.cs, by rw [hat.ref, hh]⟩, w1, Op.obind, hn, Op.obind, a4 n hlen b1 b' w2]
    rfl

/-! ### the comparisons -/

theorem op_length {c : Cursor} {x : Nat × OpView} (h : At c x) : c.op.length = x.2.vals.length + 2 := by
  obtain ⟨buf, -, -, h, -⟩ := h
  obtain ⟨xs, e, hs⟩ := h.op
  rw [e, List.length_cons, List.length_cons, same2_length hs]

theorem value_int {c : Cursor} {x : Nat × OpView} {i : Int} (h : At c x) (hi : intAt x.2 = some i) :
    ∃ o, value2 fl c = .ok ⟨BitVec.ofInt 64 i, o⟩ ∧ i < 2 ^ 63 := by
  obtain ⟨buf, -, -, h, -⟩ := h
  obtain ⟨xs, e, hs⟩ := h.op
  unfold intAt at hi
  split at hi
  · rename_i j vs hv
    injection hi with hi
    subst hi
    rw [hv] at hs
    cases hs with
    | @cons a _ _ _ ha _ =>
      rcases ha with ⟨ht, w, hd, hl⟩ | ⟨h, -⟩
      · obtain ⟨e1, -, e2⟩ := Props.C16_exact w _ hl.1 (TextParser.IntFits.accepted hl)
        refine ⟨a.origin, ?_, e2⟩
        unfold value2
        rw [e]
        simp only [List.getElem?_cons_succ, List.getElem?_cons_zero]
        unfold parsed
        rw [if_pos ht, h.buf, hd, Op.obind, e1]
        rfl
      · cases h
  · cases hi

theorem value_uuid {c : Cursor} {x : Nat × OpView} {u : Uuid} (h : At c x) (hu : uuidAt x.2 = some u) :
    value2 fl c = .ok u := by
  obtain ⟨buf, -, -, h, -⟩ := h
  obtain ⟨xs, e, hs⟩ := h.op
  unfold uuidAt at hu
  split at hu
  · rename_i j vs hv
    injection hu with hu
    subst hu
    rw [hv] at hs
    cases hs with
    | @cons a _ _ _ ha _ =>
      rcases ha with ⟨rfl, ht⟩ | ⟨h, -⟩
      · unfold value2
        rw [e]
        simp only [List.getElem?_cons_succ, List.getElem?_cons_zero]
        unfold parsed
        rw [if_neg (by rw [ht]; decide), if_neg (by rw [ht]; decide), if_neg (fun h => absurd (ht.symm.trans h.1) (by decide))]
      · cases h
  · cases hu

/-- An op without a value is the least. -/
def scale : Option Nat → Nat
  | some n => n + 1
  | none => 0

theorem scaled {val : OpView → Option Nat} (hv : ∀ o n, val o = some n → o.vals ≠ [])
    (hc : ∀ {c d : Cursor} {x y : Nat × OpView} {i j : Nat}, At c x → At d y → val x.2 = some i → val y.2 = some j →
      ∃ a b, value2 fl c = .ok a ∧ value2 fl d = .ok b ∧ (Uuid.lt a b = true → i ≤ j) ∧ (Uuid.lt a b = false → j ≤ i)) :
    Scaled fl (fun o => o.vals = [] ∨ ∃ n, val o = some n) (fun o => scale (val o)) := by
  intro c d x y hx hy px py
  have none_of : ∀ {o : OpView}, o.vals = [] → val o = none := by
    intro o h
    cases e : val o with
    | none => rfl
    | some n => exact absurd h (hv o n e)
  show ∃ l, maxLess fl c d = .ok l ∧ (l = true → scale (val x.2) ≤ scale (val y.2)) ∧
    (l = false → scale (val y.2) ≤ scale (val x.2))
  unfold maxLess
  rw [op_length hx, op_length hy]
  rcases px with ex | ⟨i, ei⟩
  · rw [if_pos (by simp [ex]), none_of ex]
    split
    · exact ⟨true, rfl, fun _ => Nat.zero_le _, fun h => by cases h⟩
    · rename_i h
      rcases py with ey | ⟨j, ej⟩
      · rw [hx.id, hy.id, none_of ey]
        exact ⟨_, rfl, fun _ => Nat.zero_le _, fun _ => Nat.zero_le _⟩
      · have := List.length_pos_iff.2 (hv _ _ ej)
        omega
  · have := List.length_pos_iff.2 (hv _ _ ei)
    rw [if_neg (by omega)]
    rcases py with ey | ⟨j, ej⟩
    · rw [if_pos (by simp [ey]), none_of ey]
      exact ⟨false, rfl, fun h => (by cases h), fun _ => Nat.zero_le _⟩
    · have := List.length_pos_iff.2 (hv _ _ ej)
      rw [if_neg (by omega)]
      obtain ⟨a, b, e1, e2, h1, h2⟩ := hc hx hy ei ej
      rw [e1, Op.obind, e2, Op.obind, ei, ej]
      exact ⟨_, rfl, fun h => Nat.succ_le_succ (h1 h), fun h => Nat.succ_le_succ (h2 h)⟩

/-- Integers that are not negative. -/
theorem scaled_int : Scaled fl (fun o => o.vals = [] ∨ ∃ n : Nat, intAt o = some (n : Int))
    (fun o => scale ((intAt o).bind fun i => if 0 ≤ i then some i.toNat else none)) := by
  have k := scaled (fl := fl) (val := fun o => (intAt o).bind fun i => if 0 ≤ i then some i.toNat else none) (by
    intro o n h
    obtain ⟨i, h, -⟩ := Option.bind_eq_some_iff.1 h
    intro e
    unfold intAt at h
    rw [e] at h
    cases h) (by
    intro c d x y i' j' hx hy hi0 hj0
    obtain ⟨i, hi, e⟩ := Option.bind_eq_some_iff.1 hi0
    obtain ⟨j, hj, e'⟩ := Option.bind_eq_some_iff.1 hj0
    split at e
    · rename_i hi1
      split at e'
      · rename_i hj1
        injection e with e
        injection e' with e'
        subst e e'
        obtain ⟨o, h1, h2⟩ := value_int (fl := fl) hx hi
        obtain ⟨p, h3, h4⟩ := value_int (fl := fl) hy hj
        refine ⟨_, _, h1, h3, ?_⟩
        have hb : ∀ i : Int, 0 ≤ i → i < 2 ^ 63 → (BitVec.ofInt 64 i).toNat = i.toNat := by
          intro i h1 h2
          rw [BitVec.toNat_ofInt]
          omega
        unfold Uuid.lt
        simp only [Bool.or_eq_true, decide_eq_true_eq, Bool.and_eq_true, Bool.or_eq_false_iff, decide_eq_false_iff_not]
        rw [hb _ hi1 h2, hb _ hj1 h4]
        constructor
        · rintro (h | ⟨h, -⟩)
          · omega
          · have := congrArg BitVec.toNat h
            rw [hb _ hi1 h2, hb _ hj1 h4] at this
            omega
        · rintro ⟨h, -⟩
          omega
      · cases e'
    · cases e)
  intro c d x y hx hy px py
  have conv : ∀ {o : OpView}, (o.vals = [] ∨ ∃ n : Nat, intAt o = some (n : Int)) →
      (o.vals = [] ∨ ∃ n : Nat, ((intAt o).bind fun i => if 0 ≤ i then some i.toNat else none) = some n) := by
    rintro o (h | ⟨n, h⟩)
    · exact .inl h
    · exact .inr ⟨n, by rw [h]; simp⟩
  exact k _ _ _ _ hx hy (conv px) (conv py)

/-- Uuids. -/
theorem scaled_uuid : Scaled fl (fun o => o.vals = [] ∨ ∃ n, (uuidAt o).map (fun u => u.value.toNat * 2 ^ 64 + u.origin.toNat) = some n)
    (fun o => scale ((uuidAt o).map fun u => u.value.toNat * 2 ^ 64 + u.origin.toNat)) := by
  refine scaled (val := fun o => (uuidAt o).map fun u => u.value.toNat * 2 ^ 64 + u.origin.toNat) ?_ ?_
  · intro o n h
    obtain ⟨u, h, -⟩ := Option.map_eq_some_iff.1 h
    intro e
    unfold uuidAt at h
    rw [e] at h
    cases h
  · intro c d x y i j hx hy hi hj
    obtain ⟨u, hu, rfl⟩ := Option.map_eq_some_iff.1 hi
    obtain ⟨v, hv, rfl⟩ := Option.map_eq_some_iff.1 hj
    refine ⟨u, v, value_uuid hx hu, value_uuid hy hv, ?_⟩
    unfold Uuid.lt
    simp only [Bool.or_eq_true, decide_eq_true_eq, Bool.and_eq_true, Bool.or_eq_false_iff, decide_eq_false_iff_not,
      Bool.and_eq_false_iff]
    have := u.origin.isLt
    have := v.origin.isLt
    constructor
    · rintro (h | ⟨h, h'⟩)
      · omega
      · rw [h]; omega
    · rintro ⟨h, h' | h'⟩
      · have : u.value.toNat ≠ v.value.toNat := fun e => h' (BitVec.eq_of_toNat_eq e)
        omega
      · omega

/-! ### more turns -/

theorem maxScan_mono : ∀ {n : Nat} {m c r : Cursor}, maxScan fl n m c = .ok (some r) → ∀ j, maxScan fl (n + j) m c = .ok (some r)
  | 0, m, c, r, h, j => by simp [maxScan] at h
  | n + 1, m, c, r, h, j => by
    rw [maxScan] at h
    rw [show n + 1 + j = n + j + 1 by omega, maxScan]
    split
    · rename_i hc
      rw [if_pos hc] at h
      exact h
    · rename_i hc
      rw [if_neg hc] at h
      obtain ⟨l, e, h⟩ := Cursor.bind_ok h
      obtain ⟨x, e', h⟩ := Cursor.bind_ok h
      rw [e, Op.obind, e', Op.obind]
      exact maxScan_mono h j

theorem maxScans_mono {n : Nat} : ∀ {cs : List Cursor} {m r : Cursor}, maxScans fl n m cs = .ok (some r) → ∀ j,
    maxScans fl (n + j) m cs = .ok (some r)
  | [], m, r, h, j => h
  | c :: cs, m, r, h, j => by
    rw [maxScans] at h ⊢
    obtain ⟨x, e, h⟩ := Cursor.bind_ok h
    cases x with
    | none => cases h
    | some x =>
      rw [maxScan_mono e j, Op.obind]
      exact maxScans_mono h j

theorem maxRest_mono {n : Nat} {b b' : Builder} {cs : List Cursor} (h : maxRest fl n b cs = .ok (some b')) (j : Nat) :
    maxRest fl (n + j) b cs = .ok (some b') := by
  unfold maxRest at h ⊢
  split
  · rename_i e
    rw [e] at h
    cases h
  · rename_i m e
    rw [e] at h
    simp only at h
    obtain ⟨r, e1, h⟩ := Cursor.bind_ok h
    obtain ⟨x, e2, h⟩ := Cursor.bind_ok h
    cases x with
    | none => cases h
    | some x =>
      rw [e1, Op.obind, maxScans_mono e2 j, Op.obind]
      exact h

theorem max_mono {n : Nat} {b : Builder} {cs : List Cursor} {r : Builder × Status} (h : max fl n b cs = .ok (some r)) (j : Nat) :
    max fl (n + j) b cs = .ok (some r) := by
  cases cs with
  | nil => exact h
  | cons c cs =>
    unfold max at h ⊢
    simp only at h ⊢
    refine okay_mono (fun b' h => ?_) h
    split
    · rename_i hc
      rw [if_pos hc] at h
      obtain ⟨b1, e1, h⟩ := Cursor.bind_ok h
      obtain ⟨x, e2, h⟩ := Cursor.bind_ok h
      rw [e1, Op.obind, e2, Op.obind]
      exact maxRest_mono h j
    · rename_i hc
      rw [if_neg hc] at h
      exact maxRest_mono h j

theorem mergeFrames_mx {mx mx' : Builder → List Cursor → Out (Option (Builder × Status))} {n : Nat}
    (hm : ∀ b cs r, mx b cs = .ok (some r) → mx' b cs = .ok (some r)) {fs : List (List Byte)} {r : Status × List Byte}
    (h : mergeFrames mx n fs = .ok (some r)) : mergeFrames mx' n fs = .ok (some r) := by
  unfold mergeFrames at h ⊢
  obtain ⟨cs, e1, h⟩ := Cursor.bind_ok h
  obtain ⟨f, e2, h⟩ := Cursor.bind_ok h
  rw [e1, Op.obind, e2, Op.obind]
  cases f with
  | none => exact h
  | some f =>
    simp only at h ⊢
    unfold mergeCursors at h ⊢
    obtain ⟨x, e3, h⟩ := Cursor.bind_ok h
    cases x with
    | none => cases h
    | some x =>
      have : master mx' n f Builder.init cs = .ok (some x) := by
        unfold master at e3 ⊢
        repeat' split at e3
        all_goals first | (simp_all; done) | (simp_all; exact hm _ _ _ _ e3)
      rw [this, Op.obind]
      exact h

theorem mergeFrames_max {n : Nat} {fs : List (List Byte)} {r : Status × List Byte}
    (h : mergeFrames (max fl n) n fs = .ok (some r)) (j : Nat) : mergeFrames (max fl (n + j)) (n + j) fs = .ok (some r) :=
  mergeFrames_mono (mergeFrames_mx (fun _ _ _ h => max_mono h j) h) j

end Ron.TextMerge
