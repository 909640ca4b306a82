import Verif.Model.TextMerge
import Verif.Lemmas.BuilderCopy
import Verif.Lemmas.MergeAny
import Verif.Lemmas.RgaMerge
import Verif.Lemmas.RgaAttach
import Verif.Spec.TextMerge
/-!
The reducers on text frames do what they do on lists of ops.
-/
namespace Ron.TextMerge
open Spec Heap

theorem optBind {α β : Type} {o : Option α} {f : α → Option β} {b : β} (h : o.bind f = some b) :
    ∃ a, o = some a ∧ f a = some b := by
  cases o with
  | none => simp at h
  | some a => exact ⟨a, rfl, h⟩

theorem same2_length {α β : Type} {R : α → β → Prop} {l : List α} {m : List β} (h : Same2 R l m) :
    l.length = m.length := by
  induction h with
  | nil => rfl
  | cons _ _ ih => simp [ih]

theorem same2_getElem? {α β : Type} {R : α → β → Prop} {l : List α} {m : List β} (h : Same2 R l m) {i : Nat} {y : β}
    (hy : m[i]? = some y) : ∃ x, l[i]? = some x ∧ R x y := by
  induction h generalizing i with
  | nil => simp at hy
  | @cons a b l m h _ ih =>
    cases i with
    | zero => simp at hy; exact ⟨a, rfl, hy ▸ h⟩
    | succ i => exact ih hy

theorem same2_set {α β : Type} {R : α → β → Prop} {l : List α} {m : List β} (h : Same2 R l m) {x : α} {y : β}
    (hx : R x y) (i : Nat) : Same2 R (l.set i x) (m.set i y) := by
  induction h generalizing i with
  | nil => exact .nil
  | cons h hs ih =>
    cases i with
    | zero => exact .cons hx hs
    | succ i => exact .cons h (ih i)

theorem same2_mapl {α β γ : Type} {R : α → β → Prop} {f : γ → α} {l : List γ} {m : List β}
    (h : Same2 (fun x y => R (f x) y) l m) : Same2 R (l.map f) m := by
  induction h with
  | nil => exact .nil
  | cons h _ ih => exact .cons h ih

theorem same2_mapl' {α β γ : Type} {R : α → β → Prop} {f : γ → α} {l : List γ} {m : List β}
    (h : Same2 R (l.map f) m) : Same2 (fun x y => R (f x) y) l m := by
  induction l generalizing m with
  | nil => cases h; exact .nil
  | cons a l ih => cases h with | cons h hs => exact .cons h (ih hs)

theorem same2_dropLast {α β : Type} {R : α → β → Prop} {l : List α} {m : List β} (h : Same2 R l m) :
    Same2 R l.dropLast m.dropLast := by
  induction h with
  | nil => exact .nil
  | @cons a b l m h hs ih =>
    cases hs with
    | nil => exact .nil
    | cons h' hs' => exact .cons h ih

theorem same2_getLast? {α β : Type} {R : α → β → Prop} {l : List α} {m : List β} (h : Same2 R l m) {y : β}
    (hy : m.getLast? = some y) : ∃ x, l.getLast? = some x ∧ R x y := by
  rw [List.getLast?_eq_getElem?] at hy
  obtain ⟨x, h1, h2⟩ := same2_getElem? h hy
  exact ⟨x, by rw [List.getLast?_eq_getElem?, same2_length h]; exact h1, h2⟩

section
variable {α β : Type} {lt : α → α → Bool} {lt' : β → β → Bool} {R : Cur α → Cur β → Prop}

/-- The comparisons agree. -/
def Agree (lt : α → α → Bool) (lt' : β → β → Bool) (R : Cur α → Cur β → Prop) : Prop :=
  ∀ x x' y y', R x x' → R y y' → lt x.1 y.1 = lt' x'.1 y'.1

theorem lessAt_sim (ha : Agree lt lt' R) {h : List (Cur α)} {h' : List (Cur β)} (hs : Same2 R h h') {a b : Nat} {r : Bool}
    (e : lessAt lt' h' a b = some r) : lessAt lt h a b = some r := by
  unfold lessAt at e
  split at e
  · rename_i x' y' h1 h2
    obtain ⟨x, g1, r1⟩ := same2_getElem? hs h1
    obtain ⟨y, g2, r2⟩ := same2_getElem? hs h2
    unfold lessAt
    rw [g1, g2]
    simp only
    rw [ha x x' y y' r1 r2]
    exact e
  · simp at e

theorem swap_sim {h : List (Cur α)} {h' k' : List (Cur β)} (hs : Same2 R h h') {a b : Nat}
    (e : swap h' a b = some k') : ∃ k, swap h a b = some k ∧ Same2 R k k' := by
  unfold swap at e
  split at e
  · rename_i x' y' h1 h2
    obtain ⟨x, g1, r1⟩ := same2_getElem? hs h1
    obtain ⟨y, g2, r2⟩ := same2_getElem? hs h2
    unfold swap
    rw [g1, g2]
    simp only
    injection e with e
    rw [← e]
    exact ⟨_, rfl, same2_set (same2_set hs r2 _) r1 _⟩
  · simp at e

theorem pop_sim (ha : Agree lt lt' R) : ∀ (n : Nat) {h : List (Cur α)} {h' k' : List (Cur β)} {i : Nat}, Same2 R h h' →
    pop lt' n h' i = some k' → ∃ k, pop lt n h i = some k ∧ Same2 R k k' := by
  intro n
  induction n with
  | zero => intro h h' k' i _ e; simp [pop] at e
  | succ n ih =>
    intro h h' k' i hs e
    unfold pop at e ⊢
    split at e
    · rename_i h0
      rw [if_pos h0]
      injection e with e
      exact ⟨h, rfl, e ▸ hs⟩
    · rename_i h0
      rw [if_neg h0]
      obtain ⟨r, e1, e⟩ := optBind e
      rw [lessAt_sim ha hs e1]
      simp only [Option.bind_some]
      split at e
      · rename_i hr
        rw [if_pos hr]
        injection e with e
        exact ⟨h, rfl, e ▸ hs⟩
      · rename_i hr
        rw [if_neg hr]
        obtain ⟨k1', e2, e⟩ := optBind e
        obtain ⟨k1, g1, g2⟩ := swap_sim hs e2
        rw [g1]
        exact ih g2 e

theorem push_sim (ha : Agree lt lt' R) : ∀ (n : Nat) {h : List (Cur α)} {h' k' : List (Cur β)} {i : Nat}, Same2 R h h' →
    push lt' n h' i = some k' → ∃ k, push lt n h i = some k ∧ Same2 R k k' := by
  intro n
  induction n with
  | zero => intro h h' k' i _ e; simp [push] at e
  | succ n ih =>
    intro h h' k' i hs e
    unfold push at e ⊢
    have hlen := same2_length hs
    simp only at e ⊢
    rw [hlen]
    have go : ∀ j, ((swap h' j i).bind fun h' => push lt' n h' j) = some k' →
        ∃ k, ((swap h j i).bind fun h => push lt n h j) = some k ∧ Same2 R k k' := by
      intro j e
      obtain ⟨k1', e2, e⟩ := optBind e
      obtain ⟨k1, g1, g2⟩ := swap_sim hs e2
      rw [g1]
      exact ih g2 e
    have lo : (if left i < h'.length then (lessAt lt' h' (left i) i).bind fun ll =>
          if ll = true then (swap h' (left i) i).bind fun h' => push lt' n h' (left i) else some h'
        else some h') = some k' →
        ∃ k, (if left i < h'.length then (lessAt lt h (left i) i).bind fun ll =>
          if ll = true then (swap h (left i) i).bind fun h => push lt n h (left i) else some h
        else some h) = some k ∧ Same2 R k k' := by
      intro e
      split at e
      · rename_i h0
        rw [if_pos h0]
        obtain ⟨r, e1, e⟩ := optBind e
        rw [lessAt_sim ha hs e1]
        simp only [Option.bind_some]
        split at e
        · rename_i hr
          rw [if_pos hr]
          exact go _ e
        · rename_i hr
          rw [if_neg hr]
          injection e with e
          exact ⟨h, rfl, e ▸ hs⟩
      · rename_i h0
        rw [if_neg h0]
        injection e with e
        exact ⟨h, rfl, e ▸ hs⟩
    split at e
    · rename_i h0
      rw [if_pos h0]
      obtain ⟨r, e1, e⟩ := optBind e
      rw [lessAt_sim ha hs e1]
      simp only [Option.bind_some]
      split at e
      · rename_i hr
        rw [if_pos hr]
        obtain ⟨r2, e2, e⟩ := optBind e
        rw [lessAt_sim ha hs e2]
        simp only [Option.bind_some]
        split at e
        · rename_i hr2
          rw [if_pos hr2]
          exact go _ e
        · rename_i hr2
          rw [if_neg hr2]
          exact go _ e
      · rename_i hr
        rw [if_neg hr]
        exact lo e
    · rename_i h0
      rw [if_neg h0]
      exact lo e

theorem add_sim (ha : Agree lt lt' R) {h : List (Cur α)} {h' k' : List (Cur β)} {c : Cur α} {c' : Cur β} (hs : Same2 R h h')
    (hc : R c c') (e : Heap.add lt' h' c' = some k') : ∃ k, Heap.add lt h c = some k ∧ Same2 R k k' := by
  unfold Heap.add at e ⊢
  rw [same2_length hs]
  exact pop_sim ha _ (TextParser.same2_append hs (.cons hc .nil)) e

/-- `eject`, when the first place of one heap is not what it was. -/
theorem eject_sim (ha : Agree lt lt' R) {x : Cur α} {x' : Cur β} {t : List (Cur α)} {t' k' : List (Cur β)} (hs : Same2 R t t')
    (e : eject lt' (x' :: t') = some k') : ∃ k, eject lt (x :: t) = some k ∧ Same2 R k k' := by
  unfold eject at e ⊢
  have hlen := same2_length hs
  cases hs with
  | nil =>
    simp only [List.getLast?_singleton, List.set_cons_zero, List.dropLast_singleton] at e ⊢
    exact pop_nil e
  | @cons a b l m hab hs =>
    have hs' : Same2 R (a :: l) (b :: m) := .cons hab hs
    cases hg : (b :: m).getLast? with
    | none => simp at hg
    | some y =>
      obtain ⟨z, hz, hr⟩ := same2_getLast? hs' hg
      rw [List.getLast?_cons_cons, hg] at e
      rw [List.getLast?_cons_cons, hz]
      simp only [List.set_cons_zero, List.length_cons] at e ⊢
      rw [same2_length hs]
      exact push_sim ha _ (same2_dropLast (.cons hr hs')) e
where
  pop_nil {k' : List (Cur β)} (e : push lt' ([x'].length + 1) [] 0 = some k') :
      ∃ k, push lt ([x].length + 1) [] 0 = some k ∧ Same2 R k k' := by
    simp [push] at e ⊢
    rw [e]; exact .nil

end

/-! ### the loops -/

variable {β : Type} {D : Cursor → β → Prop} {lt : Cursor → Cursor → Bool} {lt' : β → β → Bool} {key : β → Uuid}

/-- `D c x`: the cursor is at the op `x`. The comparisons of cursors are those of ops. -/
structure Sim (D : Cursor → β → Prop) (lt : Cursor → Cursor → Bool) (lt' : β → β → Bool) (key : β → Uuid) : Prop where
  valid : ∀ {c x}, D c x → c.cs ≠ 0
  size : ∀ {c x}, D c x → 2 ≤ c.op.length
  id : ∀ {c x}, D c x → c.id = some (key x)
  less : ∀ {a x b y}, D a x → D b y → lt a b = lt' x y

/-- The cursor is at the first op, and the others are to come. -/
def Tail (D : Cursor → β → Prop) (c : Cursor) (p : Cur β) : Prop :=
  ∃ m st, Chains.Trail c m st ∧ D c p.1 ∧ Same2 D m p.2

theorem Sim.agree (s : Sim D lt lt' key) : Agree lt lt' (fun (p : Cur Cursor) q => Tail D p.1 q) := by
  rintro x x' y y' ⟨_, _, _, h1, _⟩ ⟨_, _, _, h2, _⟩
  exact s.less h1 h2

theorem bare_same {h : List Cursor} {h' : List (Cur β)} (hs : Same2 (Tail D) h h') :
    Same2 (fun (p : Cur Cursor) q => Tail D p.1 q) (h.map bare) h' := same2_mapl hs

theorem heapOf_same {r : Option (List (Cur Cursor))} {k' : List (Cur β)}
    (h : ∃ k, r = some k ∧ Same2 (fun (p : Cur Cursor) q => Tail D p.1 q) k k') :
    ∃ k, heapOf r = .ok k ∧ Same2 (Tail D) k k' := by
  obtain ⟨k, rfl, h⟩ := h
  exact ⟨k.map Prod.fst, rfl, same2_mapl h⟩

theorem seen_ok {c : Cursor} (h : 2 ≤ c.op.length) : seen c = .ok c := by
  unfold seen
  rw [if_neg (by omega)]

theorem add_ok (s : Sim D lt lt' key) {h : List Cursor} {h' k' : List (Cur β)} {c : Cursor} {p : Cur β}
    (hs : Same2 (Tail D) h h') (hc : Tail D c p) (e : Heap.add lt' h' p = some k') :
    ∃ k, add lt h c = .ok k ∧ Same2 (Tail D) k k' := by
  obtain ⟨m, st, ht, hd, hm⟩ := hc
  unfold add
  rw [if_neg (s.valid hd), seen_ok (s.size hd), Op.obind]
  exact heapOf_same (add_sim s.agree (bare_same hs) (c := bare c) ⟨m, st, ht, hd, hm⟩ e)

theorem step_ok (s : Sim D lt lt' key) {h : List Cursor} {h' k' : List (Cur β)}
    (hs : Same2 (Tail D) h h') (e : Heap.step lt' h' = some k') :
    ∃ k, step lt h = .ok k ∧ Same2 (Tail D) k k' := by
  cases hs with
  | nil => simp [Heap.step] at e
  | @cons c p t t' hc hs =>
    obtain ⟨x, xs⟩ := p
    obtain ⟨m, st, ht, hd, hm⟩ := hc
    rw [step]
    cases ht with
    | @stop _ c' _ hn hne =>
      cases hm
      rw [hn, Op.obind]
      simp only [Heap.step] at e
      simp only [if_neg hne]
      exact heapOf_same (eject_sim s.agree (bare_same hs) e)
    | @more _ c' m _ hn ht =>
      cases hm with
      | @cons _ y _ ys hd' hm =>
        rw [hn, Op.obind]
        simp only [Heap.step] at e
        simp only [if_true]
        rw [seen_ok (s.size hd'), Op.obind]
        rw [same2_length hs]
        have hc' : Tail D c' (y, ys) := ⟨m, st, ht, hd', hm⟩
        refine heapOf_same (push_sim s.agree _ (bare_same (.cons hc' hs)) ?_)
        simpa using e

theorem next_ok (s : Sim D lt lt' key) {same : β → β → Bool} (hsame : ∀ x y, same x y = true ↔ key x = key y) (x : β) :
    ∀ (n : Nat) {h : List Cursor} {h' k' : List (Cur β)}, Same2 (Tail D) h h' →
    Heap.nextFrom lt' same x n h' = some k' →
    ∃ k, (∀ N, n ≤ N → next lt (key x) N h = .ok (some k)) ∧ Same2 (Tail D) k k' := by
  intro n
  induction n with
  | zero => intro h h' k' _ e; simp [Heap.nextFrom] at e
  | succ n ih =>
    intro h h' k' hs e
    unfold Heap.nextFrom at e
    obtain ⟨k1', e1, e⟩ := optBind e
    obtain ⟨k1, g1, g2⟩ := step_ok s hs e1
    have step1 : ∀ N k, n + 1 ≤ N → (∀ M, n ≤ M → (match k1 with
        | [] => .ok (some [])
        | c :: t => if c.id = some (key x) then next lt (key x) M (c :: t) else .ok (some (c :: t)) :
          Out (Option (List Cursor))) = .ok (some k)) → next lt (key x) N h = .ok (some k) := by
      intro N k hN hM
      obtain ⟨M, rfl⟩ : ∃ M, N = M + 1 := ⟨N - 1, by omega⟩
      unfold next
      rw [g1, Op.obind]
      exact hM M (by omega)
    cases g2 with
    | nil =>
      simp only at e
      injection e with e
      exact ⟨[], fun N hN => step1 N [] hN fun _ _ => rfl, e ▸ .nil⟩
    | @cons c p t t' hc g2 =>
      have hid : c.id = some (key p.1) := s.id hc.choose_spec.choose_spec.2.1
      simp only at e
      split at e
      · rename_i h0
        have hk := (hsame _ _).1 h0
        obtain ⟨k, a1, a2⟩ := ih (.cons hc g2) e
        refine ⟨k, fun N hN => step1 N k hN fun M hM => ?_, a2⟩
        simp only
        rw [if_pos (by rw [hid, hk])]
        exact a1 M hM
      · rename_i h0
        injection e with e
        refine ⟨c :: t, fun N hN => step1 N _ hN fun M hM => ?_, e ▸ .cons hc g2⟩
        simp only
        rw [if_neg]
        rw [hid]
        intro he
        exact h0 ((hsame _ _).2 (Option.some.inj he))

/-- Appending the op of a cursor. -/
def workOf (c : Cursor) : Builder.Work := .op (Builder.copyValue c) c.src

theorem work_cons {c : Cursor} {l : List Builder.Work} {b b' : Builder} (h : Builder.doWork (workOf c :: l) b = .ok b') :
    ∃ b1, b.appendCursor c = .ok b1 ∧ Builder.doWork l b1 = .ok b' := by
  unfold workOf at h
  rw [Builder.doWork] at h
  exact Cursor.bind_ok h

theorem work_append {l l' : List Builder.Work} {b b' : Builder} (h : Builder.doWork (l ++ l') b = .ok b') :
    ∃ b1, Builder.doWork l b = .ok b1 ∧ Builder.doWork l' b1 = .ok b' := by
  induction l generalizing b with
  | nil => exact ⟨b, rfl, h⟩
  | cons w l ih =>
    cases w with
    | op f s =>
      rw [List.cons_append, Builder.doWork] at h
      obtain ⟨b1, e, h⟩ := Cursor.bind_ok h
      obtain ⟨b2, h1, h2⟩ := ih h
      exact ⟨b2, by rw [Builder.doWork, e, Op.obind]; exact h1, h2⟩
    | endChunk t =>
      rw [List.cons_append, Builder.doWork] at h
      obtain ⟨b1, e, h⟩ := Cursor.bind_ok h
      obtain ⟨b2, h1, h2⟩ := ih h
      exact ⟨b2, by rw [Builder.doWork, e, Op.obind]; exact h1, h2⟩

theorem drain_ok (s : Sim D lt lt' key) {same : β → β → Bool} (hsame : ∀ x y, same x y = true ↔ key x = key y) :
    ∀ (n : Nat) {h : List Cursor} {h' : List (Cur β)} {out : List β}, Same2 (Tail D) h h' →
    Heap.drain lt' same n h' = some out →
    ∃ cs N0, Same2 D cs out ∧ ∀ b b', Builder.doWork (cs.map workOf) b = .ok b' → ∀ m N, N0 ≤ m → N0 ≤ N →
      drain lt m N b h = .ok (some b') := by
  intro n
  induction n with
  | zero => intro h h' out _ e; simp [Heap.drain] at e
  | succ n ih =>
    intro h h' out hs e
    cases hs with
    | nil =>
      simp only [Heap.drain] at e
      injection e with e
      refine ⟨[], 1, e ▸ .nil, ?_⟩
      intro b b' hw m N _ hN
      obtain ⟨M, rfl⟩ : ∃ M, N = M + 1 := ⟨N - 1, by omega⟩
      simp only [List.map_nil, Builder.doWork] at hw
      injection hw with hw
      rw [drain, hw]
    | @cons c p t t' hc hs =>
      simp only [Heap.drain] at e
      obtain ⟨k', e1, e⟩ := optBind e
      obtain ⟨out', e2, e⟩ := optBind e
      injection e with e
      obtain ⟨k, a1, a2⟩ := next_ok s hsame p.1 _ (.cons hc hs) e1
      obtain ⟨cs, N0, b1, b2⟩ := ih a2 e2
      have hd := hc.choose_spec.choose_spec.2.1
      refine ⟨c :: cs, Nat.max (Heap.total (p :: t') + 1) N0 + 1, e ▸ .cons hd b1, ?_⟩
      intro b b' hw m N hm hN
      obtain ⟨M, rfl⟩ : ∃ M, N = M + 1 := ⟨N - 1, by omega⟩
      obtain ⟨bb, w1, w2⟩ := work_cons hw
      have hmax1 : Heap.total (p :: t') + 1 ≤ Nat.max (Heap.total (p :: t') + 1) N0 := Nat.le_max_left _ _
      have hmax2 : N0 ≤ Nat.max (Heap.total (p :: t') + 1) N0 := Nat.le_max_right _ _
      rw [drain, w1, Op.obind, s.id hd]
      simp only
      rw [a1 m (by omega), Op.obind]
      exact b2 bb b' w2 m M (by omega) (by omega)

/-- The cursor is at the first of the ops. -/
def Starts (D : Cursor → β → Prop) (c : Cursor) (l : List β) : Prop := ∃ x xs, l = x :: xs ∧ Tail D c (x, xs)

theorem build_ok (s : Sim D lt lt' key) {inputs : List Cursor} {ins : List (List β)} (hi : Same2 (Starts D) inputs ins) :
    ∀ {h : List Cursor} {h' k' : List (Cur β)}, Same2 (Tail D) h h' → Heap.build lt' h' ins = some k' →
    ∃ k, build lt h inputs = .ok k ∧ Same2 (Tail D) k k' := by
  induction hi with
  | nil =>
    intro h h' k' hs e
    simp only [Heap.build] at e
    injection e with e
    exact ⟨h, rfl, e ▸ hs⟩
  | cons hc _ ih =>
    intro h h' k' hs e
    obtain ⟨x, xs, rfl, hc⟩ := hc
    unfold Heap.build at e
    obtain ⟨k1', e1, e⟩ := optBind e
    obtain ⟨k1, g1, g2⟩ := add_ok s hs hc e1
    obtain ⟨k, g3, g4⟩ := ih g2 e
    exact ⟨k, by rw [build, g1, Op.obind]; exact g3, g4⟩

/-- The chunk is ended. -/
def merged (cs : List Cursor) : List Builder.Work := cs.map workOf ++ [.endChunk 0]

theorem mergeInto_ok (s : Sim D lt lt' key) {same : β → β → Bool} (hsame : ∀ x y, same x y = true ↔ key x = key y)
    {inputs : List Cursor} {ins : List (List β)} (hi : Same2 (Starts D) inputs ins) {out : List β}
    (e : Heap.merge lt' same ins = some out) :
    ∃ cs N0, Same2 D cs out ∧ ∀ b b', Builder.doWork (merged cs) b = .ok b' → (out = [] → b.span = 0) → ∀ n, N0 ≤ n →
      mergeInto lt n b inputs = .ok (some b') := by
  unfold Heap.merge at e
  obtain ⟨k', e1, e⟩ := optBind e
  obtain ⟨k, g1, g2⟩ := build_ok s hi .nil e1
  obtain ⟨cs, N0, c1, c2⟩ := drain_ok s hsame _ g2 e
  refine ⟨cs, N0, c1, ?_⟩
  intro b b' hw h0 n hn
  unfold merged at hw
  obtain ⟨b1, w1, w2⟩ := work_append hw
  rw [Builder.doWork] at w2
  obtain ⟨b2, w2, w3⟩ := Cursor.bind_ok w2
  simp only [Builder.doWork] at w3
  injection w3 with w3
  unfold mergeInto
  rw [g1, Op.obind]
  split
  · rename_i hk
    subst hk
    cases g2
    simp only [Heap.drain] at e
    injection e with e
    subst e
    cases c1
    simp only [List.map_nil, Builder.doWork] at w1
    injection w1 with w1
    subst w1
    unfold Builder.endChunk Builder.writeTerm at w2
    rw [if_neg (by decide), if_pos (h0 rfl)] at w2
    injection w2 with w2
    rw [w2, w3]
  · rw [c2 b b1 w1 n n hn hn, Op.obind]
    simp only
    rw [w2, Op.obind, w3]

/-! ### `RGArrayRDT::Merge` -/

section
variable {D : Cursor → AOp → Prop} (s : Sim D rgaLess Rdt.rgaLess AOp.id)
include s

theorem attach_ok {p : Cursor → Bool} {p' : AOp → Bool} (hp : ∀ {c x}, D c x → p c = p' x) {w : List Cursor}
    {w' : List (Cur AOp)} (hw : Same2 (Tail D) w w') : ∀ {h : List Cursor} {h' : List (Cur AOp)}
    {r' : List (Cur AOp) × List (Cur AOp)}, Same2 (Tail D) h h' → Rdt.attach p' h' w' = some r' →
    ∃ r, attach p h w = .ok r ∧ Same2 (Tail D) r.1 r'.1 ∧ Same2 (Tail D) r.2 r'.2 := by
  induction hw with
  | nil =>
    intro h h' r' hs e
    simp only [Rdt.attach] at e
    injection e with e
    exact ⟨(h, []), rfl, e ▸ hs, e ▸ .nil⟩
  | @cons c x w w' hc hw ih =>
    intro h h' r' hs e
    have hpx := hp hc.choose_spec.choose_spec.2.1
    unfold Rdt.attach at e
    unfold attach
    rw [hpx]
    split at e
    · rename_i h0
      rw [if_pos h0]
      obtain ⟨k', e1, e⟩ := optBind e
      obtain ⟨k, g1, g2⟩ := add_ok s hs hc e1
      obtain ⟨r, i1, i2⟩ := ih g2 e
      exact ⟨r, by rw [g1, Op.obind]; exact i1, i2⟩
    · rename_i h0
      rw [if_neg h0]
      cases ha : Rdt.attach p' h' w' with
      | none => rw [ha] at e; simp at e
      | some q =>
        rw [ha] at e
        simp only [Option.map_some] at e
        injection e with e
        obtain ⟨r, i1, i2, i3⟩ := ih hs ha
        refine ⟨(r.1, c :: r.2), by rw [i1, Op.obind], ?_, ?_⟩
        · rw [← e]; exact i2
        · rw [← e]; exact .cons hc i3

theorem minId_ok {w : List Cursor} {w' : List (Cur AOp)} (hw : Same2 (Tail D) w w') : minId w = Rdt.minId w' := by
  cases hw with
  | nil => rfl
  | @cons c x w w' hc hw =>
    unfold minId Rdt.minId
    simp only
    rw [s.id hc.choose_spec.choose_spec.2.1, Option.map_some]
    congr 1
    generalize AOp.id x.1 = i
    induction hw generalizing i with
    | nil => rfl
    | @cons d y w w' hd _ ih =>
      rw [List.foldl_cons, List.foldl_cons, s.id hd.choose_spec.choose_spec.2.1]
      exact ih _

theorem rgaLoop_ok (href : ∀ {c x}, D c x → c.ref = some (AOp.ref x)) : ∀ (n : Nat) {h w : List Cursor}
    {h' w' : List (Cur AOp)} {r' : List AOp × List (Cur AOp)}, Same2 (Tail D) h h' → Same2 (Tail D) w w' →
    Rdt.rgaLoop n h' w' = some r' →
    ∃ cs w2 N0, Same2 D cs r'.1 ∧ Same2 (Tail D) w2 r'.2 ∧ ∀ b b', Builder.doWork (cs.map workOf) b = .ok b' →
      ∀ m N, N0 ≤ m → N0 ≤ N → rgaLoop m N b h w = .ok (some (b', w2)) := by
  intro n
  induction n with
  | zero => intro h w h' w' r' _ _ e; simp [Rdt.rgaLoop] at e
  | succ n ih =>
    intro h w h' w' r' hs hw e
    cases hs with
    | nil =>
      simp only [Rdt.rgaLoop] at e
      injection e with e
      refine ⟨[], w, 1, e ▸ .nil, e ▸ hw, ?_⟩
      intro b b' hb m N _ hN
      obtain ⟨M, rfl⟩ : ∃ M, N = M + 1 := ⟨N - 1, by omega⟩
      simp only [List.map_nil, Builder.doWork] at hb
      injection hb with hb
      rw [rgaLoop, hb]
    | @cons c p t t' hc hs =>
      simp only [Rdt.rgaLoop] at e
      obtain ⟨k', e1, e⟩ := optBind e
      obtain ⟨q', e2, e⟩ := optBind e
      cases e3 : Rdt.rgaLoop n q'.1 q'.2 with
      | none => rw [e3] at e; simp at e
      | some z =>
        rw [e3] at e
        simp only [Option.map_some] at e
        injection e with e
        obtain ⟨k, a1, a2⟩ := next_ok s Rdt.same_iff p.1 _ (.cons hc hs) e1
        obtain ⟨q, g1, g2, g3⟩ := attach_ok s (p := fun d => decide (d.ref = some p.1.id))
          (p' := fun o => decide (o.ref = p.1.id)) (fun hd => by
            show decide _ = decide _
            rw [href hd]; simp) hw a2 e2
        obtain ⟨cs, w2, N0, b0, b1, b2⟩ := ih g2 g3 e3
        have hd := hc.choose_spec.choose_spec.2.1
        refine ⟨c :: cs, w2, Nat.max (Heap.total (p :: t') + 1) N0 + 1, e ▸ .cons hd b0, e ▸ b1, ?_⟩
        intro b b' hw m N hm hN
        obtain ⟨M, rfl⟩ : ∃ M, N = M + 1 := ⟨N - 1, by omega⟩
        obtain ⟨bb, w1, w2⟩ := work_cons hw
        have hmax1 : Heap.total (p :: t') + 1 ≤ Nat.max (Heap.total (p :: t') + 1) N0 := Nat.le_max_left _ _
        have hmax2 : N0 ≤ Nat.max (Heap.total (p :: t') + 1) N0 := Nat.le_max_right _ _
        rw [rgaLoop, w1, Op.obind, s.id hd]
        simp only
        rw [a1 m (by omega), Op.obind]
        simp only
        rw [g1, Op.obind]
        exact b2 bb b' w2 m M (by omega) (by omega)

omit s in
theorem valid_ok {inputs : List Cursor} {ins : List (List AOp)} (hi : Same2 (Starts D) inputs ins) :
    Same2 (Tail D) inputs (Rdt.valid ins) := by
  induction hi with
  | nil => exact .nil
  | cons hc _ ih =>
    obtain ⟨x, xs, rfl, hc⟩ := hc
    exact .cons hc ih

/-- The status of a merge of causal trees. -/
theorem rga_ok (href : ∀ {c x}, D c x → c.ref = some (AOp.ref x)) {inputs : List Cursor} {ins : List (List AOp)}
    (hi : Same2 (Starts D) inputs ins) :
    (inputs.length > 3 ∧ ∀ n b, rga n b inputs = .ok (some (b, Status.NOT_IMPLEMENTED))) ∨
    ∀ r', Rdt.rgaMerge (Rdt.valid ins) = some r' → inputs.length ≤ 3 ∧
      ∃ cs N0, Same2 D cs r'.1 ∧ ∀ b b', Builder.doWork (merged cs) b = .ok b' → ∀ n, N0 ≤ n →
        rga n b inputs = .ok (some (b', if r'.2.isEmpty then Status.OK else Status.CAUSEBREAK)) := by
  by_cases h3 : inputs.length > 3
  · left
    refine ⟨h3, fun n b => ?_⟩
    unfold rga
    rw [if_pos h3]
  · right
    intro r' e
    refine ⟨by omega, ?_⟩
    have hv := valid_ok hi
    have hmin := minId_ok s hv
    unfold Rdt.rgaMerge at e
    split at e
    · rename_i hm
      have hnil : inputs = [] := by
        have hl := same2_length hv
        cases hval : Rdt.valid ins with
        | nil => rw [hval] at hl; exact List.eq_nil_of_length_eq_zero hl
        | cons _ _ => rw [hval] at hm; simp [Rdt.minId] at hm
      subst hnil
      injection e with e
      refine ⟨[], 1, e ▸ .nil, ?_⟩
      intro b b' hw n hn
      unfold merged at hw
      rw [List.map_nil, List.nil_append, Builder.doWork] at hw
      obtain ⟨b1, w1, w2⟩ := Cursor.bind_ok hw
      simp only [Builder.doWork] at w2
      injection w2 with w2
      obtain ⟨M, rfl⟩ : ∃ M, n = M + 1 := ⟨n - 1, by omega⟩
      unfold rga
      rw [if_neg h3, attach, Op.obind]
      simp only [rgaLoop]
      rw [Op.obind]
      simp only
      rw [w1, Op.obind, w2, ← e]
      rfl
    · rename_i mi hm
      obtain ⟨q', e1, e⟩ := optBind e
      obtain ⟨q, g1, g2, g3⟩ := attach_ok s (p := fun d => decide (d.id = minId inputs))
        (p' := fun o => decide (o.id = mi)) (fun hd => by
          show decide _ = decide _
          rw [s.id hd, hmin, hm]; simp) hv .nil e1
      obtain ⟨cs, w2, N0, b0, b1, b2⟩ := rgaLoop_ok s href _ g2 g3 e
      refine ⟨cs, N0, b0, ?_⟩
      intro b b' hw n hn
      unfold merged at hw
      obtain ⟨bb, w1, w3⟩ := work_append hw
      rw [Builder.doWork] at w3
      obtain ⟨bc, w3, w4⟩ := Cursor.bind_ok w3
      simp only [Builder.doWork] at w4
      injection w4 with w4
      unfold rga
      rw [if_neg h3, g1, Op.obind, b2 b bb w1 n n hn hn, Op.obind]
      simp only
      rw [w3, Op.obind, w4]
      have : w2.isEmpty = r'.2.isEmpty := by
        have hl := same2_length b1
        cases h1 : w2 <;> cases h2 : r'.2 <;> rw [h1, h2] at hl <;> simp at hl ⊢
      rw [this]
end

/-! ### frames of the grammar -/

/-- The cursor is at an op of a frame that can be copied. -/
def At (c : Cursor) (x : Nat × OpView) : Prop :=
  ∃ buf, buf.length < 2 ^ 30 ∧ NoOverlong buf ∧ TextParser.Holds buf c x ∧ ∀ v ∈ x.2.vals, CopyOk v

theorem At.ref {c : Cursor} {x : Nat × OpView} (h : At c x) : c.ref = some x.2.ref := by
  obtain ⟨buf, -, -, h, -⟩ := h
  obtain ⟨xs, e, -⟩ := h.op
  unfold Cursor.ref
  rw [e]; rfl

theorem At.id {c : Cursor} {x : Nat × OpView} (h : At c x) : c.id = some x.2.id := by
  obtain ⟨buf, -, -, h, -⟩ := h
  obtain ⟨xs, e, -⟩ := h.op
  unfold Cursor.id
  rw [e]; rfl

theorem At.cs {c : Cursor} {x : Nat × OpView} (h : At c x) : c.cs ≠ 0 := by
  obtain ⟨buf, -, -, h, -⟩ := h
  rw [h.cs]; decide

theorem At.size {c : Cursor} {x : Nat × OpView} (h : At c x) : 2 ≤ c.op.length := by
  obtain ⟨buf, -, -, h, -⟩ := h
  obtain ⟨xs, e, -⟩ := h.op
  rw [e]; simp

/-- The order of `idLess`. -/
def idOrd (x y : Nat × OpView) : Bool := Uuid.lt x.2.id y.2.id

theorem at_sim : Sim At idLess idOrd (fun x => x.2.id) :=
  ⟨At.cs, At.size, At.id, fun h1 h2 => by unfold idLess idOrd; rw [h1.id, h2.id]⟩

/-- The order of `metaLess`. -/
def metaOrd (x y : Nat × OpView) : Bool :=
  if x.2.id = y.2.id then Uuid.gt x.2.ref y.2.ref else Uuid.lt x.2.id y.2.id

theorem meta_sim : Sim At metaLess metaOrd (fun x => x.2.id) :=
  ⟨At.cs, At.size, At.id, fun h1 h2 => by unfold metaLess metaOrd; rw [h1.id, h2.id, h1.ref, h2.ref]⟩

theorem at_fits {c : Cursor} {x : Nat × OpView} (h : At c x) : Builder.Fits copyHeadOk (workOf c) (.op x.2) := by
  obtain ⟨buf, h1, h2, h3, h4⟩ := h
  obtain ⟨t, o⟩ := x
  obtain ⟨y, s1, s2⟩ := Builder.shown_cursor h1 h2 h3 h4
  exact .op s1 s2

theorem at_whole {c : Cursor} {x : Nat × OpView} (h : At c x) : Builder.WholeWork (workOf c) := by
  obtain ⟨buf, -, h2, h3, -⟩ := h
  exact Builder.cursor_whole h2 h3

theorem merged_whole {cs : List Cursor} {l : List (Nat × OpView)} (h : Same2 At cs l) :
    ∀ w ∈ merged cs, Builder.WholeWork w := by
  have key : ∀ w ∈ cs.map workOf, Builder.WholeWork w := by
    induction h with
    | nil => intro w hw; simp at hw
    | cons h _ ih =>
      intro w hw
      rcases List.mem_cons.1 hw with rfl | hw
      · exact at_whole h
      · exact ih w hw
  intro w hw
  rcases List.mem_append.1 hw with hw | hw
  · exact key w hw
  · simp only [List.mem_singleton] at hw
    rw [hw]; trivial

theorem merged_fits {cs : List Cursor} {l : List (Nat × OpView)} (h : Same2 At cs l) :
    Same2 (Builder.Fits copyHeadOk) (merged cs) (mergedSteps (l.map Prod.snd)) := by
  unfold merged mergedSteps
  refine TextParser.same2_append ?_ (.cons (.endChunk 0) .nil)
  induction h with
  | nil => exact .nil
  | cons h _ ih => exact .cons (at_fits h) ih

theorem copyWorks_fits {cs : List Cursor} {l : List (Nat × OpView)} (h : Same2 At cs l) :
    Same2 (Builder.Fits copyHeadOk) (Builder.copyWorks cs) (copySteps l) := by
  induction h with
  | nil => exact .nil
  | @cons c x m l h _ ih =>
    have ht : c.term = x.1 := by obtain ⟨buf, -, -, h3, -⟩ := h; exact h3.term
    have hf := at_fits h
    obtain ⟨t, o⟩ := x
    unfold Builder.copyWorks copySteps
    rw [ht]
    simp only
    split
    · exact .cons hf ih
    · exact .cons hf (.cons (.endChunk t) ih)

theorem copySteps_append (a b : List (Nat × OpView)) : copySteps (a ++ b) = copySteps a ++ copySteps b := by
  induction a with
  | nil => rfl
  | cons x a ih =>
    obtain ⟨t, o⟩ := x
    rw [List.cons_append, copySteps, copySteps, ih]
    split <;> rfl

theorem appendAll_ok {c : Cursor} {l : List (Nat × OpView)} (h : Starts At c l) :
    ∃ ws N0, Same2 (Builder.Fits copyHeadOk) ws (copySteps l) ∧ ∀ b b', Builder.doWork ws b = .ok b' → ∀ n, N0 ≤ n →
      Builder.appendAll n b c = .ok (some b') := by
  obtain ⟨x, xs, rfl, m, st, ht, hd, hm⟩ := h
  have hs : Same2 At (c :: m) (x :: xs) := .cons hd hm
  refine ⟨_, m.length + 2, copyWorks_fits hs, ?_⟩
  intro b b' hw n hn
  obtain ⟨k, rfl⟩ : ∃ k, n = m.length + 2 + k := ⟨n - (m.length + 2), by omega⟩
  refine Builder.appendAll_mono (Builder.appendAll_work ht ?_ hw) k
  have : ∀ {m : List Cursor} {l : List (Nat × OpView)}, Same2 At m l → ∀ y ∈ m, y.cs ≠ 0 := by
    intro m l h
    induction h with
    | nil => simp
    | cons h _ ih =>
      intro y hy
      rcases List.mem_cons.1 hy with rfl | hy
      · exact h.cs
      · exact ih y hy
  exact this hs

theorem log_ok {inputs : List Cursor} {ins : List (List (Nat × OpView))} (hi : Same2 (Starts At) inputs ins) :
    ∃ ws N0, Same2 (Builder.Fits copyHeadOk) ws (copySteps ins.flatten) ∧ ∀ b b', Builder.doWork ws b = .ok b' →
      ∀ n, N0 ≤ n → log n b inputs = .ok (some b') := by
  induction hi with
  | nil =>
    refine ⟨[], 0, .nil, ?_⟩
    intro b b' hw n _
    simp only [Builder.doWork] at hw
    injection hw with hw
    rw [log, hw]
  | cons hc _ ih =>
    obtain ⟨ws, N0, h1, h2⟩ := ih
    obtain ⟨ws', N1, g1, g2⟩ := appendAll_ok hc
    refine ⟨ws' ++ ws, N0 + N1, ?_, ?_⟩
    · rw [List.flatten_cons, copySteps_append]
      exact TextParser.same2_append g1 h1
    · intro b b' hw n hn
      obtain ⟨b1, w1, w2⟩ := work_append hw
      rw [log, g2 b b1 w1 n (by omega), Op.obind]
      exact h2 b1 b' w2 n (by omega)

theorem keepLast_ok {inputs : List Cursor} {ins : List (List (Nat × OpView))} (hi : Same2 (Starts At) inputs ins) :
    ∃ ws N0, Same2 (Builder.Fits copyHeadOk) ws (copySteps (ins.getLast?.getD [])) ∧
      ∀ b b', Builder.doWork ws b = .ok b' → ∀ n, N0 ≤ n → keepLast n b inputs = .ok (some b') := by
  cases hg : ins.getLast? with
  | none =>
    have : inputs = [] := by
      cases hi with
      | nil => rfl
      | cons _ _ => simp at hg
    subst this
    refine ⟨[], 0, .nil, ?_⟩
    intro b b' hw n _
    simp only [Builder.doWork] at hw
    injection hw with hw
    rw [hw]; rfl
  | some l =>
    obtain ⟨c, h1, h2⟩ := same2_getLast? hi hg
    obtain ⟨ws, N0, g1, g2⟩ := appendAll_ok h2
    refine ⟨ws, N0, g1, ?_⟩
    intro b b' hw n hn
    unfold keepLast
    rw [h1]
    exact g2 b b' hw n hn

theorem firsts_ok : ∀ {ins : List (List Byte × List (Nat × OpView))}, (∀ i ∈ ins, Copyable i) →
    ∃ cs, firsts (ins.map Prod.fst) = .ok cs ∧ Same2 (Starts At) cs ((ins.map Prod.snd).filter fun l => !l.isEmpty)
  | [], _ => ⟨[], rfl, .nil⟩
  | i :: ins, h => by
    obtain ⟨cs, e, hs⟩ := firsts_ok (ins := ins) fun j hj => h j (List.mem_cons_of_mem _ hj)
    have hi := h i (by simp)
    obtain ⟨m, h1, -, -, h2⟩ := TextParser.frame_trail hi.size hi.text (cur := Cursor.init i.1)
      ⟨rfl, rfl, rfl, .inr ⟨rfl, rfl⟩⟩ Cursor.type_nil rfl
    have hat : Same2 At m i.2 := by
      have key : ∀ {m : List Cursor} {l : List (Nat × OpView)}, Same2 (TextParser.Holds i.1) m l →
          (∀ x ∈ l, ∀ v ∈ x.2.vals, CopyOk v) → Same2 At m l := by
        intro m l h
        induction h with
        | nil => intro _; exact .nil
        | cons h _ ih =>
          intro hv
          exact .cons ⟨i.1, hi.size, hi.short, h, hv _ (by simp)⟩ (ih fun y hy => hv y (by simp [hy]))
      exact key h2 hi.vals
    rw [List.map_cons, List.map_cons, firsts, List.filter_cons]
    cases h1 with
    | stop hn hne =>
      generalize i.2 = l at hat
      cases hat
      rw [hn, Op.obind, e, Op.obind]
      simp only [if_neg hne]
      exact ⟨cs, rfl, hs⟩
    | @more _ c m _ hn ht =>
      generalize i.2 = l at hat
      cases hat with
      | @cons _ x _ l hc hm =>
        rw [hn, Op.obind, e, Op.obind]
        simp only [if_true]
        exact ⟨_, rfl, .cons ⟨x, l, rfl, m, _, ht, hc, hm⟩ hs⟩

/-- The op of a list of ops. -/
def opOf (enc : View → AVal) (x : Nat × OpView) : AOp :=
  ⟨x.2.id, x.2.ref, x.2.vals.map enc, if x.1 = 0 then .raw else if x.1 = 1 then .reduced else if x.1 = 2 then .header else .query⟩

/-- The cursor is at an op that reads as `a`. -/
def AtA (enc : View → AVal) (c : Cursor) (a : AOp) : Prop := ∃ x, At c x ∧ a = opOf enc x

theorem atA_sim (enc : View → AVal) : Sim (AtA enc) rgaLess Rdt.rgaLess AOp.id :=
  ⟨fun ⟨_, h, _⟩ => h.cs, fun ⟨_, h, _⟩ => h.size, fun ⟨_, h, e⟩ => by rw [h.id, e]; rfl,
   fun ⟨_, h1, e1⟩ ⟨_, h2, e2⟩ => by
     unfold rgaLess idLess Rdt.rgaLess; rw [h1.id, h2.id, e1, e2]; rfl⟩

theorem atA_ref {enc : View → AVal} {c : Cursor} {a : AOp} (h : AtA enc c a) : c.ref = some a.ref := by
  obtain ⟨x, h, e⟩ := h
  rw [h.ref, e]; rfl

theorem same2_atA {enc : View → AVal} {m : List Cursor} {l : List (Nat × OpView)} (h : Same2 At m l) :
    Same2 (AtA enc) m (l.map (opOf enc)) := by
  induction h with
  | nil => exact .nil
  | cons h _ ih => exact .cons ⟨_, h, rfl⟩ ih

theorem same2_atA' {enc : View → AVal} {m : List Cursor} {l : List AOp} (h : Same2 (AtA enc) m l) :
    ∃ l', Same2 At m l' ∧ l = l'.map (opOf enc) := by
  induction h with
  | nil => exact ⟨[], .nil, rfl⟩
  | cons h _ ih =>
    obtain ⟨x, h, rfl⟩ := h
    obtain ⟨l', i1, i2⟩ := ih
    exact ⟨x :: l', .cons h i1, by rw [i2]; rfl⟩

theorem starts_atA {enc : View → AVal} {m : List Cursor} {l : List (List (Nat × OpView))} (h : Same2 (Starts At) m l) :
    Same2 (Starts (AtA enc)) m (l.map (List.map (opOf enc))) := by
  induction h with
  | nil => exact .nil
  | cons h _ ih =>
    obtain ⟨x, xs, rfl, m, st, ht, hd, hm⟩ := h
    exact .cons ⟨_, _, rfl, m, st, ht, ⟨x, hd, rfl⟩, same2_atA hm⟩ ih

theorem getForm_ok (enc : View → AVal) {inputs : List Cursor} {ins : List (List (Nat × OpView))}
    (hi : Same2 (Starts At) inputs ins) : ∀ form : Uuid,
    getForm form inputs = .ok (Rdt.getForm form (ins.map (List.map (opOf enc)))) := by
  induction hi with
  | nil => intro form; rfl
  | cons hc _ ih =>
    intro form
    obtain ⟨x, xs, rfl, m, st, ht, hd, hm⟩ := hc
    rw [getForm, if_neg hd.cs, hd.ref, List.map_cons, List.map_cons, Rdt.getForm]
    simp only
    show _ = Out.ok (if x.2.ref.version ≠ Uuid.vNAME then _ else if form.zero = true then Rdt.getForm x.2.ref _ else
      if form ≠ x.2.ref then _ else _)
    split
    · exact ih form
    · split
      · exact ih _
      · split
        · rfl
        · exact ih form

/-! ### more turns change nothing -/

theorem next_mono {lt : Cursor → Cursor → Bool} {id : Uuid} : ∀ {n : Nat} {h k : List Cursor},
    next lt id n h = .ok (some k) → ∀ j, next lt id (n + j) h = .ok (some k) := by
  intro n
  induction n with
  | zero => intro h k e; simp [next] at e
  | succ n ih =>
    intro h k e j
    rw [show n + 1 + j = n + j + 1 by omega]
    rw [next] at e ⊢
    obtain ⟨h1, e1, e⟩ := Cursor.bind_ok e
    rw [e1, Op.obind]
    split at e
    · exact e
    · split at e
      · rename_i h0
        rw [if_pos h0]; exact ih e j
      · rename_i h0
        rw [if_neg h0]; exact e

theorem drain_mono {lt : Cursor → Cursor → Bool} {m : Nat} : ∀ {n : Nat} {b b' : Builder} {h : List Cursor},
    drain lt m n b h = .ok (some b') → ∀ i j, drain lt (m + i) (n + j) b h = .ok (some b') := by
  intro n
  induction n with
  | zero => intro b b' h e; simp [drain] at e
  | succ n ih =>
    intro b b' h e i j
    rw [show n + 1 + j = n + j + 1 by omega]
    cases h with
    | nil => rw [drain] at e ⊢; exact e
    | cons c t =>
      rw [drain] at e ⊢
      obtain ⟨b1, e1, e⟩ := Cursor.bind_ok e
      rw [e1, Op.obind]
      split at e
      · simp at e
      · obtain ⟨r, e2, e⟩ := Cursor.bind_ok e
        cases r with
        | none => simp at e
        | some k =>
          rw [next_mono e2 i, Op.obind]
          exact ih e i j

theorem rgaLoop_mono {m : Nat} : ∀ {n : Nat} {b : Builder} {h w : List Cursor} {r : Builder × List Cursor},
    rgaLoop m n b h w = .ok (some r) → ∀ i j, rgaLoop (m + i) (n + j) b h w = .ok (some r) := by
  intro n
  induction n with
  | zero => intro b h w r e; simp [rgaLoop] at e
  | succ n ih =>
    intro b h w r e i j
    rw [show n + 1 + j = n + j + 1 by omega]
    cases h with
    | nil => rw [rgaLoop] at e ⊢; exact e
    | cons c t =>
      rw [rgaLoop] at e ⊢
      obtain ⟨b1, e1, e⟩ := Cursor.bind_ok e
      rw [e1, Op.obind]
      split at e
      · simp at e
      · obtain ⟨q, e2, e⟩ := Cursor.bind_ok e
        cases q with
        | none => simp at e
        | some k =>
          rw [next_mono e2 i, Op.obind]
          simp only at e ⊢
          obtain ⟨q, e3, e⟩ := Cursor.bind_ok e
          rw [e3, Op.obind]
          exact ih e i j

theorem log_mono {n : Nat} : ∀ {cs : List Cursor} {b b' : Builder}, log n b cs = .ok (some b') →
    ∀ j, log (n + j) b cs = .ok (some b')
  | [], _, _, e, _ => e
  | c :: cs, b, b', e, j => by
    rw [log] at e ⊢
    obtain ⟨r, e1, e⟩ := Cursor.bind_ok e
    cases r with
    | none => simp at e
    | some b1 =>
      rw [Builder.appendAll_mono e1 j, Op.obind]
      exact log_mono e j

theorem okay_mono {f g : Out (Option Builder)} (h : ∀ b, f = .ok (some b) → g = .ok (some b)) {r : Builder × Status}
    (e : okay f = .ok (some r)) : okay g = .ok (some r) := by
  unfold okay at e ⊢
  obtain ⟨x, e1, e⟩ := Cursor.bind_ok e
  cases x with
  | none => simp at e
  | some b => rw [h b e1, Op.obind]; exact e

theorem keepLast_mono {n : Nat} {cs : List Cursor} {b b' : Builder} (e : keepLast n b cs = .ok (some b')) (j : Nat) :
    keepLast (n + j) b cs = .ok (some b') := by
  unfold keepLast at e ⊢
  split
  · rename_i h; rw [h] at e; exact e
  · rename_i c h; rw [h] at e; exact Builder.appendAll_mono e j

theorem mergeInto_mono {lt : Cursor → Cursor → Bool} {n : Nat} {cs : List Cursor} {b b' : Builder}
    (e : mergeInto lt n b cs = .ok (some b')) (j : Nat) : mergeInto lt (n + j) b cs = .ok (some b') := by
  unfold mergeInto at e ⊢
  obtain ⟨h, e1, e⟩ := Cursor.bind_ok e
  rw [e1, Op.obind]
  split at e
  · rename_i h0; rw [if_pos h0]; exact e
  · rename_i h0
    rw [if_neg h0]
    obtain ⟨r, e2, e⟩ := Cursor.bind_ok e
    cases r with
    | none => simp at e
    | some b1 => rw [drain_mono e2 j j, Op.obind]; exact e

theorem rga_mono {n : Nat} {cs : List Cursor} {b : Builder} {r : Builder × Status}
    (e : rga n b cs = .ok (some r)) (j : Nat) : rga (n + j) b cs = .ok (some r) := by
  unfold rga at e ⊢
  split
  · rename_i h0; rw [if_pos h0] at e; exact e
  · rename_i h0
    rw [if_neg h0] at e
    obtain ⟨q, e1, e⟩ := Cursor.bind_ok e
    rw [e1, Op.obind]
    obtain ⟨x, e2, e⟩ := Cursor.bind_ok e
    cases x with
    | none => simp at e
    | some y => rw [rgaLoop_mono e2 j j, Op.obind]; exact e

variable {mx : Builder → List Cursor → Out (Option (Builder × Status))}

theorem master_mono {n : Nat} {f : Form} {b : Builder} {cs : List Cursor} {r : Builder × Status}
    (e : master mx n f b cs = .ok (some r)) (j : Nat) : master mx (n + j) f b cs = .ok (some r) := by
  unfold master at e ⊢
  split
  · rename_i h; rw [if_pos h] at e
    exact okay_mono (fun b h => log_mono h j) e
  rename_i h; rw [if_neg h] at e
  split
  · rename_i h; rw [if_pos h] at e
    exact okay_mono (fun b h => keepLast_mono h j) e
  rename_i h; rw [if_neg h] at e
  split
  · rename_i h; rw [if_pos h] at e
    exact okay_mono (fun b h => mergeInto_mono h j) e
  rename_i h; rw [if_neg h] at e
  split
  · rename_i h; rw [if_pos h] at e
    exact okay_mono (fun b h => mergeInto_mono h j) e
  rename_i h; rw [if_neg h] at e
  split
  · rename_i h; rw [if_pos h] at e
    exact okay_mono (fun b h => mergeInto_mono h j) e
  rename_i h; rw [if_neg h] at e
  split
  · rename_i h; rw [if_pos h] at e
    exact rga_mono e j
  rename_i h; rw [if_neg h] at e
  split
  · rename_i h; rw [if_pos h] at e
    exact e
  rename_i h; rw [if_neg h] at e
  split
  · rename_i h; rw [if_pos h] at e
    exact okay_mono (fun b h => keepLast_mono h j) e
  rename_i h; rw [if_neg h] at e
  exact e

theorem mergeCursors_mono {n : Nat} {f : Form} {cs : List Cursor} {r : Status × List Byte}
    (e : mergeCursors mx n f cs = .ok (some r)) (j : Nat) : mergeCursors mx (n + j) f cs = .ok (some r) := by
  unfold mergeCursors at e ⊢
  obtain ⟨x, e1, e⟩ := Cursor.bind_ok e
  cases x with
  | none => simp at e
  | some y => rw [master_mono e1 j, Op.obind]; exact e

theorem mergeFrames_mono {n : Nat} {fs : List (List Byte)} {r : Status × List Byte}
    (e : mergeFrames mx n fs = .ok (some r)) (j : Nat) : mergeFrames mx (n + j) fs = .ok (some r) := by
  unfold mergeFrames at e ⊢
  obtain ⟨x, e1, e⟩ := Cursor.bind_ok e
  rw [e1, Op.obind]
  obtain ⟨f, e2, e⟩ := Cursor.bind_ok e
  rw [e2, Op.obind]
  cases f with
  | none => exact e
  | some f => exact mergeCursors_mono e j

/-! ### merges of frames -/

theorem saidBy_ops : ∀ (l : List OpView) (t : List Step), (saidBy (l.map Step.op ++ t)).map Prod.snd =
    l ++ (saidBy t).map Prod.snd
  | [], _ => rfl
  | o :: l, t => by
    rw [List.map_cons, List.cons_append, saidBy, List.map_cons, saidBy_ops l t]; rfl

theorem saidBy_merged (l : List OpView) : (saidBy (mergedSteps l)).map Prod.snd = l := by
  unfold mergedSteps
  rw [saidBy_ops]
  simp [saidBy]

theorem meta_ord : Order metaOrd :=
  ⟨fun a b h => Rdt.metaOrder.asymm (shape a.2) (shape b.2) h,
   fun a b c h1 h2 => Rdt.metaOrder.neg (shape a.2) (shape b.2) (shape c.2) h1 h2⟩

/-- The same id. -/
def sameOrd (x y : Nat × OpView) : Bool := decide (x.2.id = y.2.id)

theorem sameOrd_iff (x y : Nat × OpView) : sameOrd x y = true ↔ x.2.id = y.2.id := by
  unfold sameOrd; simp

theorem idOrd_keyed : Keyed idOrd sameOrd (fun x => x.2.id) Uuid.lt :=
  ⟨Rdt.Lin.order Rdt.uuid_lin fun x : Nat × OpView => x.2.id, Rdt.uuid_lin, fun _ _ h => h, sameOrd_iff⟩

theorem metaOrd_keyed : Keyed metaOrd sameOrd (fun x => x.2.id) Uuid.lt := by
  refine ⟨meta_ord, Rdt.uuid_lin, fun a b h => ?_, sameOrd_iff⟩
  unfold metaOrd
  rw [if_neg (fun e => by rw [e, Rdt.uuid_lin.irrefl] at h; cases h)]; exact h

/-- Lists in the order of ids with the same ops are the same. -/
theorem ordered_unique : ∀ {a b : List OpView}, a.Pairwise (fun x y => Uuid.lt x.id y.id = true) →
    b.Pairwise (fun x y => Uuid.lt x.id y.id = true) → (∀ o, o ∈ a ↔ o ∈ b) → a = b
  | [], [], _, _, _ => rfl
  | [], y :: b, _, _, h => by have := (h y).2 (by simp); simp at this
  | x :: a, [], _, _, h => by have := (h x).1 (by simp); simp at this
  | x :: a, y :: b, ha, hb, h => by
    rw [List.pairwise_cons] at ha hb
    have irr : ∀ u, Uuid.lt u u ≠ true := fun u e => by rw [Rdt.uuid_lin.irrefl] at e; cases e
    have hxy : x = y := by
      rcases List.mem_cons.1 ((h x).1 (by simp)) with e | e
      · exact e
      · rcases List.mem_cons.1 ((h y).2 (by simp)) with e' | e'
        · exact e'.symm
        · exact absurd (Rdt.uuid_lin.trans _ _ _ (ha.1 y e') (hb.1 x e)) (irr _)
    subst hxy
    congr 1
    refine ordered_unique ha.2 hb.2 fun o => ?_
    constructor
    · intro ho
      rcases List.mem_cons.1 ((h o).1 (by simp [ho])) with e | e
      · exact absurd (e ▸ ha.1 o ho) (irr _)
      · exact e
    · intro ho
      rcases List.mem_cons.1 ((h o).2 (by simp [ho])) with e | e
      · exact absurd (e ▸ hb.1 o ho) (irr _)
      · exact e

theorem mem_filtered {ins : List (List Byte × List (Nat × OpView))} {x : Nat × OpView} :
    x ∈ ((ins.map Prod.snd).filter fun l => !l.isEmpty).flatten ↔ ∃ i ∈ ins, x ∈ i.2 := by
  simp only [List.mem_flatten, List.mem_filter, List.mem_map]
  constructor
  · rintro ⟨l, ⟨⟨i, hi, rfl⟩, -⟩, hx⟩; exact ⟨i, hi, hx⟩
  · rintro ⟨i, hi, hx⟩
    refine ⟨i.2, ⟨⟨i, hi, rfl⟩, ?_⟩, hx⟩
    cases h : i.2 with
    | nil => rw [h] at hx; simp at hx
    | cons a l => rfl

/-- The merge of inputs in the order of ids, by either comparison. -/
theorem union_lists {lt : Cursor → Cursor → Bool} {lt' : Nat × OpView → Nat × OpView → Bool}
    (s : Sim At lt lt' fun x => x.2.id) (k : Keyed lt' sameOrd (fun x => x.2.id) Uuid.lt)
    {xss : List (List (Nat × OpView))} (hs : ∀ l ∈ xss, l.Pairwise fun a b => Uuid.lt a.2.id b.2.id = true)
    (h1 : ∀ x ∈ xss.flatten, ∀ y ∈ xss.flatten, x.2.id = y.2.id → x.2 = y.2) {out : List OpView}
    (ho : out.Pairwise fun a b => Uuid.lt a.id b.id = true) (hm : ∀ o, o ∈ out ↔ ∃ x ∈ xss.flatten, x.2 = o)
    {cs : List Cursor} (hcs : Same2 (Starts At) cs xss)
    (hc : CleanFrom copyHeadOk (mergedSteps out)) (hl : out.length < 2 ^ 31) :
    ∃ n b text b', mergeInto lt n Builder.init cs = .ok (some b) ∧ b.release = .ok (text, b') ∧
      FrameText Uuid.NIL text (saidBy (mergedSteps out)) ∧ NoOverlong text := by
  obtain ⟨o, e, m⟩ := merge_spec k xss hs
  have heq : o.map Prod.snd = out := by
    refine ordered_unique (List.pairwise_map.2 m.sorted) ho fun v => ?_
    rw [hm]
    constructor
    · intro hv
      obtain ⟨x, hx, rfl⟩ := List.mem_map.1 hv
      exact ⟨x, (m.sound x hx).1, rfl⟩
    · rintro ⟨x, hx, rfl⟩
      obtain ⟨y, hy, e⟩ := m.full x hx
      rw [List.mem_map]
      exact ⟨y, hy, h1 y (m.sound y hy).1 x hx e⟩
  obtain ⟨ds, N0, d1, d2⟩ := mergeInto_ok s sameOrd_iff hcs e
  have hf := merged_fits d1
  rw [heq] at hf
  obtain ⟨b, text, b', w1, w2, w3, w4⟩ := Builder.work_whole hf hc (by
    unfold mergedSteps; simp only [List.length_append, List.length_map, List.length_cons, List.length_nil]; omega)
  exact ⟨N0, b, text, b', d2 _ _ w1 (fun _ => rfl) N0 (Nat.le_refl _), w2, w3, w4 (merged_whole d1)⟩

/-- The merge of frames in the order of ids, by either comparison. -/
theorem union_ok {lt : Cursor → Cursor → Bool} {lt' : Nat × OpView → Nat × OpView → Bool}
    (s : Sim At lt lt' fun x => x.2.id) (k : Keyed lt' sameOrd (fun x => x.2.id) Uuid.lt)
    {ins : List (List Byte × List (Nat × OpView))} (hs : OrderedFrames ins) (h1 : OneOpPerId ins) {out : List OpView}
    (ho : UnionOf ins out) {cs : List Cursor}
    (hcs : Same2 (Starts At) cs ((ins.map Prod.snd).filter fun l => !l.isEmpty))
    (hc : CleanFrom copyHeadOk (mergedSteps out)) (hl : out.length < 2 ^ 31) :
    ∃ n b text b', mergeInto lt n Builder.init cs = .ok (some b) ∧ b.release = .ok (text, b') ∧
      FrameText Uuid.NIL text (saidBy (mergedSteps out)) ∧ NoOverlong text := by
  refine union_lists s k ?_ ?_ ho.sorted ?_ hcs hc hl
  · intro l hm
    obtain ⟨i, hi, rfl⟩ := List.mem_map.1 (List.mem_filter.1 hm).1
    exact hs i hi
  · intro x hx y hy e
    obtain ⟨i, hi, hx⟩ := mem_filtered.1 hx
    obtain ⟨j, hj, hy⟩ := mem_filtered.1 hy
    exact h1 i hi x hx j hj y hy e
  · intro o
    rw [ho.same]
    constructor
    · rintro ⟨i, hi, x, hx, rfl⟩; exact ⟨x, mem_filtered.2 ⟨i, hi, hx⟩, rfl⟩
    · rintro ⟨x, hx, rfl⟩
      obtain ⟨i, hi, hx⟩ := mem_filtered.1 hx
      exact ⟨i, hi, x, hx, rfl⟩

/-- The cursor is at one of the ops, of which the shape is looked at. -/
def AtS (L : List (Nat × OpView)) (c : Cursor) (a : AOp) : Prop := ∃ x ∈ L, At c x ∧ a = shape x.2

theorem atS_sim (L : List (Nat × OpView)) : Sim (AtS L) rgaLess Rdt.rgaLess AOp.id :=
  ⟨fun ⟨_, _, h, _⟩ => h.cs, fun ⟨_, _, h, _⟩ => h.size, fun ⟨_, _, h, e⟩ => by rw [h.id, e]; rfl,
   fun ⟨_, _, h1, e1⟩ ⟨_, _, h2, e2⟩ => by
     unfold rgaLess idLess Rdt.rgaLess; rw [h1.id, h2.id, e1, e2]; rfl⟩

theorem atS_ref {L : List (Nat × OpView)} {c : Cursor} {a : AOp} (h : AtS L c a) : c.ref = some a.ref := by
  obtain ⟨x, -, h, e⟩ := h
  rw [h.ref, e]; rfl

theorem same2_atS {L : List (Nat × OpView)} {m : List Cursor} {l : List (Nat × OpView)} (h : Same2 At m l)
    (hL : ∀ x ∈ l, x ∈ L) : Same2 (AtS L) m (l.map fun x => shape x.2) := by
  induction h with
  | nil => exact .nil
  | cons h _ ih => exact .cons ⟨_, hL _ (by simp), h, rfl⟩ (ih fun y hy => hL y (by simp [hy]))

theorem same2_atS' {L : List (Nat × OpView)} {m : List Cursor} {l : List AOp} (h : Same2 (AtS L) m l) :
    ∃ l', Same2 At m l' ∧ (∀ x ∈ l', x ∈ L) ∧ l = l'.map fun x => shape x.2 := by
  induction h with
  | nil => exact ⟨[], .nil, by simp, rfl⟩
  | cons h _ ih =>
    obtain ⟨x, hx, h, rfl⟩ := h
    obtain ⟨l', i1, i2, i3⟩ := ih
    refine ⟨x :: l', .cons h i1, ?_, by rw [i3]; rfl⟩
    intro y hy
    rcases List.mem_cons.1 hy with rfl | hy
    · exact hx
    · exact i2 y hy

theorem starts_atS {L : List (Nat × OpView)} {m : List Cursor} {l : List (List (Nat × OpView))}
    (h : Same2 (Starts At) m l) (hL : ∀ x ∈ l.flatten, x ∈ L) :
    Same2 (Starts (AtS L)) m (l.map (List.map fun x => shape x.2)) := by
  induction h with
  | nil => exact .nil
  | cons h _ ih =>
    obtain ⟨x, xs, rfl, m, st, ht, hd, hm⟩ := h
    refine .cons ⟨_, _, rfl, m, st, ht, ⟨x, hL _ (by simp), hd, rfl⟩, same2_atS hm fun y hy => hL _ (by simp [hy])⟩
      (ih fun y hy => hL _ ?_)
    rw [List.flatten_cons, List.mem_append]
    exact .inr hy

theorem map_inj_mem {α β : Type} {f : α → β} : ∀ {a b : List α}, a.map f = b.map f →
    (∀ x ∈ a, ∀ y ∈ b, f x = f y → x = y) → a = b
  | [], [], _, _ => rfl
  | [], _ :: _, h, _ => by simp at h
  | _ :: _, [], h, _ => by simp at h
  | x :: a, y :: b, h, hi => by
    simp only [List.map_cons, List.cons.injEq] at h
    rw [hi x (by simp) y (by simp) h.1,
      map_inj_mem h.2 fun u hu v hv => hi u (List.mem_cons_of_mem _ hu) v (List.mem_cons_of_mem _ hv)]

theorem nodup_inj {α β : Type} {f : α → β} : ∀ {l : List α}, (l.map f).Nodup → ∀ {x y : α}, x ∈ l → y ∈ l → f x = f y →
    x = y
  | [], _, _, _, h, _, _ => by simp at h
  | a :: l, hn, x, y, hx, hy, e => by
    rw [List.map_cons, List.nodup_cons] at hn
    rcases List.mem_cons.1 hx with hx | hx <;> rcases List.mem_cons.1 hy with hy | hy
    · rw [hx, hy]
    · exact absurd (List.mem_map.2 ⟨y, hy, by rw [← e, hx]⟩) hn.1
    · exact absurd (List.mem_map.2 ⟨x, hx, by rw [e, hy]⟩) hn.1
    · exact nodup_inj hn.2 hx hy e

theorem valid_length : ∀ ins : List (List AOp), (Rdt.valid ins).length ≤ ins.length
  | [] => by simp [Rdt.valid]
  | [] :: is => by have := valid_length is; simp only [Rdt.valid, List.length_cons]; omega
  | (_ :: _) :: is => by have := valid_length is; simp only [Rdt.valid, List.length_cons]; omega

/-- The merge of pieces of a tree. -/
theorem weave_lists {root : Uuid} {xss : List (List (Nat × OpView))}
    (ht : Tree (xss.flatten.map fun x => shape x.2) root)
    (hp : ∀ l ∈ xss, l ≠ [] ∧ Piece (xss.flatten.map fun x => shape x.2) root (l.map fun x => shape x.2))
    (h3 : xss.length ≤ 3) (hne : xss ≠ []) {w : List OpView} (hw : w.Perm (xss.flatten.map Prod.snd))
    (ho : InOrder (xss.flatten.map fun x => shape x.2) root (w.map shape)) {cs : List Cursor}
    (hcs : Same2 (Starts At) cs xss)
    (hc : CleanFrom copyHeadOk (mergedSteps w)) (hl : w.length < 2 ^ 31) :
    ∃ n b text b', rga n Builder.init cs = .ok (some (b, Status.OK)) ∧ b.release = .ok (text, b') ∧
      FrameText Uuid.NIL text (saidBy (mergedSteps w)) ∧ NoOverlong text := by
  have hs := starts_atS (L := xss.flatten) hcs fun _ h => h
  generalize hins : xss.map (List.map fun x => shape x.2) = ais at hs
  have hflat : ais.flatten = xss.flatten.map fun x => shape x.2 := by
    rw [← hins, List.map_flatten]
  have hfl := Rdt.flat_valid ais
  have hvne : Rdt.valid ais ≠ [] := by
    intro h
    rw [h] at hfl
    have h0 : ais.flatten = [] := by rw [← hfl]; rfl
    cases xss with
    | nil => exact hne rfl
    | cons i is =>
      have := (hp i (by simp)).1
      rw [hflat] at h0
      rw [List.map_eq_nil_iff, List.flatten_cons, List.append_eq_nil_iff] at h0
      exact this h0.1
  obtain ⟨w0, e, hw0⟩ := Rdt.rgaMerge_weave (root := root) (inputs := Rdt.valid ais) (by rw [hfl, hflat]; exact ht)
    (by
      intro c hc
      rw [hfl, hflat]
      have := Rdt.mem_valid.1 hc
      rw [← hins] at this
      obtain ⟨l, hl, e⟩ := List.mem_map.1 this
      rw [← e]
      exact (hp l hl).2) hvne
  rw [hfl, hflat] at hw0
  have hsh : (xss.flatten.map fun x => shape x.2) = (xss.flatten.map Prod.snd).map shape := by rw [List.map_map]; rfl
  have heq : w0 = w.map shape := Rdt.weave_unique ht hw0 ⟨by rw [hsh]; exact hw.map _, ho⟩
  have hlen : cs.length ≤ 3 := by
    have := same2_length hcs
    omega
  rcases rga_ok (atS_sim _) atS_ref hs with ⟨h, -⟩ | h
  · omega
  · obtain ⟨-, ds, N0, d1, d2⟩ := h _ e
    obtain ⟨l', a1, a2, a3⟩ := same2_atS' d1
    have hl' : l'.map Prod.snd = w := by
      refine map_inj_mem (f := shape) ?_ ?_
      · rw [List.map_map, ← heq]; exact a3.symm
      · intro x hx y hy e
        obtain ⟨z, hz, rfl⟩ := List.mem_map.1 hx
        have hzm : z.2 ∈ xss.flatten.map Prod.snd := List.mem_map.2 ⟨z, a2 z hz, rfl⟩
        have hn := ht.unique
        rw [hsh, List.map_map] at hn
        exact nodup_inj hn hzm (hw.mem_iff.1 hy) (congrArg AOp.id e)
    have hf := merged_fits a1
    rw [hl'] at hf
    obtain ⟨b, text, b', w1, w2, w3, w4⟩ := Builder.work_whole hf hc (by
      unfold mergedSteps; simp only [List.length_append, List.length_map, List.length_cons, List.length_nil]; omega)
    exact ⟨N0, b, text, b', d2 _ _ w1 N0 (Nat.le_refl _), w2, w3, w4 (merged_whole a1)⟩

/-- The merge of frames that are pieces of a tree. -/
theorem weave_ok {root : Uuid} {ins : List (List Byte × List (Nat × OpView))}
    (ht : Tree ((allOps ins).map shape) root)
    (hp : ∀ i ∈ ins, i.2 ≠ [] ∧ Piece ((allOps ins).map shape) root (i.2.map fun x => shape x.2))
    (h3 : ins.length ≤ 3) (hne : ins ≠ []) {w : List OpView} (hw : w.Perm (allOps ins))
    (ho : InOrder ((allOps ins).map shape) root (w.map shape)) {cs : List Cursor}
    (hcs : Same2 (Starts At) cs ((ins.map Prod.snd).filter fun l => !l.isEmpty))
    (hc : CleanFrom copyHeadOk (mergedSteps w)) (hl : w.length < 2 ^ 31) :
    ∃ n b text b', rga n Builder.init cs = .ok (some (b, Status.OK)) ∧ b.release = .ok (text, b') ∧
      FrameText Uuid.NIL text (saidBy (mergedSteps w)) ∧ NoOverlong text := by
  have hfil : ((ins.map Prod.snd).filter fun l => !l.isEmpty) = ins.map Prod.snd := by
    rw [List.filter_eq_self]
    intro l hm
    obtain ⟨i, hi, rfl⟩ := List.mem_map.1 hm
    have := (hp i hi).1
    cases h : i.2 with
    | nil => exact absurd h this
    | cons a l => rfl
  rw [hfil] at hcs
  have ha : allOps ins = (ins.map Prod.snd).flatten.map Prod.snd := by
    unfold allOps
    rw [List.map_flatten, List.map_map]
    rfl
  have hall : ((ins.map Prod.snd).flatten.map fun x => shape x.2) = (allOps ins).map shape := by
    rw [ha, List.map_map]; rfl
  refine weave_lists (by rw [hall]; exact ht) ?_ (by simpa using h3) (by simpa using hne) (by rw [← ha]; exact hw)
    (by rw [hall]; exact ho) hcs hc hl
  intro l hm
  obtain ⟨i, hi, rfl⟩ := List.mem_map.1 hm
  rw [hall]
  exact hp i hi

/-- `GetForm`: one name among the references of the first ops. -/
theorem getForm_name {u : Uuid} (hu : u.version = Uuid.vNAME) (hz : u.zero = false) :
    ∀ {ins : List (List AOp)} {form : Uuid}, (∀ i ∈ ins, ∀ o, i.head? = some o → o.ref.version = Uuid.vNAME → o.ref = u) →
    (form = u ∨ form.zero = true) →
    Rdt.getForm form ins = some (uuid2form (if ∃ i ∈ ins, ∃ o, i.head? = some o ∧ o.ref = u then u else form))
  | [], form, _, _ => by simp [Rdt.getForm]
  | [] :: ins, form, h, hf => by
    rw [Rdt.getForm, getForm_name hu hz (fun i hi => h i (by simp [hi])) hf]
    simp
  | (o :: l) :: ins, form, h, hf => by
    have ih := fun {form} => getForm_name hu hz (ins := ins) (form := form) fun i hi => h i (List.mem_cons_of_mem _ hi)
    have hh := h (o :: l) (by simp) o rfl
    rw [Rdt.getForm]
    by_cases hv : o.ref.version = Uuid.vNAME
    · have hr := hh hv
      have he : (if ∃ i ∈ (o :: l) :: ins, ∃ o, i.head? = some o ∧ o.ref = u then u else form) = u :=
        if_pos ⟨o :: l, by simp, o, rfl, hr⟩
      rw [if_neg (fun e => e hv), hr, he]
      have hg : Rdt.getForm u ins = some (uuid2form u) := by
        rw [ih (.inl rfl)]
        simp
      split
      · exact hg
      · rename_i hz'
        rcases hf with rfl | hf
        · rw [if_neg (by simp)]; exact hg
        · exact absurd hf hz'
    · rw [if_pos hv, ih hf]
      have hr : o.ref ≠ u := fun e => hv (e ▸ hu)
      congr 3
      simp [hr]

/-- One of the first ops has the reference, a name. -/
def Names (ins : List (List AOp)) (u : Uuid) : Prop := ∃ i ∈ ins, ∃ o, i.head? = some o ∧ o.ref = u

theorem names_cons {o : AOp} {l : List AOp} {ins : List (List AOp)} {u : Uuid} (h : Names ((o :: l) :: ins) u)
    (hn : o.ref ≠ u) : Names ins u := by
  obtain ⟨i, hi, o', ho, e⟩ := h
  rcases List.mem_cons.1 hi with rfl | hi
  · injection ho with ho
    exact absurd (ho ▸ e) hn
  · exact ⟨i, hi, o', ho, e⟩

theorem names_nil {ins : List (List AOp)} {u : Uuid} (h : Names ([] :: ins) u) : Names ins u := by
  obtain ⟨i, hi, o', ho, e⟩ := h
  rcases List.mem_cons.1 hi with rfl | hi
  · simp at ho
  · exact ⟨i, hi, o', ho, e⟩

theorem getForm_other {form u : Uuid} (hu : u.version = Uuid.vNAME) (hz : form.zero = false) (hne : form ≠ u) :
    ∀ {ins : List (List AOp)}, Names ins u → Rdt.getForm form ins = none
  | [], h => by obtain ⟨i, hi, -⟩ := h; simp at hi
  | [] :: ins, h => by rw [Rdt.getForm]; exact getForm_other hu hz hne (names_nil h)
  | (o :: l) :: ins, h => by
    rw [Rdt.getForm]
    by_cases hr : o.ref = u
    · rw [if_neg (fun e => e (hr ▸ hu)), hz, if_neg (by simp), if_pos (fun e => hne (e.trans hr))]
    · have ih := getForm_other hu hz hne (names_cons h hr)
      split
      · exact ih
      · rw [hz, if_neg (by simp)]
        split
        · rfl
        · exact ih

/-- `GetForm`: two names. -/
theorem getForm_clash {u v : Uuid} (hu : u.version = Uuid.vNAME) (hv : v.version = Uuid.vNAME) (zu : u.zero = false)
    (zv : v.zero = false) (hne : u ≠ v) : ∀ {ins : List (List AOp)} {form : Uuid}, form.zero = true → Names ins u →
    Names ins v → Rdt.getForm form ins = none
  | [], _, _, h, _ => by obtain ⟨i, hi, -⟩ := h; simp at hi
  | [] :: ins, form, hz, h, h' => by
    rw [Rdt.getForm]; exact getForm_clash hu hv zu zv hne hz (names_nil h) (names_nil h')
  | (o :: l) :: ins, form, hz, h, h' => by
    rw [Rdt.getForm]
    by_cases hn : o.ref.version = Uuid.vNAME
    · rw [if_neg (fun e => e hn), if_pos hz]
      by_cases h1 : o.ref = u
      · rw [h1]; exact getForm_other hv zu hne (names_cons h' (h1 ▸ hne))
      · by_cases h2 : o.ref = v
        · rw [h2]; exact getForm_other hu zv (Ne.symm hne) (names_cons h h1)
        · cases h3 : o.ref.zero with
          | true => exact getForm_clash hu hv zu zv hne h3 (names_cons h h1) (names_cons h' h2)
          | false => exact getForm_other hu h3 h1 (names_cons h h1)
    · rw [if_pos hn]
      exact getForm_clash hu hv zu zv hne hz (names_cons h fun e => hn (e ▸ hu)) (names_cons h' fun e => hn (e ▸ hv))

end Ron.TextMerge
