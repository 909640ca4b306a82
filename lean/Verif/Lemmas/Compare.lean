import Verif.Spec.Compare
import Verif.Lemmas.Cursor
/-!
Comparison of frames.
-/
namespace Ron.Cursor
open Spec

/-- The ops that a cursor is going to pass, its own first. -/
inductive Chain : Cursor → List Cursor → Prop
  | stop {c} : c.valid = false → Chain c []
  | more {c c' st l} : c.valid = true → next c = .ok (c', st) → Chain c' l → Chain c (c :: l)

theorem valid_iff {c : Cursor} : c.valid = true ↔ c.cs ≠ 0 := by
  unfold valid; simp

theorem next_valid {buf : List Byte} {cur cur' : Cursor} {st : NextStatus} (b : Basic buf cur)
    (hs : cur.span ≠ 0 → cur.cs ≠ 0) (h : next cur = .ok (cur', st)) :
    (st = .ok → cur'.cs ≠ 0) ∧ (st ≠ .ok → cur'.cs = 0) := by
  refine ⟨fun e => ?_, fun e => ((next_cases b h).2.2 e).2.1⟩
  by_cases h0 : cur.span = 0
  · have key : ∀ s, parseFrom cur s = .ok (cur', st) → cur'.cs ≠ 0 := by
      intro s hp
      unfold parseFrom at hp
      split at hp
      · simp only [Out.ok.injEq, Prod.mk.injEq] at hp
        rw [← hp.2] at e; cases e
      · cases hr : TextParser.run cur.buf (cur.buf.drop cur.beg) s (startRegs cur) with
        | ok x =>
          obtain ⟨s', r'⟩ := x
          rw [hr] at hp
          simp only [Out.bind] at hp
          unfold finish at hp
          simp only at hp
          split at hp
          · rename_i hc
            cases ht : chr2term r'.term with
            | ok t =>
              rw [ht] at hp
              simp only [Out.bind, Out.ok.injEq, Prod.mk.injEq] at hp
              rw [← hp.1]; exact hc.2
            | abort => rw [ht] at hp; simp [Out.bind] at hp
            | ub => rw [ht] at hp; simp [Out.bind] at hp
          · split at hp
            · simp only [Out.ok.injEq, Prod.mk.injEq] at hp
              rw [← hp.2] at e; cases e
            · split at hp
              · simp only [Out.ok.injEq, Prod.mk.injEq] at hp
                rw [← hp.2] at e; cases e
              · cases hp
        | abort => rw [hr] at hp; simp [Out.bind] at hp
        | ub => rw [hr] at hp; simp [Out.bind] at hp
    unfold next at h
    rw [if_neg (by simp [h0])] at h
    split at h
    · split at h
      · simp only [Out.ok.injEq, Prod.mk.injEq] at h
        rw [← h.2] at e; cases e
      · exact key _ h
    · split at h
      · simp only [Out.ok.injEq, Prod.mk.injEq] at h
        rw [← h.2] at e; cases e
      · exact key _ h
  · rw [(next_span h0 h).2.2.2.1]; exact hs h0

theorem iterate_chain {buf : List Byte} : ∀ (fuel : Nat) (cur : Cursor) (l : List Cursor)
    (st : NextStatus), Basic buf cur → (cur.span ≠ 0 → cur.cs ≠ 0) →
    iterate fuel cur = .ok (some (l, st)) →
    ∃ c1 st1, next cur = .ok (c1, st1) ∧ Chain c1 l ∧ (l = [] → st1 = st ∧ st ≠ .ok) ∧
      (l ≠ [] → st1 = .ok) := by
  intro fuel
  induction fuel with
  | zero => intro cur l st _ _ h; cases h
  | succ fuel ih =>
    intro cur l st b hs h
    simp only [iterate] at h
    cases hn : next cur with
    | ok x =>
      obtain ⟨c1, st1⟩ := x
      rw [hn] at h
      simp only [Out.bind] at h
      have hv := next_valid b hs hn
      refine ⟨c1, st1, rfl, ?_⟩
      cases st1 with
      | ok =>
        simp only at h
        have hc := hv.1 rfl
        cases hi : iterate fuel c1 with
        | ok y =>
          rw [hi] at h
          cases y with
          | none => simp at h
          | some y =>
            obtain ⟨l', st'⟩ := y
            simp only [Option.map_some, Out.ok.injEq, Option.some.injEq, Prod.mk.injEq] at h
            obtain ⟨rfl, rfl⟩ := h
            obtain ⟨c2, st2, h1, h2, _, _⟩ := ih c1 l' st' (next_cases b hn).1 (fun _ => hc) hi
            exact ⟨.more (valid_iff.2 hc) h1 h2, fun e => (by cases e), fun _ => rfl⟩
        | abort => rw [hi] at h; simp at h
        | ub => rw [hi] at h; simp at h
      | endOfFrame =>
        simp only [Out.ok.injEq, Option.some.injEq, Prod.mk.injEq] at h
        obtain ⟨rfl, rfl⟩ := h
        refine ⟨.stop ?_, fun _ => ⟨rfl, by decide⟩, fun e => absurd rfl e⟩
        have := hv.2 (by decide)
        unfold valid; simp [this]
      | badState =>
        simp only [Out.ok.injEq, Option.some.injEq, Prod.mk.injEq] at h
        obtain ⟨rfl, rfl⟩ := h
        refine ⟨.stop ?_, fun _ => ⟨rfl, by decide⟩, fun e => absurd rfl e⟩
        have := hv.2 (by decide)
        unfold valid; simp [this]
    | abort => rw [hn] at h; simp [Out.bind] at h
    | ub => rw [hn] at h; simp [Out.bind] at h

theorem bind_ok {α β : Type} {o : Out α} {f : α → Out β} {b : β} (h : o.bind f = .ok b) :
    ∃ a, o = .ok a ∧ f a = .ok b := by
  cases o with
  | ok a => exact ⟨a, rfl, h⟩
  | abort => cases h
  | ub => cases h

/-! ### one op -/

variable {feq : List Byte → List Byte → Bool}

/-- Two atoms that can be read are compared as they are read. -/
theorem sameAtom_iff {a b : Cursor} {x y : Atom} {vx vy : View} (hx : viewAtom a x = .ok vx)
    (hy : viewAtom b y = .ok vy) :
    ∃ e, sameAtom feq a b x y = .ok e ∧ (e = true ↔ View.Same feq vx vy) := by
  have h4 : ∀ z : Atom, Atom.type z < 4 := by
    intro z; unfold Atom.type; have := z.origin.isLt; omega
  unfold viewAtom at hx hy
  unfold sameAtom parsed
  have tx := h4 x
  have ty := h4 y
  have hcase : ∀ t, t < 4 → t = Atom.tUUID ∨ t = Atom.tINT ∨ t = Atom.tSTRING ∨ t = Atom.tFLOAT := by
    decide
  have view : ∀ {c : Cursor} {z : Atom} {v : View},
      (if Atom.type z = Atom.tINT then
        (atomData c.buf z).bind fun d => (Out.ofOption (parseInteger d)).bind fun v => Out.ok (View.int v)
       else if Atom.type z = Atom.tFLOAT then (floatText c.buf z).bind fun d => .ok (.float d)
       else if Atom.type z = Atom.tSTRING then (readString c.buf z).bind fun s => .ok (.text s)
       else .ok (.uuid z)) = .ok v →
      (Atom.type z = Atom.tUUID ∧ v = .uuid z) ∨
      (Atom.type z = Atom.tINT ∧ ∃ d i, atomData c.buf z = .ok d ∧ parseInteger d = some i ∧
        v = .int i) ∨
      (Atom.type z = Atom.tSTRING ∧ ∃ s, readString c.buf z = .ok s ∧ v = .text s) ∨
      (Atom.type z = Atom.tFLOAT ∧ ∃ s, floatText c.buf z = .ok s ∧ v = .float s) := by
    intro c z v h
    rcases hcase _ (h4 z) with ht | ht | ht | ht
    · rw [ht] at h
      simp only [Atom.tUUID, Atom.tINT, Atom.tSTRING, Atom.tFLOAT] at h
      simp at h
      exact .inl ⟨ht, h.symm⟩
    · rw [if_pos ht] at h
      obtain ⟨d, h1, h2⟩ := bind_ok h
      obtain ⟨i, h3, h5⟩ := bind_ok h2
      refine .inr (.inl ⟨ht, d, i, h1, ?_, by cases h5; rfl⟩)
      cases hp : parseInteger d with
      | none => rw [hp] at h3; cases h3
      | some j => rw [hp] at h3; cases h3; rfl
    · rw [if_neg (by rw [ht]; decide), if_neg (by rw [ht]; decide), if_pos ht] at h
      obtain ⟨d, h1, h2⟩ := bind_ok h
      exact .inr (.inr (.inl ⟨ht, d, h1, by cases h2; rfl⟩))
    · rw [if_neg (by rw [ht]; decide), if_pos ht] at h
      obtain ⟨d, h1, h2⟩ := bind_ok h
      exact .inr (.inr (.inr ⟨ht, d, h1, by cases h2; rfl⟩))
  have hx' := view hx
  have hy' := view hy
  clear hx hy view h4 tx ty hcase
  rcases hx' with ⟨ht, rfl⟩ | ⟨ht, d, i, h1, h2, rfl⟩ | ⟨ht, s, h1, rfl⟩ | ⟨ht, s, h1, rfl⟩ <;>
    rcases hy' with ⟨ht', rfl⟩ | ⟨ht', d', j, h1', h2', rfl⟩ | ⟨ht', s', h1', rfl⟩ |
      ⟨ht', s', h1', rfl⟩ <;>
    simp_all [Atom.tUUID, Atom.tINT, Atom.tSTRING, Atom.tFLOAT, Out.bind, Out.ofOption, View.Same]

theorem collect_cons {α β : Type} {f : α → Out β} {a : α} {as : List α} {l : List β}
    (h : collect f (a :: as) = .ok l) :
    ∃ b bs, f a = .ok b ∧ collect f as = .ok bs ∧ l = b :: bs := by
  simp only [collect] at h
  obtain ⟨b, h1, h2⟩ := bind_ok h
  obtain ⟨bs, h3, h4⟩ := bind_ok h2
  cases h4
  exact ⟨b, bs, h1, h3, rfl⟩

theorem collect_nil {α β : Type} {f : α → Out β} {l : List β} (h : collect f [] = .ok l) :
    l = [] := by cases h; rfl

theorem same2_nil_left {α β : Type} {R : α → β → Prop} {l : List β} (h : Same2 R [] l) : l = [] := by
  cases h; rfl

theorem same2_cons {α β : Type} {R : α → β → Prop} {a : α} {b : β} {as : List α} {bs : List β} :
    Same2 R (a :: as) (b :: bs) ↔ R a b ∧ Same2 R as bs :=
  ⟨fun h => by cases h with | cons h1 h2 => exact ⟨h1, h2⟩, fun h => .cons h.1 h.2⟩

theorem same2_length {α β : Type} {R : α → β → Prop} {as : List α} {bs : List β}
    (h : Same2 R as bs) : as.length = bs.length := by
  induction h with
  | nil => rfl
  | cons _ _ ih => simp [ih]

theorem collect_length {α β : Type} {f : α → Out β} {as : List α} {l : List β}
    (h : collect f as = .ok l) : l.length = as.length := by
  induction as generalizing l with
  | nil => rw [collect_nil h]; rfl
  | cons a as ih => obtain ⟨b, bs, _, h2, rfl⟩ := collect_cons h; simp [ih h2]

theorem sameAtoms_iff {a b : Cursor} : ∀ {xs ys : List Atom} {vx vy : List View},
    xs.length = ys.length → collect (viewAtom a) xs = .ok vx → collect (viewAtom b) ys = .ok vy →
    ∃ e, sameAtoms feq a b xs ys = .ok e ∧ (e = true ↔ Same2 (View.Same feq) vx vy) := by
  intro xs
  induction xs with
  | nil =>
    intro ys vx vy hl hx hy
    cases ys with
    | nil => rw [collect_nil hx, collect_nil hy]; exact ⟨true, rfl, by simp [Same2.nil]⟩
    | cons y ys => cases hl
  | cons x xs ih =>
    intro ys vx vy hl hx hy
    cases ys with
    | nil => cases hl
    | cons y ys =>
      obtain ⟨v, vs, h1, h2, rfl⟩ := collect_cons hx
      obtain ⟨w, ws, h3, h4, rfl⟩ := collect_cons hy
      obtain ⟨e, h5, h6⟩ := sameAtom_iff (feq := feq) h1 h3
      simp only [sameAtoms, h5, Out.bind, same2_cons]
      cases e with
      | true =>
        obtain ⟨e', h7, h8⟩ := ih (by simpa using hl) h2 h4
        simp only [if_true]
        exact ⟨e', h7, by rw [h8]; simp [h6.1 rfl]⟩
      | false =>
        refine ⟨false, rfl, ?_⟩
        constructor
        · intro h; cases h
        · intro h; exact (h6.2 h.1)

theorem compareOps_iff {a b : Cursor} {va vb : OpView} (ha : viewOp a = .ok va)
    (hb : viewOp b = .ok vb) :
    ∃ st, compareOps feq a b = .ok st ∧ (st.ok = true ↔ OpView.Same feq va vb) ∧
      (st.ok = true → st = .OK) := by
  unfold viewOp at ha hb
  unfold compareOps
  split at ha
  · rename_i ia ra xs ea
    split at hb
    · rename_i ib rb ys eb
      obtain ⟨vx, h1, h2⟩ := bind_ok ha
      obtain ⟨vy, h3, h4⟩ := bind_ok hb
      cases h2; cases h4
      rw [ea, eb]
      simp only
      by_cases c1 : ia = ib
      · rw [if_neg (by simpa using c1)]
        by_cases c2 : ra = rb
        · rw [if_neg (by simpa using c2)]
          by_cases c3 : xs.length = ys.length
          · rw [if_neg (by simpa using c3)]
            obtain ⟨e, h5, h6⟩ := sameAtoms_iff (feq := feq) c3 h1 h3
            rw [h5]
            refine ⟨_, rfl, ?_, ?_⟩
            · constructor
              · intro h
                cases e with
                | true => exact ⟨c1, c2, h6.1 rfl⟩
                | false => exact absurd h (by decide)
              · intro h
                rw [h6.2 h.vals]; decide
            · intro h
              cases e with
              | true => rfl
              | false => exact absurd h (by decide)
          · rw [if_pos (by simpa using c3)]
            refine ⟨_, rfl, ⟨fun h => absurd h (by decide), fun h => ?_⟩,
              fun h => absurd h (by decide)⟩
            have := same2_length h.vals
            simp only [collect_length h1, collect_length h3] at this
            exact absurd this c3
        · rw [if_pos (by simpa using c2)]
          exact ⟨_, rfl, ⟨fun h => absurd h (by decide), fun h => absurd h.ref c2⟩,
            fun h => absurd h (by decide)⟩
      · rw [if_pos (by simpa using c1)]
        exact ⟨_, rfl, ⟨fun h => absurd h (by decide), fun h => absurd h.id c1⟩,
          fun h => absurd h (by decide)⟩
    · cases hb
  · cases ha

/-! ### all the ops -/

theorem viewOp_id {c : Cursor} {v : OpView} (h : viewOp c = .ok v) : c.id = some v.id := by
  unfold viewOp at h
  split at h
  · rename_i i r xs e
    obtain ⟨vs, _, h2⟩ := bind_ok h
    cases h2
    unfold Cursor.id
    rw [e]; rfl
  · cases h

/-- Passing over comments. -/
theorem skip_chain : ∀ (l : List Cursor) (a : Cursor) (vs : List OpView) (fuel : Nat), Chain a l →
    collect viewOp l = .ok vs → l.length < fuel →
    ∃ a' l' vs', skipComments fuel a = .ok (some a') ∧ Chain a' l' ∧ collect viewOp l' = .ok vs' ∧
      events vs' = events vs ∧ l'.length ≤ l.length ∧ (∀ c, l'.head? = some c → c = a') ∧
      (∀ v, vs'.head? = some v → v.id ≠ COMMENT) := by
  intro l
  induction l with
  | nil =>
    intro a vs fuel hc hv hf
    cases fuel with
    | zero => simp at hf
    | succ fuel =>
    cases hc with
    | stop h =>
      refine ⟨a, [], vs, ?_, .stop h, hv, rfl, Nat.le_refl _, by simp, ?_⟩
      · simp only [skipComments, h]; rfl
      · rw [collect_nil hv]; simp
  | cons x l ih =>
    intro a vs fuel hc hv hf
    cases fuel with
    | zero => simp at hf
    | succ fuel =>
    cases hc with
    | more h1 h2 h3 =>
      obtain ⟨v, vs, hv1, hv2, rfl⟩ := collect_cons hv
      simp only [skipComments, h1, viewOp_id hv1, true_and]
      by_cases hid : v.id = COMMENT
      · rw [if_pos (by rw [hid])]
        simp only [h2, Out.bind]
        obtain ⟨a', l', vs', i1, i2, i3, i4, i5, i6, i7⟩ :=
          ih _ vs fuel h3 hv2 (by simp only [List.length_cons] at hf; omega)
        refine ⟨a', l', vs', i1, i2, i3, ?_, by simp only [List.length_cons]; omega, i6, i7⟩
        rw [i4]
        simp [events, hid]
      · rw [if_neg (by simpa using hid)]
        refine ⟨x, x :: l, v :: vs, rfl, .more h1 h2 h3, hv, rfl, Nat.le_refl _, ?_, ?_⟩
        · intro c hc; simpa using hc.symm
        · intro w hw; simp only [List.head?_cons, Option.some.injEq] at hw; rw [← hw]; exact hid

theorem chain_valid {a : Cursor} {l : List Cursor} (h : Chain a l) : a.valid = true ↔ l ≠ [] := by
  cases h with
  | stop h => simp [h]
  | more h _ _ => simp [h]

theorem collect_nil_iff {α β : Type} {f : α → Out β} {as : List α} {l : List β}
    (h : collect f as = .ok l) : l = [] ↔ as = [] := by
  rw [← List.length_eq_zero_iff, ← List.length_eq_zero_iff, collect_length h]

/-- A list that begins with an event, or is empty, has events or is empty. -/
theorem events_nil {vs : List OpView} (h : ∀ v, vs.head? = some v → v.id ≠ COMMENT) :
    events vs = [] ↔ vs = [] := by
  cases vs with
  | nil => simp [events]
  | cons v vs => simp [events, h v rfl]

theorem same2_nil_iff {α β : Type} {R : α → β → Prop} {as : List α} {bs : List β}
    (h : as = [] ∨ bs = []) : Same2 R as bs ↔ as = [] ∧ bs = [] := by
  constructor
  · intro hs
    cases hs with
    | nil => exact ⟨rfl, rfl⟩
    | cons _ _ => rcases h with h | h <;> cases h
  · rintro ⟨rfl, rfl⟩; exact .nil

/-- The end of the comparison. -/
theorem tail_chain {a b : Cursor} {la lb : List Cursor} {va vb : List OpView} {fuel : Nat}
    (hla : Chain a la) (hlb : Chain b lb) (ha : collect viewOp la = .ok va)
    (hb : collect viewOp lb = .ok vb) (hfa : la.length < fuel) (hfb : lb.length < fuel)
    (h0 : events va = [] ∨ events vb = []) :
    ∃ st, compareTail fuel a b = .ok (some st) ∧
      (st = .OK ↔ Same2 (OpView.Same feq) (events va) (events vb)) ∧ (st.ok = true → st = .OK) := by
  obtain ⟨a', la', va', i1, i2, i3, i4, _, _, i7⟩ := skip_chain la a va fuel hla ha hfa
  obtain ⟨b', lb', vb', j1, j2, j3, j4, _, _, j7⟩ := skip_chain lb b vb fuel hlb hb hfb
  unfold compareTail
  simp only [i1, j1, Out.bind]
  refine ⟨_, rfl, ?_, ?_⟩
  · rw [same2_nil_iff h0, ← i4, ← j4, events_nil i7, events_nil j7, collect_nil_iff i3,
      collect_nil_iff j3]
    have h1 := chain_valid i2
    have h2 := chain_valid j2
    cases e1 : a'.valid <;> cases e2 : b'.valid <;> simp only [e1, e2] at h1 h2 ⊢ <;>
      simp_all <;> decide
  · cases a'.valid <;> cases b'.valid <;> simp <;> decide

/-- The comparison of two cursors compares the events that they are going to pass. -/
theorem compare_chain : ∀ (fuel : Nat) (a b : Cursor) (la lb : List Cursor) (va vb : List OpView),
    Chain a la → Chain b lb → collect viewOp la = .ok va → collect viewOp lb = .ok vb →
    la.length < fuel → lb.length < fuel →
    ∃ st, compareCursors feq fuel a b = .ok (some st) ∧
      (st = .OK ↔ Same2 (OpView.Same feq) (events va) (events vb)) ∧ (st.ok = true → st = .OK) := by
  intro fuel
  induction fuel with
  | zero => intro a b la lb va vb _ _ _ _ h; omega
  | succ fuel ih =>
    intro a b la lb va vb hla hlb ha hb hfa hfb
    simp only [compareCursors]
    cases hv : a.valid && b.valid with
    | false =>
      simp only [Bool.false_eq_true, if_false]
      refine tail_chain hla hlb ha hb hfa hfb ?_
      have h1 := chain_valid hla
      have h2 := chain_valid hlb
      rcases Bool.and_eq_false_iff.1 hv with e | e
      · left
        have : la = [] := by
          apply Classical.byContradiction
          intro hn; rw [h1.2 hn] at e; cases e
        rw [this] at ha; rw [collect_nil ha]; rfl
      · right
        have : lb = [] := by
          apply Classical.byContradiction
          intro hn; rw [h2.2 hn] at e; cases e
        rw [this] at hb; rw [collect_nil hb]; rfl
    | true =>
      simp only [if_true]
      obtain ⟨a', la', va', i1, i2, i3, i4, i5, i6, i7⟩ := skip_chain la a va _ hla ha hfa
      obtain ⟨b', lb', vb', j1, j2, j3, j4, j5, j6, j7⟩ := skip_chain lb b vb _ hlb hb hfb
      simp only [i1, j1, Out.bind]
      rw [← i4, ← j4]
      cases i2 with
      | stop e =>
        simp only [e, Bool.not_false, Bool.true_or, if_true]
        exact tail_chain (.stop e) j2 i3 j3 (by simp) (by omega)
          (.inl (by rw [collect_nil i3]; rfl))
      | @more _ c st l h1 h2 h3 =>
        cases j2 with
        | stop e =>
          simp only [e, Bool.not_false, Bool.or_true, if_true]
          exact tail_chain (.more h1 h2 h3) (.stop e) i3 j3 (by omega) (by simp)
            (.inr (by rw [collect_nil j3]; rfl))
        | @more _ d st' m k1 k2 k3 =>
          simp only [h1, k1, Bool.not_true, Bool.or_self, Bool.false_eq_true, if_false]
          obtain ⟨v, vs, p1, p2, rfl⟩ := collect_cons i3
          obtain ⟨w, ws, q1, q2, rfl⟩ := collect_cons j3
          obtain ⟨s, r1, r2, r3⟩ := compareOps_iff (feq := feq) p1 q1
          simp only [r1]
          have ev : events (v :: vs) = v :: events vs := by simp [events, i7 v rfl]
          have ew : events (w :: ws) = w :: events ws := by simp [events, j7 w rfl]
          rw [ev, ew, same2_cons]
          cases hs : s.ok with
          | false =>
            simp only [Bool.not_false, if_true]
            refine ⟨s, rfl, ⟨fun e => ?_, fun e => ?_⟩, fun e => by rw [hs] at e; cases e⟩
            · rw [e] at hs; exact absurd hs (by decide)
            · rw [r2.2 e.1] at hs; cases hs
          | true =>
            simp only [Bool.not_true, Bool.false_eq_true, if_false, h2, k2]
            obtain ⟨st, t1, t2, t3⟩ := ih c d l m vs ws h3 k3 p2 q2
              (by simp only [List.length_cons] at i5; omega)
              (by simp only [List.length_cons] at j5; omega)
            exact ⟨st, t1, by rw [t2]; simp [r2.1 hs], t3⟩

end Ron.Cursor

/-! ### every frame can be read -/
namespace Ron.Cursor
open Spec

theorem readCps_safe {buf : List Byte} (hn : buf.length < 2 ^ 30) : ∀ (fuel : Nat) (a : Atom),
    Atom.type a = Atom.tSTRING → AtomOk buf a → Atom.RawOk a → ∃ cs, readCps buf fuel a = .ok cs := by
  intro fuel
  induction fuel with
  | zero => intro a _ _ _; exact ⟨[], rfl⟩
  | succ fuel ih =>
    intro a ht hok hr
    obtain ⟨a', b, h1, h2, h3, h4⟩ := nextCodepoint_safe hn ht hok hr
    obtain ⟨cs, hcs⟩ := ih a' h2 h3 h4
    simp only [readCps, h1, Out.bind]
    cases b with
    | true => exact ⟨a'.cp :: cs, by simp [hcs]⟩
    | false => exact ⟨[], by simp⟩

theorem viewAtom_safe {buf : List Byte} {cur : Cursor} {a : Atom} (hn : buf.length < 2 ^ 30)
    (hb : cur.buf = buf) (h : AtomOk buf a) (hr : Atom.type a = Atom.tSTRING → Atom.RawOk a) :
    ∃ v, viewAtom cur a = .ok v := by
  unfold viewAtom
  rw [hb]
  split
  · rename_i ht
    obtain ⟨h1, h2, ⟨v, hv⟩, h4⟩ := h.int ht
    rw [atomData_ok h1 h2]
    simp only [Out.bind, (Props.C16_exact _ _ hv h4).1, Out.ofOption]
    exact ⟨_, rfl⟩
  · split
    · rename_i ht
      obtain ⟨h1, h2, h3⟩ := h.float ht
      unfold floatText
      rw [atomData_ok h1 h2]
      have := slice_length (buf := buf) (m := Atom.rBegin a) h2
      simp only [Out.bind]
      rw [if_pos (by omega)]
      exact ⟨_, rfl⟩
    · split
      · rename_i ht
        unfold readString
        split
        · exact ⟨_, rfl⟩
        · obtain ⟨cs, hcs⟩ := readCps_safe hn (a.cpSize + 1) a ht h (hr ht)
          rw [hcs]
          exact ⟨_, rfl⟩
      · exact ⟨_, rfl⟩

theorem collect_all {α β : Type} {f : α → Out β} {as : List α} (h : ∀ a ∈ as, ∃ b, f a = .ok b) :
    ∃ bs, collect f as = .ok bs := by
  induction as with
  | nil => exact ⟨[], rfl⟩
  | cons a as ih =>
    obtain ⟨b, hb⟩ := h a (by simp)
    obtain ⟨bs, hbs⟩ := ih fun x hx => h x (by simp [hx])
    exact ⟨b :: bs, by simp [collect, hb, hbs, Out.bind]⟩

theorem viewOp_safe {buf : List Byte} {cur : Cursor} (hn : buf.length < 2 ^ 30)
    (hb : cur.buf = buf) (h : OpOk buf cur.op) : ∃ v, viewOp cur = .ok v := by
  obtain ⟨i, r, vals, e, _, _, hv⟩ := h
  obtain ⟨vs, hvs⟩ := collect_all (f := viewAtom cur) (as := vals) fun a ha =>
    viewAtom_safe hn hb (hv a ha).1 (hv a ha).2
  unfold viewOp
  rw [e]
  simp only [hvs, Out.bind]
  exact ⟨_, rfl⟩

theorem iterate_safe {buf : List Byte} (hn : buf.length < 10 ^ 9 - 1) (hl : ¬ LongWord buf) :
    ∀ (fuel : Nat) (cur : Cursor), Safe buf cur →
    iterate fuel cur = .ok none ∨ ∃ l st vs, iterate fuel cur = .ok (some (l, st)) ∧
      collect viewOp l = .ok vs := by
  intro fuel
  induction fuel with
  | zero => intro cur _; exact .inl rfl
  | succ fuel ih =>
    intro cur hs
    rcases next_safe hn hs with ⟨_, h⟩ | ⟨c, st, h1, h2, h3⟩
    · exact absurd h hl
    · simp only [iterate, h1, Out.bind]
      cases st with
      | ok =>
        simp only
        rcases ih c h2 with h | ⟨l, st, vs, h4, h5⟩
        · rw [h]; exact .inl rfl
        · rw [h4]
          obtain ⟨v, hv⟩ := viewOp_safe (by omega) h2.basic.buf (h3 rfl)
          exact .inr ⟨c :: l, st, v :: vs, rfl, by simp [collect, hv, h5, Out.bind]⟩
      | endOfFrame => exact .inr ⟨[], _, [], rfl, rfl⟩
      | badState => exact .inr ⟨[], _, [], rfl, rfl⟩

end Ron.Cursor
