import Verif.Lemmas.Compare
import Verif.Model.Chains
/-!
Parsing an op depends on the text up to its end only: on a frame cut after the op, the parser
does the same.
-/
namespace Ron
open Spec

attribute [local irreducible] Atom.type Atom.rBegin Atom.rEnd Atom.cp Atom.cpSize Atom.setCp
  Atom.setCpSize Atom.consume Atom.ofRange Atom.rawValid Uuid.inc

theorem slice_take {buf : List Byte} {n b e : Nat} (h : e ≤ n) :
    slice (buf.take n) b e = slice buf b e := by
  unfold slice
  rw [List.drop_take, List.take_take]
  congr 1
  omega

theorem atomData_take {buf : List Byte} {n : Nat} {a : Atom} {d : List Byte}
    (h : atomData (buf.take n) a = .ok d) : atomData buf a = .ok d := by
  unfold atomData at h ⊢
  split at h
  · cases h
  · rename_i h1
    rw [if_neg h1]
    split at h
    · cases h
    · rename_i h2
      rw [List.length_take] at h2
      rw [if_neg (by omega), ← slice_take (n := n) (by omega)]
      exact h

theorem nextCodepoint_take {buf : List Byte} {n : Nat} {a : Atom} {x : Atom × Bool}
    (h : nextCodepoint (buf.take n) a = .ok x) : nextCodepoint buf a = .ok x := by
  unfold nextCodepoint at h ⊢
  by_cases hz : Atom.cpSize a = 0
  · rw [if_pos hz] at h ⊢; exact h
  · rw [if_neg hz] at h ⊢
    obtain ⟨d, h1, h2⟩ := Cursor.bind_ok h
    rw [atomData_take h1]
    exact h2

theorem readCps_take {buf : List Byte} {n : Nat} : ∀ (fuel : Nat) (a : Atom) (cs : List Nat),
    Cursor.readCps (buf.take n) fuel a = .ok cs → Cursor.readCps buf fuel a = .ok cs := by
  intro fuel
  induction fuel with
  | zero => intro a cs h; exact h
  | succ fuel ih =>
    intro a cs h
    simp only [Cursor.readCps] at h ⊢
    obtain ⟨x, h1, h2⟩ := Cursor.bind_ok h
    rw [nextCodepoint_take h1]
    simp only [Out.bind]
    split at h2
    · rename_i hb
      rw [if_pos hb]
      obtain ⟨cs', h3, h4⟩ := Cursor.bind_ok h2
      rw [ih _ _ h3]
      exact h4
    · rename_i hb
      rw [if_neg hb]
      exact h2

namespace TextParser

/-- The terminator action comes last in the actions of a transition. -/
theorem term_last {s : Nat} {c : Byte} {as : List Act} {t : Nat}
    (h : stepIn TextTable.rows s c = some (as, t)) : ∀ pre post, as = pre ++ .op_term :: post →
    post = [] := by
  have hP : allRows TextTable.rows 76 (fun _ x => x.2.2.1.dropLast.all fun a => decide (a ≠ .op_term))
      = true := by decide +kernel
  obtain ⟨lo, hi, _, _, h'⟩ := TextTable.step hP h
  intro pre post e
  simp only at h'
  rw [e] at h'
  cases post with
  | nil => rfl
  | cons x post =>
    rw [List.dropLast_append_of_ne_nil (by simp), List.dropLast_cons_of_ne_nil (by simp)] at h'
    simp at h'

theorem act_take {buf : List Byte} {n : Nat} {c : Byte} {r r' : Regs} {a : Act} (hp : r.p ≤ n)
    (ha : a ≠ .op_term) :
    (act (buf.take n) c r a = .cont r' → act buf c r a = .cont r') ∧
    (act (buf.take n) c r a = .brk r' → act buf c r a = .brk r') := by
  cases a with
  | op_term => exact absurd rfl ha
  | end_int => simp only [act, slice_take hp]; exact ⟨id, id⟩
  | end_value => simp only [act, slice_take hp]; exact ⟨id, id⟩
  | end_origin => simp only [act, slice_take hp]; exact ⟨id, id⟩
  | variety =>
    simp only [act]
    by_cases h0 : r.p = 0
    · rw [if_pos h0, if_pos h0]; exact ⟨id, id⟩
    · rw [if_neg h0, if_neg h0, List.getElem?_take_of_lt (by omega)]; exact ⟨id, id⟩
  | end_spread =>
    simp only [act]
    cases r.op.getLast? with
    | none => exact ⟨id, id⟩
    | some x =>
      simp only
      by_cases hz : Atom.cpSize x ≠ 0
      · rw [if_pos hz, if_pos hz]
        cases hc : nextCodepoint (buf.take n) x with
        | ok y => rw [nextCodepoint_take hc]; exact ⟨id, id⟩
        | abort => exact ⟨fun h => by simp at h, fun h => by simp at h⟩
        | ub => exact ⟨fun h => by simp at h, fun h => by simp at h⟩
      · rw [if_neg hz, if_neg hz]; exact ⟨id, id⟩
  | _ => exact ⟨id, id⟩

theorem act_p {buf : List Byte} {c : Byte} {r r' : Regs} {a : Act}
    (h : act buf c r a = .cont r' ∨ act buf c r a = .brk r') : r'.p = r.p := by
  have := acts_fields (buf := buf) (c := c) (as := [a]) (r := r) (r' := r') (by
    rcases h with h | h
    · left; simp [acts, h]
    · right; simp [acts, h])
  exact this.p

theorem acts_take {buf : List Byte} {n : Nat} {c : Byte} (hn : n ≤ buf.length) :
    ∀ (as : List Act) (r r' : Regs), r.p < n → (∀ pre post, as = pre ++ .op_term :: post → post = []) →
    (acts (buf.take n) c r as = .cont r' → acts buf c r as = .cont r' ∨
      (acts buf c r as = .brk r' ∧ n ≤ r'.p + 1)) ∧
    (acts (buf.take n) c r as = .brk r' → acts buf c r as = .brk r') := by
  intro as
  induction as with
  | nil => intro r r' _ _; exact ⟨fun h => .inl h, fun h => by simp [acts] at h⟩
  | cons a as ih =>
    intro r r' hp hl
    simp only [acts]
    by_cases ha : a = .op_term
    · subst ha
      have : as = [] := hl [] as rfl
      subst this
      simp only [act, List.length_take, Nat.min_eq_left hn]
      by_cases h1 : r.p + 1 < n
      · rw [if_pos h1, if_pos (by omega)]
        exact ⟨fun h => by simp at h, id⟩
      · rw [if_neg h1]
        refine ⟨fun h => ?_, fun h => by simp [acts] at h⟩
        simp only [acts, Res.cont.injEq] at h
        by_cases h2 : r.p + 1 < buf.length
        · rw [if_pos h2]
          refine .inr ⟨by rw [h], ?_⟩
          rw [← h]; simp only; omega
        · rw [if_neg h2]
          exact .inl (by simp only [acts]; rw [h])
    · have hl' : ∀ pre post, as = pre ++ .op_term :: post → post = [] := fun pre post e =>
        hl (a :: pre) post (by rw [e]; rfl)
      cases hT : act (buf.take n) c r a with
      | cont r1 =>
        have h1 := (act_take (by omega) ha).1 hT
        have hp1 := act_p (.inl hT)
        rw [h1]
        exact ih r1 r' (by omega) hl'
      | brk r1 =>
        have h1 := (act_take (by omega) ha).2 hT
        rw [h1]
        exact ⟨fun h => by simp at h, id⟩
      | abort => exact ⟨fun h => by simp at h, fun h => by simp at h⟩
      | ub => exact ⟨fun h => by simp at h, fun h => by simp at h⟩

/-- A run on the cut text that ends well ends the same way as a run on the whole text that does
not go over the cut. -/
theorem run_take {buf : List Byte} {n : Nat} (hn : n ≤ buf.length) : ∀ (rest : List Byte) (k s : Nat)
    (r : Regs) (s1 : Nat) (r1 : Regs) (s' : Nat) (r' : Regs),
    run (buf.take n) (rest.take k) s r = .ok (s1, r1) → run buf rest s r = .ok (s', r') →
    r.p + k = n → r'.p ≤ n → s' ≠ 0 → s1 = s' ∧ r1 = r' := by
  intro rest
  induction rest with
  | nil =>
    intro k s r s1 r1 s' r' hT hF _ _ _
    rw [List.take_nil] at hT
    simp only [run, Out.ok.injEq, Prod.mk.injEq] at hT hF
    exact ⟨hT.1.symm.trans hF.1, hT.2.symm.trans hF.2⟩
  | cons c rest ih =>
    intro k s r s1 r1 s' r' hT hF hk hp h0
    cases k with
    | zero =>
      obtain ⟨p1, _, p3⟩ := run_progress _ _ _ _ _ hF
      have := (p3 (by omega)).1
      rw [if_neg (by simp)] at this
      exact absurd this h0
    | succ k =>
      rw [List.take_succ_cons] at hT
      simp only [run] at hT hF
      cases hst : stepIn TextTable.rows s c with
      | none =>
        rw [hst] at hF
        simp only [Out.ok.injEq, Prod.mk.injEq] at hF
        exact absurd hF.1.symm h0
      | some x =>
        obtain ⟨as, t⟩ := x
        rw [hst] at hT hF
        simp only at hT hF
        have htl := term_last hst
        cases hTa : acts (buf.take n) c r as with
        | cont q =>
          have hq := (acts_fields (.inl hTa)).p
          rw [hTa] at hT
          simp only at hT
          rcases (acts_take hn as r q (by omega) htl).1 hTa with h | ⟨h, hge⟩
          · rw [h] at hF
            exact ih k t _ s1 r1 s' r' hT hF (by simp only; omega) hp h0
          · rw [h] at hF
            simp only [Out.ok.injEq, Prod.mk.injEq] at hF
            have hk0 : k = 0 := by omega
            rw [hk0, List.take_zero] at hT
            simp only [run, Out.ok.injEq, Prod.mk.injEq] at hT
            exact ⟨hT.1.symm.trans hF.1, hT.2.symm.trans hF.2⟩
        | brk q =>
          rw [hTa] at hT
          rw [(acts_take hn as r q (by omega) htl).2 hTa] at hF
          simp only [Out.ok.injEq, Prod.mk.injEq] at hT hF
          exact ⟨hT.1.symm.trans hF.1, hT.2.symm.trans hF.2⟩
        | abort => rw [hTa] at hT; simp at hT
        | ub => rw [hTa] at hT; simp at hT

end TextParser

namespace Cursor

theorem next_take {buf : List Byte} {cur cur' cT : Cursor} {st : NextStatus} {n : Nat}
    (b : Basic buf cur) (hn : n ≤ buf.length) (h : next cur = .ok (cur', .ok)) (hb : cur'.beg ≤ n)
    (hT : next (cur.cutAt n) = .ok (cT, st)) : cT = cur'.cutAt n ∧ st = .ok := by
  have hbuf := b.buf
  have pf : ∀ s, parseFrom cur s = .ok (cur', .ok) → parseFrom (cur.cutAt n) s = .ok (cT, st) →
      cT = cur'.cutAt n ∧ st = .ok := by
    intro s h hT
    have hlt := (parseFrom_cases b h).2.1 rfl
    unfold parseFrom at h hT
    rw [if_neg (by
      show ¬ (cur.buf.take n).length ≤ cur.beg
      rw [List.length_take, hbuf]; omega)] at hT
    split at h
    · simp at h
    · obtain ⟨⟨s', r'⟩, h1, h2⟩ := bind_ok h
      obtain ⟨⟨s1, r1⟩, h3, h4⟩ := bind_ok hT
      have hbeg := (finish_cases h2).2.1
      have h0 : s' ≠ 0 := by
        intro e
        simp only [e] at h2
        unfold finish at h2
        simp only [ne_eq, not_true_eq_false, and_false, if_false] at h2
        rw [if_neg (by decide)] at h2
        split at h2 <;> simp at h2
      have hd : (cur.cutAt n).buf.drop (cur.cutAt n).beg = (cur.buf.drop cur.beg).take (n - cur.beg) := by
        show (cur.buf.take n).drop cur.beg = _
        rw [List.drop_take]
      have hs : startRegs (cur.cutAt n) = startRegs cur := rfl
      rw [hd, hs] at h3
      obtain ⟨e1, e2⟩ := TextParser.run_take (buf := cur.buf) (n := n) (by rw [hbuf]; exact hn)
        (cur.buf.drop cur.beg) (n - cur.beg) s (startRegs cur) s1 r1 s' r' h3 h1
        (by show cur.beg + (n - cur.beg) = n; omega) (by simp only at hbeg; omega) h0
      simp only at h2 h4
      rw [e1, e2] at h4
      unfold finish at h2 h4
      simp only at h2 h4
      split at h2
      · rename_i hc
        rw [if_pos hc] at h4
        obtain ⟨t, k1, k2⟩ := bind_ok h2
        obtain ⟨t', k3, k4⟩ := bind_ok h4
        rw [k1] at k3
        cases k3; cases k2; cases k4
        exact ⟨rfl, rfl⟩
      · split at h2
        · simp at h2
        · split at h2 <;> simp at h2
  by_cases hs : cur.span = 0
  · unfold next at h hT
    rw [if_neg (by simp [hs])] at h
    rw [if_neg (by simp [cutAt, hs])] at hT
    split at h
    · rename_i hc
      rw [if_pos (show (cur.cutAt n).cs = 0 from hc)] at hT
      split at h
      · simp at h
      · rename_i h1
        rw [if_neg (show ¬ (cur.cutAt n).beg ≠ 0 from h1)] at hT
        exact pf _ h hT
    · rename_i hc
      rw [if_neg (show ¬ (cur.cutAt n).cs = 0 from hc)] at hT
      split at h
      · simp at h
      · rename_i h1
        rw [if_neg (show ¬ (cur.cutAt n).cs = 255 from h1)] at hT
        exact pf _ h hT
  · unfold next at h hT
    rw [if_pos hs] at h
    rw [if_pos (show (cur.cutAt n).span ≠ 0 from hs)] at hT
    have ho : (cur.cutAt n).op = cur.op := rfl
    rw [ho] at hT
    cases hop : cur.op with
    | nil => rw [hop] at h; simp at h
    | cons i l =>
      cases l with
      | nil => rw [hop] at h; simp at h
      | cons x vals =>
        rw [hop] at h hT
        simp only at h hT
        cases hl : (Uuid.inc i :: i :: vals).getLast? with
        | none => rw [hl] at h; simp at h
        | some l =>
          rw [hl] at h hT
          simp only at h hT
          by_cases hc : Atom.type l = Atom.tSTRING ∧ Atom.cp l ≠ 0
          · rw [if_pos hc] at h hT
            obtain ⟨y, h1, h2⟩ := bind_ok h
            obtain ⟨z, h3, h4⟩ := bind_ok hT
            rw [show (cur.cutAt n).buf = cur.buf.take n from rfl] at h3
            rw [nextCodepoint_take h3] at h1
            cases h1; cases h2; cases h4
            exact ⟨rfl, rfl⟩
          · rw [if_neg hc] at h hT
            cases h; cases hT
            exact ⟨rfl, rfl⟩

/-- The cursors that successful `Next` calls produce on a frame, with at least one call. -/
inductive Passed (buf : List Byte) : Cursor → Prop
  | first {c} : next (init buf) = .ok (c, .ok) → Passed buf c
  | next {c c'} : Passed buf c → next c = .ok (c', .ok) → Passed buf c'

theorem outside_take (buf : List Byte) (q n : Nat) :
    outside q (buf.take n) = (outside q buf).take n := by
  induction buf generalizing q n with
  | nil => simp [outside]
  | cons x buf ih =>
    cases n with
    | zero => simp [outside]
    | succ n => simp only [List.take_succ_cons, outside, ih]

theorem longWord_take {buf : List Byte} {n : Nat} (h : LongWord (buf.take n)) : LongWord buf := by
  obtain ⟨w, h1, h2⟩ := h
  rw [outside_take] at h1
  exact ⟨w, h1.trans (List.take_prefix n _).isInfix, h2⟩

/-- Is there a run of more than ten Base64 characters? `n` of them have been seen. -/
def longRun : Nat → List Byte → Bool
  | _, [] => false
  | n, x :: xs => if isB64 x then decide (10 ≤ n) || longRun (n + 1) xs else longRun 0 xs

theorem longRun_mono : ∀ (l : List Byte) (n m : Nat), n ≤ m → longRun n l = true →
    longRun m l = true := by
  intro l
  induction l with
  | nil => intro n m _ h; exact h
  | cons x l ih =>
    intro n m hnm h
    simp only [longRun] at h ⊢
    split at h
    · rename_i hx
      rw [if_pos hx]
      simp only [Bool.or_eq_true, decide_eq_true_eq] at h ⊢
      rcases h with h | h
      · exact .inl (by omega)
      · exact .inr (ih _ _ (by omega) h)
    · rename_i hx
      rw [if_neg hx]; exact h

theorem longRun_word : ∀ (w post : List Byte) (n : Nat), (∀ x ∈ w, isB64 x = true) →
    10 < w.length + n → n ≤ 10 → longRun n (w ++ post) = true := by
  intro w
  induction w with
  | nil => intro post n _ h1 h2; simp at h1; omega
  | cons x w ih =>
    intro post n h h1 h2
    simp only [List.cons_append, longRun]
    rw [if_pos (h x List.mem_cons_self)]
    by_cases hn : n = 10
    · simp [hn]
    · rw [ih post (n + 1) (fun y hy => h y (List.mem_cons_of_mem _ hy)) (by simp at h1; omega) (by omega)]
      simp

theorem longRun_of {buf : List Byte} (h : LongWord buf) : longRun 0 (outside 0 buf) = true := by
  obtain ⟨w, ⟨pre, post, e⟩, hl, hw⟩ := h
  rw [← e, List.append_assoc]
  clear e
  generalize 0 = n
  induction pre generalizing n with
  | nil =>
    exact longRun_mono _ 0 _ (Nat.zero_le _) (longRun_word w post 0 hw (by omega) (by omega))
  | cons x pre ih =>
    simp only [List.cons_append, longRun]
    split
    · rw [ih]; simp
    · exact ih _

theorem notLong_of {buf : List Byte} (h : longRun 0 (outside 0 buf) = false) : ¬ LongWord buf := fun hl => by
  rw [longRun_of hl] at h; cases h

/-- A cursor is sound on the frame cut anywhere after its op. -/
structure Local (buf : List Byte) (c : Cursor) : Prop where
  basic : Basic buf c
  cs : c.cs = 74
  safe : ∀ n, c.beg ≤ n → n ≤ buf.length → Safe (buf.take n) (c.cutAt n)
  op : ∀ n, c.beg ≤ n → n ≤ buf.length → OpOk (buf.take n) c.op

theorem local_step {buf : List Byte} (hn : buf.length < 10 ^ 9 - 1) (hl : ¬ LongWord buf)
    {c c' : Cursor} (hb : Basic buf c) (hv : c.span ≠ 0 → c.cs ≠ 0)
    (hs : ∀ n, c.beg ≤ n → n ≤ buf.length → Safe (buf.take n) (c.cutAt n))
    (h : next c = .ok (c', .ok)) : Local buf c' := by
  obtain ⟨b', h1, _⟩ := next_cases hb h
  have hle : c.beg ≤ c'.beg := by
    rcases h1 rfl with ⟨_, e, _⟩ | ⟨_, e⟩ <;> omega
  have key : ∀ n, c'.beg ≤ n → n ≤ buf.length → Safe (buf.take n) (c'.cutAt n) ∧
      OpOk (buf.take n) c'.op := by
    intro n h2 h3
    rcases next_safe (by rw [List.length_take]; omega) (hs n (by omega) h3) with ⟨_, hw⟩ |
      ⟨cT, st, e, k1, k2⟩
    · exact absurd (longWord_take hw) hl
    · obtain ⟨rfl, rfl⟩ := next_take hb h3 h h2 e
      exact ⟨k1, k2 rfl⟩
  refine ⟨b', ?_, fun n h2 h3 => (key n h2 h3).1, fun n h2 h3 => (key n h2 h3).2⟩
  have hcs := (key buf.length b'.beg (Nat.le_refl _)).1.cs
  have := (next_valid hb hv h).1 rfl
  rcases hcs with e | e
  · exact absurd e this
  · exact e

theorem Passed.local {buf : List Byte} (hn : buf.length < 10 ^ 9 - 1) (hl : ¬ LongWord buf)
    {c : Cursor} (h : Passed buf c) : Local buf c := by
  induction h with
  | first h => exact local_step hn hl (.init buf) (fun e => absurd rfl e) (fun n _ _ => .init _) h
  | next _ h ih =>
    exact local_step hn hl ih.basic (fun _ => by rw [ih.cs]; decide) ih.safe h

/-- Going on from an op on the cut frame. -/
theorem Local.step {buf : List Byte} (hn : buf.length < 10 ^ 9 - 1) (hl : ¬ LongWord buf)
    {c c' : Cursor} (hc : Local buf c) (h : next c = .ok (c', .ok)) {n : Nat} (h1 : c'.beg ≤ n)
    (h2 : n ≤ buf.length) : next (c.cutAt n) = .ok (c'.cutAt n, .ok) := by
  have hle : c.beg ≤ c'.beg := by
    rcases (next_cases hc.basic h).2.1 rfl with ⟨_, e, _⟩ | ⟨_, e⟩ <;> omega
  rcases next_safe (by rw [List.length_take]; omega) (hc.safe n (by omega) h2) with ⟨_, hw⟩ |
    ⟨cT, st, e, _, _⟩
  · exact absurd (longWord_take hw) hl
  · obtain ⟨rfl, rfl⟩ := next_take hc.basic h2 h h1 e
    exact e

/-- At the cut there is the end of the frame. -/
theorem Local.stop {buf : List Byte} {c : Cursor} (hc : Local buf c) (hs : c.span = 0) :
    next (c.cutAt c.beg) = .ok ({ c.cutAt c.beg with cs := 0 }, .endOfFrame) := by
  have hcs := hc.cs
  unfold next
  rw [if_neg (show ¬ (c.cutAt c.beg).span ≠ 0 by simp [cutAt, hs]),
    if_neg (show ¬ (c.cutAt c.beg).cs = 0 by simp [cutAt, hcs]),
    if_neg (show ¬ (c.cutAt c.beg).cs = 255 by simp [cutAt, hcs])]
  unfold parseFrom
  rw [if_pos]
  show (c.buf.take c.beg).length ≤ c.beg
  rw [List.length_take]; omega

theorem viewAtom_take {c : Cursor} {n : Nat} {a : Atom} {v : View}
    (h : viewAtom (c.cutAt n) a = .ok v) : viewAtom c a = .ok v := by
  have hb : (c.cutAt n).buf = c.buf.take n := rfl
  unfold viewAtom at h ⊢
  rw [hb] at h
  split at h
  · rename_i ht
    rw [if_pos ht]
    obtain ⟨d, h1, h2⟩ := bind_ok h
    rw [atomData_take h1]; exact h2
  · rename_i ht
    rw [if_neg ht]
    split at h
    · rename_i ht
      rw [if_pos ht]
      obtain ⟨d, h1, h2⟩ := bind_ok h
      unfold floatText at h1 ⊢
      obtain ⟨d', h3, h4⟩ := bind_ok h1
      rw [atomData_take h3]
      simp only [Out.bind] at h4 ⊢
      rw [h4]; exact h2
    · rename_i ht
      rw [if_neg ht]
      split at h
      · rename_i ht
        rw [if_pos ht]
        obtain ⟨d, h1, h2⟩ := bind_ok h
        unfold readString at h1 ⊢
        split at h1
        · rename_i hz
          rw [if_pos hz, h1]; exact h2
        · rename_i hz
          rw [if_neg hz]
          obtain ⟨cs, h3, h4⟩ := bind_ok h1
          rw [readCps_take _ _ _ h3]
          simp only [Out.bind, Out.ok.injEq] at h4 ⊢
          subst h4
          simpa using h2
      · rename_i ht
        rw [if_neg ht]; exact h

theorem collect_mono {α β : Type} {f g : α → Out β} (h : ∀ a b, f a = .ok b → g a = .ok b) :
    ∀ (l : List α) (bs : List β), collect f l = .ok bs → collect g l = .ok bs := by
  intro l
  induction l with
  | nil => intro bs hb; exact hb
  | cons a l ih =>
    intro bs hb
    obtain ⟨b, bs', h1, h2, rfl⟩ := collect_cons hb
    simp [collect, h _ _ h1, ih _ h2, Out.bind]

/-- An op reads the same on the cut frame. -/
theorem Local.view {buf : List Byte} (hn : buf.length < 10 ^ 9 - 1) {c : Cursor}
    (hc : Local buf c) {n : Nat} (h1 : c.beg ≤ n) (h2 : n ≤ buf.length) :
    viewOp (c.cutAt n) = viewOp c ∧ ∃ v, viewOp c = .ok v := by
  obtain ⟨v, hv⟩ := viewOp_safe (cur := c.cutAt n) (buf := buf.take n)
    (by rw [List.length_take]; omega) (by rw [← hc.basic.buf]; rfl) (hc.op n h1 h2)
  have : viewOp c = .ok v := by
    unfold viewOp at hv ⊢
    rw [show (c.cutAt n).op = c.op from rfl] at hv
    split at hv
    · obtain ⟨vs, h3, h4⟩ := bind_ok hv
      rw [collect_mono (fun a b => viewAtom_take) _ _ h3]
      exact h4
    · cases hv
  exact ⟨hv.trans this.symm, v, this⟩

end Cursor
end Ron
