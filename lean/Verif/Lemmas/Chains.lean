import Verif.Lemmas.TextLocal
import Verif.Spec.Chains
/-!
Splitting a log into chains.
-/
namespace Ron.Chains
open Spec Cursor

/-- The ops after an op, and how they end. -/
inductive Trail : Cursor → List Cursor → NextStatus → Prop
  | stop {c c' st} : next c = .ok (c', st) → st ≠ .ok → Trail c [] st
  | more {c c' l st} : next c = .ok (c', .ok) → Trail c' l st → Trail c (c' :: l) st

theorem trail_of_iterate : ∀ (fuel : Nat) (c : Cursor) (l : List Cursor) (st : NextStatus),
    iterate fuel c = .ok (some (l, st)) → Trail c l st := by
  intro fuel
  induction fuel with
  | zero => intro c l st h; simp [iterate] at h
  | succ fuel ih =>
    intro c l st h
    simp only [iterate] at h
    obtain ⟨⟨c', s⟩, h1, h2⟩ := bind_ok h
    cases s with
    | ok =>
      simp only at h2
      obtain ⟨x, h3, h4⟩ := bind_ok h2
      cases x with
      | none => simp at h4
      | some x =>
        obtain ⟨l', st'⟩ := x
        simp only [Option.map_some, Out.ok.injEq, Option.some.injEq, Prod.mk.injEq] at h4
        obtain ⟨rfl, rfl⟩ := h4
        exact .more h1 (ih _ _ _ h3)
    | endOfFrame =>
      simp only [Out.ok.injEq, Option.some.injEq, Prod.mk.injEq] at h2
      obtain ⟨rfl, rfl⟩ := h2
      exact .stop h1 (by decide)
    | badState =>
      simp only [Out.ok.injEq, Option.some.injEq, Prod.mk.injEq] at h2
      obtain ⟨rfl, rfl⟩ := h2
      exact .stop h1 (by decide)

theorem iterate_of_trail {c : Cursor} {l : List Cursor} {st : NextStatus} (h : Trail c l st) :
    iterate (l.length + 1) c = .ok (some (l, st)) := by
  induction h with
  | stop h h0 =>
    simp only [List.length_nil, iterate, h, Out.bind]
  | more h _ ih =>
    simp only [List.length_cons]
    rw [iterate, h]
    simp only [Out.bind, ih, Option.map_some]

theorem trail_ne {c : Cursor} {l : List Cursor} {st : NextStatus} (h : Trail c l st) : st ≠ .ok := by
  induction h with
  | stop _ h => exact h
  | more _ _ ih => exact ih

/-- The consecutive ops after an op, and the rest. -/
def takeRun (cutoff : Uuid) : Cursor → List Cursor → List Cursor × List Cursor
  | _, [] => ([], [])
  | c, d :: l =>
    if d.ref = c.id ∧ c.id ≠ some cutoff then (d :: (takeRun cutoff d l).1, (takeRun cutoff d l).2)
    else ([], d :: l)

theorem takeRun_append (cutoff : Uuid) : ∀ (l : List Cursor) (c : Cursor),
    (takeRun cutoff c l).1 ++ (takeRun cutoff c l).2 = l := by
  intro l
  induction l with
  | nil => intro c; rfl
  | cons d l ih =>
    intro c
    simp only [takeRun]
    split
    · simp [ih d]
    · rfl

/-- The last of a chain. -/
def lastOf (c : Cursor) : List Cursor → Cursor
  | [] => c
  | d :: l => lastOf d l

structure RunOut (cutoff : Uuid) (c : Cursor) (l : List Cursor) (st : NextStatus)
    (r : Uuid × Nat × Cursor × NextStatus) : Prop where
  id : (lastOf c (takeRun cutoff c l).1).id = some r.1
  beg : (lastOf c (takeRun cutoff c l).1).beg = r.2.1
  stop : (takeRun cutoff c l).2 = [] → r.2.2.2 = st ∧ r.2.2.1.cs = 0
  more : ∀ d l', (takeRun cutoff c l).2 = d :: l' → r.2.2.2 = .ok ∧ r.2.2.1 = d ∧ Trail d l' st ∧
    (r.1 = cutoff ∨ d.ref ≠ some r.1)

theorem runEnd_trail {buf : List Byte} (hn : buf.length < 10 ^ 9 - 1) (hl : ¬ LongWord buf)
    (cutoff : Uuid) {c : Cursor} {l : List Cursor} {st : NextStatus}
    (h : Trail c l st) : Passed buf c → ∀ fuel, l.length < fuel → ∃ r,
    runEnd cutoff fuel c = .ok (some r) ∧ RunOut cutoff c l st r := by
  have idOf : ∀ c, Passed buf c → ∃ i, c.id = some i := by
    intro c hp
    have hc := hp.local hn hl
    obtain ⟨v, hv⟩ := (hc.view hn hc.basic.beg (Nat.le_refl _)).2
    exact ⟨_, viewOp_id hv⟩
  induction h with
  | @stop c c' st h h0 =>
    intro hp fuel hf
    obtain ⟨i, hi⟩ := idOf c hp
    cases fuel with
    | zero => simp at hf
    | succ fuel =>
      refine ⟨(i, c.beg, c', st), ?_, ?_⟩
      · simp only [runEnd, hi, h, Out.bind]
        rw [if_neg (fun x => h0 x.1)]
      · have hc := hp.local hn hl
        exact ⟨hi, rfl, fun _ => ⟨rfl, ((next_cases hc.basic h).2.2 h0).2.1⟩, fun d l' e => by simp [takeRun] at e⟩
  | @more c c' l st h t ih =>
    intro hp fuel hf
    obtain ⟨i, hi⟩ := idOf c hp
    have hp' : Passed buf c' := .next hp h
    cases fuel with
    | zero => simp at hf
    | succ fuel =>
      by_cases hc : c'.ref = some i ∧ i ≠ cutoff
      · obtain ⟨r, h1, h2⟩ := ih hp' fuel (by simp at hf; omega)
        refine ⟨r, ?_, ?_⟩
        · simp only [runEnd, hi, h, Out.bind]
          rw [if_pos ⟨trivial, hc⟩]; exact h1
        · have e : takeRun cutoff c (c' :: l) =
              (c' :: (takeRun cutoff c' l).1, (takeRun cutoff c' l).2) := by
            rw [takeRun, if_pos ⟨by rw [hi]; exact hc.1, by rw [hi]; simpa using hc.2⟩]
          constructor
          · rw [e]; exact h2.id
          · rw [e]; exact h2.beg
          · rw [e]; exact h2.stop
          · rw [e]; exact h2.more
      · refine ⟨(i, c.beg, c', .ok), ?_, ?_⟩
        · simp only [runEnd, hi, h, Out.bind]
          rw [if_neg (fun x => hc x.2)]
        · have e : takeRun cutoff c (c' :: l) = ([], c' :: l) := by
            rw [takeRun, if_neg]
            rw [hi]
            simpa using hc
          constructor
          · rw [e]; exact hi
          · rw [e]; rfl
          · rw [e]; intro h; simp at h
          · rw [e]
            intro d l' h
            simp only [List.cons.injEq] at h
            obtain ⟨rfl, rfl⟩ := h
            refine ⟨rfl, rfl, t, ?_⟩
            by_cases e : i = cutoff
            · exact .inl e
            · exact .inr fun x => hc ⟨x, e⟩

theorem passed_trail {buf : List Byte} {c : Cursor} {l : List Cursor} {st : NextStatus}
    (h : Trail c l st) : Passed buf c → ∀ d ∈ l, Passed buf d := by
  induction h with
  | stop _ _ => intro _ d hd; simp at hd
  | more h _ ih =>
    intro hp d hd
    have hp' : Passed buf _ := .next hp h
    rcases List.mem_cons.1 hd with rfl | hd
    · exact hp'
    · exact ih hp' d hd

/-- On a frame cut after an op, the rest of a span still follows the op. -/
theorem trail_stop {buf : List Byte} (hn : buf.length < 10 ^ 9 - 1) (hl : ¬ LongWord buf)
    {c : Cursor} {l : List Cursor} {st : NextStatus} (h : Trail c l st) : Passed buf c →
    Trail (c.cutAt c.beg) ((l.take c.span).map fun d => d.cutAt c.beg) .endOfFrame ∧
      c.span ≤ l.length ∧ ∀ d ∈ l.take c.span, d.beg = c.beg := by
  induction h with
  | @stop c c' st h h0 =>
    intro hp
    have hc := hp.local hn hl
    have hs := ((next_cases hc.basic h).2.2 h0).1
    rw [hs]
    exact ⟨.stop (hc.stop hs) (by decide), by simp, by simp⟩
  | @more c c' l st h t ih =>
    intro hp
    have hc := hp.local hn hl
    have hp' : Passed buf c' := .next hp h
    rcases (next_cases hc.basic h).2.1 rfl with ⟨h1, h2, h3⟩ | ⟨h1, h2⟩
    · obtain ⟨i1, i2, i3⟩ := ih hp'
      rw [← h3, List.take_succ_cons, List.map_cons]
      refine ⟨.more (hc.step hn hl h (by omega) hc.basic.beg) (by rw [← h2]; exact i1), by simp; omega, ?_⟩
      intro d hd
      rcases List.mem_cons.1 hd with rfl | hd
      · exact h2
      · rw [i3 d hd, h2]
    · rw [h1]
      exact ⟨.stop (hc.stop h1) (by decide), by simp, by simp⟩

theorem trail_beg {buf : List Byte} (hn : buf.length < 10 ^ 9 - 1) (hl : ¬ LongWord buf)
    {st : NextStatus} {l2 : List Cursor} : ∀ (run : List Cursor) (c : Cursor),
    Trail c (run ++ l2) st → Passed buf c → c.beg ≤ (lastOf c run).beg ∧
      (∀ d ∈ run, d.beg ≤ (lastOf c run).beg) ∧ Passed buf (lastOf c run) ∧
      Trail (lastOf c run) l2 st := by
  intro run
  induction run with
  | nil => intro c h hp; exact ⟨Nat.le_refl _, by simp, hp, h⟩
  | cons d run ih =>
    intro c h hp
    rw [List.cons_append] at h
    cases h with
    | more h t =>
      have hp' : Passed buf d := .next hp h
      obtain ⟨i1, i2, i3⟩ := ih d t hp'
      have : c.beg ≤ d.beg := by
        rcases (next_cases (hp.local hn hl).basic h).2.1 rfl with ⟨_, e, _⟩ | ⟨_, e⟩ <;> omega
      refine ⟨Nat.le_trans this i1, ?_, i3⟩
      intro e he
      rcases List.mem_cons.1 he with rfl | he
      · exact i1
      · exact i2 e he

/-- On a frame cut after the last op of a run there are the ops of the run, and the rest of its
span. -/
theorem trail_cut {buf : List Byte} (hn : buf.length < 10 ^ 9 - 1) (hl : ¬ LongWord buf)
    {st : NextStatus} {l2 : List Cursor} : ∀ (run : List Cursor) (c : Cursor),
    Trail c (run ++ l2) st → Passed buf c →
    Trail (c.cutAt (lastOf c run).beg)
      ((run ++ l2.take (lastOf c run).span).map fun d => d.cutAt (lastOf c run).beg) .endOfFrame := by
  intro run
  induction run with
  | nil => intro c h hp; exact (trail_stop hn hl h hp).1
  | cons d run ih =>
    intro c h hp
    obtain ⟨_, b2, b3, _⟩ := trail_beg hn hl _ _ h hp
    rw [List.cons_append] at h
    cases h with
    | more h t =>
      have hp' : Passed buf d := .next hp h
      rw [List.cons_append, List.map_cons]
      exact .more ((hp.local hn hl).step hn hl h (b2 d List.mem_cons_self)
        (b3.local hn hl).basic.beg) (ih d t hp')

theorem collect_cut {buf : List Byte} (hn : buf.length < 10 ^ 9 - 1) (hl : ¬ LongWord buf) {n : Nat}
    (hnb : n ≤ buf.length) : ∀ (l : List Cursor), (∀ d ∈ l, Passed buf d ∧ d.beg ≤ n) →
    collect viewOp (l.map fun d => d.cutAt n) = collect viewOp l := by
  intro l
  induction l with
  | nil => intro _; rfl
  | cons d l ih =>
    intro h
    obtain ⟨h1, h2⟩ := h d List.mem_cons_self
    simp only [List.map_cons, collect]
    rw [((h1.local hn hl).view hn h2 hnb).1, ih fun e he => h e (List.mem_cons_of_mem _ he)]

theorem collect_append {α β : Type} {f : α → Out β} : ∀ (l m : List α) (bs : List β),
    collect f (l ++ m) = .ok bs → ∃ b1 b2, collect f l = .ok b1 ∧ collect f m = .ok b2 ∧
      bs = b1 ++ b2 := by
  intro l
  induction l with
  | nil => intro m bs h; exact ⟨[], bs, rfl, h, rfl⟩
  | cons a l ih =>
    intro m bs h
    rw [List.cons_append] at h
    obtain ⟨b, bs', h1, h2, rfl⟩ := collect_cons h
    obtain ⟨b1, b2, h3, h4, rfl⟩ := ih _ _ h2
    exact ⟨b :: b1, b2, by simp [collect, h1, h3, Out.bind], h4, rfl⟩

theorem collect_append' {α β : Type} {f : α → Out β} : ∀ (l m : List α) (b1 b2 : List β),
    collect f l = .ok b1 → collect f m = .ok b2 → collect f (l ++ m) = .ok (b1 ++ b2) := by
  intro l
  induction l with
  | nil => intro m b1 b2 h1 h2; cases h1; exact h2
  | cons a l ih =>
    intro m b1 b2 h1 h2
    obtain ⟨b, bs', h3, h4, rfl⟩ := collect_cons h1
    simp [collect, h3, ih _ _ _ h4 h2, Out.bind]

theorem viewOp_ref {c : Cursor} {v : OpView} (h : viewOp c = .ok v) : c.ref = some v.ref := by
  unfold viewOp at h
  split at h
  · rename_i i r xs e
    obtain ⟨vs, _, h2⟩ := bind_ok h
    cases h2
    unfold Cursor.ref
    rw [e]; rfl
  · cases h

theorem consecutive_cons {v w : OpView} {vs : List OpView} (h : w.ref = v.id)
    (h' : Consecutive (w :: vs)) : Consecutive (v :: w :: vs) := by
  intro pre a b post e
  cases pre with
  | nil =>
    simp only [List.nil_append, List.cons.injEq] at e
    obtain ⟨rfl, rfl, _⟩ := e
    exact h
  | cons x pre =>
    simp only [List.cons_append, List.cons.injEq] at e
    exact h' pre a b post e.2

theorem consecutive_one (v : OpView) : Consecutive [v] := by
  intro pre a b post e
  have := congrArg List.length e
  simp at this
  omega

/-- A step inside a span refers to the op before. -/
theorem span_ref {buf : List Byte} {c c' : Cursor} {st : NextStatus} (ho : OpOk buf c.op)
    (hs : c.span ≠ 0) (h : next c = .ok (c', st)) : c'.ref = c.id := by
  obtain ⟨i, r, vals, e, hi, _, _⟩ := ho
  unfold next at h
  rw [if_pos hs, e] at h
  simp only at h
  have hid : c.id = some i := by unfold Cursor.id; rw [e]; rfl
  cases vals with
  | nil =>
    simp only [List.getLast?_cons_cons, List.getLast?_singleton] at h
    rw [if_neg (fun x => absurd (hi.symm.trans x.1) (by decide))] at h
    cases h
    rw [hid]; rfl
  | cons v vals =>
    cases hl : (Uuid.inc i :: i :: v :: vals).getLast? with
    | none => rw [hl] at h; simp at h
    | some l =>
      rw [hl] at h
      simp only at h
      by_cases hc : Atom.type l = Atom.tSTRING ∧ Atom.cp l ≠ 0
      · rw [if_pos hc] at h
        obtain ⟨y, h1, h2⟩ := bind_ok h
        cases h2
        rw [hid]
        simp [Cursor.ref, TextParser.setLast]
      · rw [if_neg hc] at h
        cases h
        rw [hid]; rfl

/-- Each op of the list refers to the one before it. -/
inductive Linked : Cursor → List Cursor → Prop
  | nil (c) : Linked c []
  | cons {c d l} : d.ref = c.id → Linked d l → Linked c (d :: l)

theorem linked_append {m : List Cursor} : ∀ (l : List Cursor) (c : Cursor), Linked c l →
    Linked (lastOf c l) m → Linked c (l ++ m) := by
  intro l
  induction l with
  | nil => intro c _ h; exact h
  | cons d l ih =>
    intro c h h'
    cases h with
    | cons h1 h2 => exact .cons h1 (ih d h2 h')

theorem linked_run (cutoff : Uuid) : ∀ (l : List Cursor) (c : Cursor),
    Linked c (takeRun cutoff c l).1 := by
  intro l
  induction l with
  | nil => intro c; exact .nil c
  | cons d l ih =>
    intro c
    simp only [takeRun]
    split
    · rename_i h; exact .cons h.1 (ih d)
    · exact .nil c

theorem linked_span {buf : List Byte} (hn : buf.length < 10 ^ 9 - 1) (hl : ¬ LongWord buf)
    {c : Cursor} {l : List Cursor} {st : NextStatus} (h : Trail c l st) : Passed buf c →
    Linked c (l.take c.span) := by
  induction h with
  | stop _ _ => intro _; simp only [List.take_nil]; exact .nil _
  | @more c c' l st h t ih =>
    intro hp
    have hc := hp.local hn hl
    have hp' : Passed buf c' := .next hp h
    rcases (next_cases hc.basic h).2.1 rfl with ⟨h1, h2, h3⟩ | ⟨h1, h2⟩
    · rw [← h3, List.take_succ_cons]
      exact .cons (span_ref (hc.op _ hc.basic.beg (Nat.le_refl _)) h1 h) (ih hp')
    · rw [h1]; exact .nil _

theorem linked_views : ∀ (l : List Cursor) (c : Cursor) (vs : List OpView), Linked c l →
    collect viewOp (c :: l) = .ok vs → Consecutive vs := by
  intro l
  induction l with
  | nil =>
    intro c vs _ h
    obtain ⟨v, vs', h1, h2, rfl⟩ := collect_cons h
    rw [collect_nil h2]
    exact consecutive_one v
  | cons d l ih =>
    intro c vs h hc
    obtain ⟨v, vs', h1, h2, rfl⟩ := collect_cons hc
    cases h with
    | cons h3 h4 =>
      have := ih d vs' h4 h2
      obtain ⟨w, ws, h5, h6, rfl⟩ := collect_cons h2
      refine consecutive_cons ?_ this
      have e := viewOp_ref h5
      rw [h3, viewOp_id h1] at e
      simpa using e.symm

theorem upTo_run (cutoff : Uuid) : ∀ (l : List Cursor) (c : Cursor) (b1 b2 : List OpView),
    collect viewOp (c :: (takeRun cutoff c l).1) = .ok b1 →
    collect viewOp (takeRun cutoff c l).2 = .ok b2 →
    upTo cutoff (b1 ++ b2) =
      if (lastOf c (takeRun cutoff c l).1).id = some cutoff then b1 else b1 ++ upTo cutoff b2 := by
  intro l
  induction l with
  | nil =>
    intro c b1 b2 h1 h2
    obtain ⟨v, vs', h3, h4, rfl⟩ := collect_cons h1
    cases h2
    cases h4
    have := viewOp_id h3
    simp only [takeRun, lastOf, this, upTo, List.cons_append, List.nil_append, Option.some.injEq]
  | cons d l ih =>
    intro c b1 b2 h1 h2
    by_cases hc : d.ref = c.id ∧ c.id ≠ some cutoff
    · simp only [takeRun, if_pos hc] at h1 h2 ⊢
      obtain ⟨v, vs', h3, h4, rfl⟩ := collect_cons h1
      have := viewOp_id h3
      have hne : v.id ≠ cutoff := fun e => hc.2 (by rw [this, e])
      simp only [List.cons_append, upTo, if_neg hne, ih d vs' b2 h4 h2, lastOf]
      split <;> simp_all
    · simp only [takeRun, if_neg hc] at h1 h2 ⊢
      obtain ⟨v, vs', h3, h4, rfl⟩ := collect_cons h1
      cases h4
      have := viewOp_id h3
      simp only [lastOf, this, upTo, List.cons_append, List.nil_append, Option.some.injEq]

theorem upTo_le (cutoff : Uuid) : ∀ vs : List OpView, (upTo cutoff vs).length ≤ vs.length := by
  intro vs
  induction vs with
  | nil => exact Nat.le_refl _
  | cons v vs ih => simp only [upTo]; split <;> simp <;> omega

/-- What the chains of a log are: `vs` are the ops of the log from the first one of the first
chain, `st` is how the log ends. -/
structure Good (buf : List Byte) (cutoff : Uuid) (vs : List OpView) (st : NextStatus)
    (css : List (List OpView)) (chains : List Cursor) (st' : NextStatus) : Prop where
  ops : Same2 (fun ch cs => ∃ e, ChainOps ch cs e ∧ (e = .endOfFrame ∨ e = st)) chains css
  pre : css.flatten <+: vs
  cut : ∃ extra, css.flatten = upTo cutoff vs ++ extra ∧
    (extra = [] ∨ ∃ d, Passed buf d ∧ d.id = some cutoff ∧ d.span = extra.length)
  each : ∀ cs ∈ css, cs ≠ [] ∧ Consecutive cs
  maximal : Maximal css
  status : st' = if (upTo cutoff vs).length < vs.length then .ok else st

theorem maximal_one (cs : List OpView) : Maximal [cs] := by
  intro pre vs v w ws post e
  have := congrArg List.length e
  simp at this
  omega

theorem maximal_cons {cs : List OpView} {css : List (List OpView)} (h : Maximal css)
    (h' : ∀ vs v w ws post, cs = vs ++ [v] → css = (w :: ws) :: post → w.ref ≠ v.id) :
    Maximal (cs :: css) := by
  intro pre vs v w ws post e
  cases pre with
  | nil =>
    simp only [List.nil_append, List.cons.injEq] at e
    exact h' vs v w ws post e.1 e.2
  | cons x pre =>
    simp only [List.cons_append, List.cons.injEq] at e
    exact h pre vs v w ws post e.2

theorem collect_last : ∀ (l : List Cursor) (c : Cursor) (vs : List OpView) (v : OpView),
    collect viewOp (c :: l) = .ok (vs ++ [v]) → viewOp (lastOf c l) = .ok v := by
  intro l
  induction l with
  | nil =>
    intro c vs v h
    obtain ⟨w, ws, h1, h2, e⟩ := collect_cons h
    cases h2
    cases vs with
    | nil => simp at e; rw [e]; exact h1
    | cons x vs => simp at e
  | cons d l ih =>
    intro c vs v h
    obtain ⟨w, ws, h1, h2, e⟩ := collect_cons h
    cases vs with
    | nil =>
      simp at e
      rw [e.2] at h2
      obtain ⟨_, _, _, _, e⟩ := collect_cons h2
      simp at e
    | cons x vs =>
      simp at e
      rw [← e.2] at h2
      exact ih d vs v h2

theorem loop_trail {buf : List Byte} (hn : buf.length < 10 ^ 9 - 1) (hl : ¬ LongWord buf)
    (cutoff : Uuid) : ∀ (fuel : Nat) (c : Cursor) (l : List Cursor) (st : NextStatus) (prev : Uuid)
    (acc : List Cursor) (s0 : NextStatus) (vs : List OpView), Trail c l st → Passed buf c →
    prev ≠ cutoff → collect viewOp (c :: l) = .ok vs → l.length + 1 < fuel →
    ∃ chains st' css, loop cutoff fuel prev c c acc s0 = .ok (some (acc ++ chains, st')) ∧
      Good buf cutoff vs st css chains st' := by
  intro fuel
  induction fuel with
  | zero => intro c l st prev acc s0 vs _ _ _ _ h; omega
  | succ fuel ih =>
    intro c l st prev acc s0 vs ht hp hprev hvs hf
    have hc := hp.local hn hl
    obtain ⟨⟨i, at', cur', st1⟩, hr, ro⟩ := runEnd_trail hn hl cutoff ht hp (fuel + 1) (by omega)
    have happ := takeRun_append cutoff l c
    have r1 := ro.id
    have r2 := ro.beg
    have r3 := ro.stop
    have r4 := ro.more
    have lr := linked_run cutoff l c
    have hup := upTo_run cutoff l c
    revert r1 r2 r3 r4 happ lr hup
    generalize (takeRun cutoff c l).1 = run
    generalize (takeRun cutoff c l).2 = rest
    simp only
    intro happ r1 r2 r3 r4 lr hup
    clear ro
    subst happ
    rw [← List.cons_append] at hvs
    obtain ⟨b1, b2, hb1, hb2, rfl⟩ := collect_append _ _ _ hvs
    replace hup := hup b1 b2 hb1 hb2
    have ne1 : b1 ≠ [] := by
      intro e
      rw [e] at hb1
      exact absurd ((collect_nil_iff hb1).1 rfl) (by simp)
    rw [loop, if_pos ⟨by rw [hc.cs]; decide, hprev⟩, hr]
    simp only [Out.bind]
    cases rest with
    | nil =>
      obtain ⟨rfl, h0⟩ := r3 rfl
      have hb2' := collect_nil hb2
      subst hb2'
      have hst := trail_ne ht
      rw [if_neg hst]
      have hloop : ∀ p, loop cutoff fuel p cur' c (acc ++ [c]) st1 = .ok (some (acc ++ [c], st1)) := by
        intro p
        cases fuel with
        | zero => simp at hf
        | succ fuel => rw [loop, if_neg (fun x => x.1 h0)]
      refine ⟨[c], st1, [b1], hloop _, ?_⟩
      have hup' : upTo cutoff b1 = b1 := by
        rw [List.append_nil] at hup
        rw [hup]; split <;> simp [upTo]
      rw [List.append_nil] at *
      refine ⟨.cons ⟨st1, ⟨_, _, iterate_of_trail ht, hb1⟩, .inr rfl⟩ .nil, by simp,
        ⟨[], by simp [hup'], .inl rfl⟩, ?_, maximal_one _, by simp [hup']⟩
      intro cs hcs
      rw [List.mem_singleton] at hcs
      subst hcs
      exact ⟨ne1, linked_views _ _ _ lr hb1⟩
    | cons d l' =>
      obtain ⟨rfl, rfl, td, hd⟩ := r4 d l' rfl
      rw [if_pos rfl]
      obtain ⟨_, bm, pl, tl⟩ := trail_beg hn hl _ _ ht hp
      have cutT := trail_cut hn hl _ _ ht hp
      have ls := linked_span hn hl tl pl
      have ts := trail_stop hn hl tl pl
      rw [← r2]
      revert cutT ls ts bm pl r1 tl
      generalize hla : lastOf c run = la
      intro r1 bm pl tl cutT ls ts
      have hp' : Passed buf cur' := by cases tl with | more h _ => exact .next pl h
      have lenb2 : b2.length = l'.length + 1 := by rw [collect_length hb2]; rfl
      by_cases hcut : i = cutoff
      · subst hcut
        have hloop : ∀ acc', loop i fuel i cur' cur' acc' .ok = .ok (some (acc', .ok)) := by
          intro acc'
          cases fuel with
          | zero => simp at hf
          | succ fuel => rw [loop, if_neg (fun x => x.2 rfl)]
        obtain ⟨x1, x2, hx1, hx2, hx⟩ := collect_append ((cur' :: l').take la.span)
          ((cur' :: l').drop la.span) b2 (by rw [List.take_append_drop]; exact hb2)
        refine ⟨_, _, [b1 ++ x1], hloop _, ?_⟩
        rw [if_pos (by rw [hla, r1])] at hup
        have hall := collect_append' _ _ _ _ hb1 hx1
        refine ⟨.cons ⟨_, ⟨_, _, iterate_of_trail cutT, ?_⟩, .inl rfl⟩ .nil, ?_, ⟨x1, by simp [hup], ?_⟩,
          ?_, maximal_one _, ?_⟩
        · rw [← hall]
          rw [List.cons_append]
          have := collect_cut hn hl (pl.local hn hl).basic.beg
            (c :: (run ++ (cur' :: l').take la.span)) ?_
          · simpa using this
          · intro e he
            have begc := (trail_beg hn hl _ _ ht hp).1
            rw [hla] at begc
            rcases List.mem_cons.1 he with rfl | he
            · exact ⟨hp, begc⟩
            · refine ⟨?_, ?_⟩
              · refine passed_trail ht hp e ?_
                rcases List.mem_append.1 he with he | he
                · exact List.mem_append_left _ he
                · exact List.mem_append_right _ (List.mem_of_mem_take he)
              · rcases List.mem_append.1 he with he | he
                · exact bm e he
                · exact Nat.le_of_eq (ts.2.2 e he)
        · rw [hx]
          exact ⟨x2, by simp⟩
        · refine .inr ⟨la, pl, r1, ?_⟩
          rw [collect_length hx1, List.length_take]
          have := ts.2.1
          omega
        · intro cs hcs
          rw [List.mem_singleton] at hcs
          subst hcs
          refine ⟨by simp [ne1], linked_views _ _ _ (linked_append _ _ lr (by rw [hla]; exact ls)) hall⟩
        · rw [hup, if_pos]
          rw [List.length_append, lenb2]; omega
      · have hne : (la.id = some cutoff) = False := by rw [r1]; simp [hcut]
        have hd' := hd.resolve_left hcut
        have hspan : la.span = 0 := by
          by_cases e : la.span = 0
          · exact e
          · cases tl with
            | more h _ =>
              have := span_ref ((pl.local hn hl).op _ (pl.local hn hl).basic.beg (Nat.le_refl _)) e h
              exact absurd (this.trans r1) hd'
        obtain ⟨chains, st', css, i1, i2⟩ := ih cur' l' st i (acc ++ [c.cutAt la.beg]) .ok b2 td hp' hcut
          hb2 (by simp at hf; omega)
        rw [hla, if_neg (by rw [r1]; simp [hcut])] at hup
        refine ⟨c.cutAt la.beg :: chains, st', b1 :: css, ?_, ?_⟩
        · rw [i1]; simp
        · rw [hspan] at cutT
          obtain ⟨v2, b2', hv2, hb2', hb2e⟩ := collect_cons hb2
          refine ⟨.cons ⟨_, ⟨_, _, iterate_of_trail cutT, ?_⟩, .inl rfl⟩ i2.ops, ?_, ?_, ?_, ?_, ?_⟩
          · rw [← hb1]
            have := collect_cut hn hl (pl.local hn hl).basic.beg (c :: run) ?_
            · simpa using this
            · intro e he
              have begc := (trail_beg hn hl _ _ ht hp).1
              rw [hla] at begc
              rcases List.mem_cons.1 he with rfl | he
              · exact ⟨hp, begc⟩
              · refine ⟨passed_trail ht hp e (List.mem_append_left _ he), ?_⟩
                exact bm e he
          · simp only [List.flatten_cons]
            exact (List.prefix_append_right_inj _).2 i2.pre
          · obtain ⟨extra, e1, e2⟩ := i2.cut
            exact ⟨extra, by simp [hup, e1], e2⟩
          · intro cs hcs
            rcases List.mem_cons.1 hcs with rfl | hcs
            · exact ⟨ne1, linked_views _ _ _ lr hb1⟩
            · exact i2.each cs hcs
          · refine maximal_cons i2.maximal ?_
            intro vs v w ws post e1 e2
            subst e1
            have hv := collect_last _ _ _ _ hb1
            rw [hla] at hv
            have pre := i2.pre
            rw [e2, hb2e] at pre
            obtain ⟨t, ht'⟩ := pre
            simp at ht'
            rw [ht'.1]
            intro e
            apply hd'
            rw [viewOp_ref hv2, e, ← viewOp_id hv, r1]
          · rw [i2.status, hup]
            simp only [List.length_append]
            by_cases e : (upTo cutoff b2).length < b2.length
            · rw [if_pos e, if_pos (by omega)]
            · rw [if_neg e, if_neg (by omega)]

end Ron.Chains
