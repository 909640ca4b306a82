import Verif.Lemmas.TextMerge
import Verif.Lemmas.Chains
import Verif.Model.TextState
/-!
The chains of a log as text, and the state made of them.
-/
namespace Ron.TextMerge
open Ron Spec Cursor Chains

attribute [local irreducible] Atom.type Atom.rBegin Atom.rEnd Atom.cp Atom.cpSize Atom.setCp
  Atom.setCpSize Atom.consume Atom.ofRange Atom.rawValid Uuid.inc

theorem noOverlong_take : ∀ {l : List Byte} (n : Nat), NoOverlong l → NoOverlong (l.take n)
  | [], _, _ => by simp [NoOverlong]
  | _ :: _, 0, _ => trivial
  | [a], n + 1, h => by simpa using h
  | a :: b :: l, 1, h => by
    simp only [List.take_succ_cons, List.take_zero, NoOverlong] at h ⊢
    exact ⟨h.1, h.2.1⟩
  | a :: b :: l, n + 2, h => by
    have := noOverlong_take (l := b :: l) (n + 1) h.2.2.2.2
    simp only [List.take_succ_cons, NoOverlong] at h this ⊢
    exact ⟨h.1, h.2.1, h.2.2.1, h.2.2.2.1, this⟩

theorem slice_take {buf : List Byte} {n b e : Nat} (he : e ≤ n) : slice (buf.take n) b e = slice buf b e := by
  unfold slice
  rw [List.drop_take, List.take_take]
  congr 1
  omega

theorem rawOrChar_take {buf : List Byte} {n : Nat} {a : Atom} {v : View}
    (ho : AtomOk (buf.take n) a) (h : TextParser.RawOrChar buf a v) : TextParser.RawOrChar (buf.take n) a v := by
  have hlen : (buf.take n).length ≤ n := by rw [List.length_take]; omega
  rcases h with h | h
  · left
    have data : ∀ {w}, Atom.rBegin a ≤ Atom.rEnd a → Atom.rEnd a ≤ (buf.take n).length → atomData buf a = .ok w →
        atomData (buf.take n) a = .ok w := by
      intro w h1 h2 h
      unfold atomData at h ⊢
      rw [if_neg (by omega), if_neg (by rw [List.length_take] at h2; omega)] at h
      rw [if_neg (by omega), if_neg (by omega), slice_take (by omega)]
      exact h
    cases v with
    | int i =>
      obtain ⟨ht, w, hw, hi⟩ := h
      have := ho.int ht
      exact ⟨ht, w, data this.1 this.2.1 hw, hi⟩
    | float w =>
      obtain ⟨ht, hw, hi⟩ := h
      have := ho.float ht
      exact ⟨ht, data this.1 this.2.1 hw, hi⟩
    | uuid u => exact h
    | text t =>
      obtain ⟨h0, s, xs, h1, h2, h3⟩ := h
      obtain ⟨b, _, _, h4, h5, _⟩ := ho.string h3.type
      exact ⟨h0, s, xs, h1, h2, h3.type, h3.raw, h3.le, by omega, by rw [slice_take (by omega)]; exact h3.text, h3.size⟩
  · exact .inr h

/-- The cursor is at an op of a frame that can be copied, and the op is read. -/
def AtV (c : Cursor) (x : Nat × OpView) : Prop := At c x ∧ viewOp c = .ok x.2

theorem same2_mem {α β : Type} {R S : α → β → Prop} {l : List α} {m : List β} (h : Same2 R l m) :
    (∀ a ∈ l, ∀ b, R a b → S a b) → Same2 S l m := by
  induction h with
  | nil => intro _; exact .nil
  | cons h _ ih => intro hs; exact .cons (hs _ (by simp) _ h) (ih fun a ha => hs a (by simp [ha]))

theorem atV_cut {buf : List Byte} (hn : buf.length < 10 ^ 9 - 1) (hl : ¬ LongWord buf) {c : Cursor} {x : Nat × OpView}
    {n : Nat} (hp : Passed buf c) (h1 : c.beg ≤ n) (h2 : n ≤ buf.length) (h : AtV c x) : AtV (c.cutAt n) x := by
  have hc := hp.local hn hl
  obtain ⟨⟨buf', b1, b2, b3, b4⟩, hv⟩ := h
  have e : buf' = buf := by rw [← b3.buf]; exact hc.basic.buf
  subst e
  refine ⟨⟨buf'.take n, by rw [List.length_take]; omega, noOverlong_take n b2, ⟨?_, b3.cs, b3.term, ?_, b3.idType, b3.refType⟩, b4⟩, ?_⟩
  · show c.buf.take n = _
    rw [b3.buf]
  · obtain ⟨xs, e, hs⟩ := b3.op
    refine ⟨xs, e, ?_⟩
    refine same2_mem hs fun a ha v hr => rawOrChar_take ?_ hr
    refine (hc.op n h1 h2).all a ?_
    rw [e]
    simp [ha]
  · rw [(hc.view hn h1 h2).1]; exact hv

theorem same2_split {α β : Type} {R : α → β → Prop} : ∀ {l m : List α} {x : List β}, Same2 R (l ++ m) x →
    ∃ y z, x = y ++ z ∧ Same2 R l y ∧ Same2 R m z
  | [], _, x, h => ⟨[], x, rfl, .nil, h⟩
  | a :: l, m, x, h => by
    rw [List.cons_append] at h
    cases h with
    | cons h t =>
      obtain ⟨y, z, rfl, h1, h2⟩ := same2_split t
      exact ⟨_ :: y, z, rfl, .cons h h1, h2⟩

/-- The chains of a log begin at ops of it, cut after the last one. -/
theorem loop_starts {β : Type} {D : Cursor → β → Prop} {buf : List Byte} (hn : buf.length < 10 ^ 9 - 1)
    (hl : ¬ LongWord buf)
    (hcut : ∀ {c x n}, Passed buf c → c.beg ≤ n → n ≤ buf.length → D c x → D (c.cutAt n) x)
    (cutoff : Uuid) : ∀ (fuel : Nat) (c : Cursor) (l : List Cursor) (st : NextStatus) (prev : Uuid)
    (acc : List Cursor) (s0 : NextStatus) (xs : List β), Trail c l st → Passed buf c →
    prev ≠ cutoff → Same2 D (c :: l) xs → l.length + 1 < fuel →
    ∃ chains st' xss, loop cutoff fuel prev c c acc s0 = .ok (some (acc ++ chains, st')) ∧
      Same2 (Starts D) chains xss ∧ xss.flatten <+: xs := by
  intro fuel
  induction fuel with
  | zero => intro c l st prev acc s0 vs _ _ _ _ h; omega
  | succ fuel ih =>
    intro c l st prev acc s0 xs ht hp hprev hxs hf
    have hc := hp.local hn hl
    obtain ⟨⟨i, at', cur', st1⟩, hr, ro⟩ := runEnd_trail hn hl cutoff ht hp (fuel + 1) (by omega)
    have happ := takeRun_append cutoff l c
    have r1 := ro.id
    have r2 := ro.beg
    have r3 := ro.stop
    have r4 := ro.more
    revert r1 r2 r3 r4 happ
    generalize (takeRun cutoff c l).1 = run
    generalize (takeRun cutoff c l).2 = rest
    simp only
    intro happ r1 r2 r3 r4
    clear ro
    subst happ
    rw [loop, if_pos ⟨by rw [hc.cs]; decide, hprev⟩, hr]
    simp only [Out.bind]
    cases rest with
    | nil =>
      obtain ⟨rfl, h0⟩ := r3 rfl
      rw [if_neg (trail_ne ht)]
      have hloop : ∀ p, loop cutoff fuel p cur' c (acc ++ [c]) st1 = .ok (some (acc ++ [c], st1)) := by
        intro p
        cases fuel with
        | zero => simp at hf
        | succ fuel => rw [loop, if_neg (fun x => x.1 h0)]
      cases hxs with
      | @cons _ x _ xs hd hm =>
        exact ⟨[c], st1, [x :: xs], hloop _, .cons ⟨x, xs, rfl, _, _, ht, hd, hm⟩ .nil, by simp⟩
    | cons d l' =>
      obtain ⟨rfl, rfl, td, hd⟩ := r4 d l' rfl
      rw [if_pos rfl]
      obtain ⟨begc, bm, pl, tl⟩ := trail_beg hn hl _ _ ht hp
      have cutT := trail_cut hn hl _ _ ht hp
      have ts := trail_stop hn hl tl pl
      rw [← r2]
      revert cutT ts bm pl r1 tl begc
      generalize hla : lastOf c run = la
      intro r1 begc bm pl tl cutT ts
      have hp' : Passed buf cur' := by cases tl with | more h _ => exact .next pl h
      -- the ops of the chain
      have key : ∀ sp, (∀ e ∈ (cur' :: l').take sp, e.beg ≤ la.beg) →
          Trail (c.cutAt la.beg) ((run ++ (cur' :: l').take sp).map fun d => d.cutAt la.beg) .endOfFrame →
          ∃ ys zs, xs = ys ++ zs ∧ Starts D (c.cutAt la.beg) ys ∧ Same2 D ((cur' :: l').drop sp) zs := by
        intro sp hb hT
        have e : c :: (run ++ cur' :: l') = c :: (run ++ (cur' :: l').take sp) ++ (cur' :: l').drop sp := by
          rw [List.cons_append, List.append_assoc, List.take_append_drop]
        rw [e] at hxs
        obtain ⟨ys, zs, rfl, h1, h2⟩ := same2_split hxs
        refine ⟨ys, zs, rfl, ?_, h2⟩
        cases h1 with
        | @cons _ x _ xs hd hm =>
          refine ⟨x, xs, rfl, _, _, hT, hcut hp begc (pl.local hn hl).basic.beg hd, ?_⟩
          refine same2_mapl (R := D) ?_
          refine same2_mem hm fun e he v h => ?_
          refine hcut ?_ ?_ (pl.local hn hl).basic.beg h
          · refine passed_trail ht hp e ?_
            rcases List.mem_append.1 he with he | he
            · exact List.mem_append_left _ he
            · exact List.mem_append_right _ (List.mem_of_mem_take he)
          · rcases List.mem_append.1 he with he | he
            · exact bm e he
            · exact hb e he
      by_cases hcut' : i = cutoff
      · subst hcut'
        have hloop : ∀ acc', loop i fuel i cur' cur' acc' .ok = .ok (some (acc', .ok)) := by
          intro acc'
          cases fuel with
          | zero => simp at hf
          | succ fuel => rw [loop, if_neg (fun x => x.2 rfl)]
        obtain ⟨ys, zs, rfl, k1, -⟩ := key la.span (fun e he => Nat.le_of_eq (ts.2.2 e he)) cutT
        exact ⟨_, _, [ys], hloop _, .cons k1 .nil, by simp⟩
      · have hd' := hd.resolve_left hcut'
        have hspan : la.span = 0 := by
          by_cases e : la.span = 0
          · exact e
          · cases tl with
            | more h _ =>
              have := span_ref ((pl.local hn hl).op _ (pl.local hn hl).basic.beg (Nat.le_refl _)) e h
              exact absurd (this.trans r1) hd'
        rw [hspan] at cutT
        obtain ⟨ys, zs, rfl, k1, k2⟩ := key 0 (by simp) cutT
        obtain ⟨chains, st', xss, i1, i2, i3⟩ := ih cur' l' st i (acc ++ [c.cutAt la.beg]) .ok zs td hp' hcut'
          k2 (by simp at hf; omega)
        refine ⟨c.cutAt la.beg :: chains, st', ys :: xss, ?_, .cons k1 i2, ?_⟩
        · rw [i1]; simp
        · simp only [List.flatten_cons]
          exact (List.prefix_append_right_inj _).2 i3

/-- A chain has the ops that it is read as. -/
theorem starts_ops {c : Cursor} {xs : List (Nat × OpView)} {ops : List OpView} {st : NextStatus} (h : Starts AtV c xs)
    (h' : ChainOps c ops st) : xs.map Prod.snd = ops := by
  obtain ⟨x, ys, rfl, m, st', ht, hd, hm⟩ := h
  obtain ⟨fuel, l, h1, h2⟩ := h'
  have hT := trail_of_iterate _ _ _ _ h1
  have e : ∀ {c : Cursor} {l l' : List Cursor} {st st' : NextStatus}, Trail c l st → Trail c l' st' → l = l' := by
    intro c l l' st st' h
    induction h generalizing l' st' with
    | stop h h0 =>
      intro h'
      cases h' with
      | stop k k0 => rfl
      | more k _ => rw [h] at k; cases k; exact absurd rfl h0
    | more h _ ih =>
      intro h'
      cases h' with
      | stop k k0 => rw [h] at k; cases k; exact absurd rfl k0
      | more k t => rw [h] at k; cases k; rw [ih t]
  obtain rfl := e ht hT
  have col : ∀ {m : List Cursor} {l : List (Nat × OpView)}, Same2 AtV m l → collect viewOp m = .ok (l.map Prod.snd) := by
    intro m l h
    induction h with
    | nil => rfl
    | cons h _ ih => simp only [collect, h.2, ih, Out.bind, List.map_cons]
  have := col (.cons hd hm)
  rw [h2] at this
  injection this with this
  exact this.symm

theorem starts_imp {β : Type} {D E : Cursor → β → Prop} (hi : ∀ {c x}, D c x → E c x) {c : Cursor} {l : List β}
    (h : Starts D c l) : Starts E c l := by
  obtain ⟨x, xs, rfl, m, st, ht, hd, hm⟩ := h
  exact ⟨x, xs, rfl, m, st, ht, hi hd, TextParser.same2_imp (fun _ _ => hi) hm⟩

/-- The chains of a log that can be copied. -/
theorem split_ok {i : List Byte × List (Nat × OpView)} (hi : Copyable i) (hn : i.1.length < 10 ^ 9 - 1)
    (hl : ¬ LongWord i.1) {cutoff : Uuid} (hc : cutoff ≠ Uuid.NIL)
    (hs : ∀ d, Passed i.1 d → d.id = some cutoff → d.span = 0) {fuel : Nat} (hf : i.2.length < fuel) :
    ∃ chains xss, splitLog fuel cutoff i.1 = .ok (some (chains, .ok)) ∧ Same2 (Starts At) chains xss ∧
      xss.flatten <+: i.2 ∧ xss.flatten.map Prod.snd = upTo cutoff (i.2.map Prod.snd) ∧
      (∀ l ∈ xss, l ≠ [] ∧ Consecutive (l.map Prod.snd)) ∧ Maximal (xss.map (List.map Prod.snd)) := by
  obtain ⟨buf, xs⟩ := i
  simp only at hn hl hs hf ⊢
  obtain ⟨m, h1, h2, -, h4⟩ := TextParser.frame_trail hi.size hi.text (cur := Cursor.init buf)
    ⟨rfl, rfl, rfl, .inr ⟨rfl, rfl⟩⟩ Cursor.type_nil rfl
  have hat : Same2 AtV m xs := by
    have key : ∀ {m : List Cursor} {l : List (Nat × OpView)}, Same2 (TextParser.Holds buf) m l →
        collect viewOp m = .ok (l.map Prod.snd) → (∀ x ∈ l, ∀ v ∈ x.2.vals, CopyOk v) → Same2 AtV m l := by
      intro m l h
      induction h with
      | nil => intro _ _; exact .nil
      | cons h _ ih =>
        intro hc hv
        obtain ⟨v, vs, c1, c2, e⟩ := collect_cons hc
        simp only [List.map_cons, List.cons.injEq] at e
        obtain ⟨rfl, rfl⟩ := e
        exact .cons ⟨⟨buf, hi.size, hi.short, h, hv _ (by simp)⟩, c1⟩ (ih c2 fun y hy => hv y (by simp [hy]))
    exact key h4 h2 hi.vals
  cases h1 with
  | stop hx h0 =>
    cases hat
    refine ⟨[], [], ?_, .nil, by simp, rfl, by simp, ?_⟩
    · unfold splitLog
      rw [hx]
      simp only [Out.bind]
      rw [if_neg h0]
    · intro pre vs v w ws post e
      simp at e
  | @more _ c l st hx t =>
    have hp : Passed buf c := .first hx
    have hlen := collect_length h2
    simp only [List.length_map, List.length_cons] at hlen
    obtain ⟨chains, st', css, i1, i2⟩ := loop_trail hn hl cutoff fuel c l _ ⟨0#64, 0#64⟩ [] .ok _ t hp
      (fun e => hc e.symm) h2 (by omega)
    obtain ⟨chains', st'', xss, j1, j2, j3⟩ := loop_starts (D := AtV) hn hl (fun a b c d => atV_cut hn hl a b c d) cutoff
      fuel c l _ ⟨0#64, 0#64⟩ [] .ok _ t hp (fun e => hc e.symm) hat (by omega)
    rw [i1] at j1
    simp only [Out.ok.injEq, Option.some.injEq, Prod.mk.injEq, List.append_cancel_left_eq] at j1
    obtain ⟨rfl, rfl⟩ := j1
    have hcss : xss.map (List.map Prod.snd) = css := by
      have key : ∀ {chains : List Cursor} {xss : List (List (Nat × OpView))} {css : List (List OpView)},
          Same2 (Starts AtV) chains xss →
          Same2 (fun ch cs => ∃ e, ChainOps ch cs e ∧ (e = .endOfFrame ∨ e = .endOfFrame)) chains css →
          xss.map (List.map Prod.snd) = css := by
        intro chains xss css h
        induction h generalizing css with
        | nil => intro h'; cases h'; rfl
        | cons h _ ih =>
          intro h'
          cases h' with
          | cons h1 h2 =>
            obtain ⟨e, h1, -⟩ := h1
            rw [List.map_cons, starts_ops h h1, ih h2]
      exact key j2 i2.ops
    subst hcss
    have hst : (if st' = .endOfFrame then NextStatus.ok else st') = .ok := by
      rw [i2.status]
      split
      · split <;> rfl
      · rfl
    refine ⟨chains, xss, ?_, TextParser.same2_imp (fun _ _ => starts_imp fun h => h.1) j2, j3, ?_, ?_, i2.maximal⟩
    · unfold splitLog
      rw [hx]
      simp only [Out.bind, if_true, i1, Option.map_some, List.nil_append, hst]
    · obtain ⟨extra, e1, e2⟩ := i2.cut
      have he : extra = [] := by
        rcases e2 with h | ⟨d, d1, d2, d3⟩
        · exact h
        · rw [hs d d1 d2] at d3
          exact List.length_eq_zero_iff.1 d3.symm
      rw [List.map_flatten, e1, he, List.append_nil]
    · intro l hl
      have := i2.each _ (List.mem_map.2 ⟨l, hl, rfl⟩)
      exact ⟨fun e => this.1 (by rw [e]; rfl), this.2⟩

end Ron.TextMerge

namespace Ron.Chains
open Ron Spec Cursor

theorem runEnd_mono {cutoff : Uuid} : ∀ {n : Nat} {c : Cursor} {r : Uuid × Nat × Cursor × NextStatus},
    runEnd cutoff n c = .ok (some r) → ∀ j, runEnd cutoff (n + j) c = .ok (some r) := by
  intro n
  induction n with
  | zero => intro c r h; simp [runEnd] at h
  | succ n ih =>
    intro c r h j
    rw [show n + 1 + j = (n + j) + 1 by omega]
    rw [runEnd] at h ⊢
    split
    · rename_i e; rw [e] at h; cases h
    · rename_i prev e
      rw [e] at h
      simp only at h
      obtain ⟨y, h1, h2⟩ := bind_ok h
      rw [h1, Op.obind]
      split at h2
      · rename_i hc; rw [if_pos hc]; exact ih h2 j
      · rename_i hc; rw [if_neg hc]; exact h2

theorem loop_mono {cutoff : Uuid} : ∀ {n : Nat} {prev : Uuid} {c d : Cursor} {acc : List Cursor} {s0 : NextStatus}
    {r : List Cursor × NextStatus}, loop cutoff n prev c d acc s0 = .ok (some r) →
    ∀ j, loop cutoff (n + j) prev c d acc s0 = .ok (some r) := by
  intro n
  induction n with
  | zero => intro prev c d acc s0 r h; simp [loop] at h
  | succ n ih =>
    intro prev c d acc s0 r h j
    rw [show n + 1 + j = (n + j) + 1 by omega]
    rw [loop] at h ⊢
    split
    · rename_i hc
      rw [if_pos hc] at h
      obtain ⟨y, h1, h2⟩ := bind_ok h
      cases y with
      | none => simp at h2
      | some y =>
        have := runEnd_mono h1 j
        rw [show n + 1 + j = (n + j) + 1 by omega] at this
        rw [this, Op.obind]
        simp only at h2 ⊢
        split
        · rename_i hs; rw [if_pos hs] at h2; exact ih h2 j
        · rename_i hs; rw [if_neg hs] at h2; exact ih h2 j
    · rename_i hc
      rw [if_neg hc] at h
      exact h

theorem splitLog_mono {n : Nat} {cutoff : Uuid} {buf : List Byte} {r : List Cursor × NextStatus}
    (h : splitLog n cutoff buf = .ok (some r)) (j : Nat) : splitLog (n + j) cutoff buf = .ok (some r) := by
  unfold splitLog at h ⊢
  obtain ⟨y, h1, h2⟩ := bind_ok h
  rw [h1, Op.obind]
  split
  · rename_i hs
    rw [if_pos hs] at h2
    obtain ⟨z, h3, h4⟩ := bind_ok h2
    cases z with
    | none => simp at h4
    | some z => rw [loop_mono h3 j, Op.obind]; exact h4
  · rename_i hs
    rw [if_neg hs] at h2
    exact h2

end Ron.Chains

namespace Ron.TextMerge
open Ron Spec Cursor

variable {mx : Builder → List Cursor → Out (Option (Builder × Status))}

theorem logIntoState_mono {n : Nat} {b : Builder} {log : List Byte} {x : Uuid} {r : Builder × Status}
    (h : logIntoState mx n b log x = .ok (some r)) (j : Nat) : logIntoState mx (n + j) b log x = .ok (some r) := by
  unfold logIntoState at h ⊢
  obtain ⟨y, h1, h2⟩ := bind_ok h
  cases y with
  | none => simp at h2
  | some y =>
    obtain ⟨chains, st⟩ := y
    rw [Chains.splitLog_mono h1 j, Op.obind]
    simp only at h2 ⊢
    split
    · rename_i hs
      rw [if_pos hs] at h2
      cases chains with
      | nil => exact h2
      | cons c cs =>
        simp only at h2 ⊢
        split
        · rename_i e; rw [e] at h2; exact h2
        · rename_i e; rw [e] at h2; exact master_mono h2 j
    · rename_i hs
      rw [if_neg hs] at h2
      exact h2

theorem logToState_mono {n : Nat} {log : List Byte} {x : Uuid} {r : Status × List Byte}
    (h : logToState mx n log x = .ok (some r)) (j : Nat) : logToState mx (n + j) log x = .ok (some r) := by
  unfold logToState at h ⊢
  obtain ⟨y, h1, h2⟩ := bind_ok h
  cases y with
  | none => simp at h2
  | some y => rw [logIntoState_mono h1 j, Op.obind]; exact h2

theorem logVersion_mono {n : Nat} {log : List Byte} {x : Uuid} {r : Status × List Byte}
    (h : logVersion mx n log x = .ok (some r)) (j : Nat) : logVersion mx (n + j) log x = .ok (some r) := by
  unfold logVersion at h ⊢
  obtain ⟨y, h1, h2⟩ := bind_ok h
  cases y with
  | none => simp at h2
  | some y =>
    obtain ⟨chains, st⟩ := y
    rw [Chains.splitLog_mono h1 j, Op.obind]
    simp only at h2 ⊢
    split
    · rename_i hs
      rw [if_pos hs] at h2
      obtain ⟨f, h3, h4⟩ := bind_ok h2
      rw [h3, Op.obind]
      cases f with
      | none => exact h4
      | some f => exact mergeCursors_mono h4 j
    · rename_i hs
      rw [if_neg hs] at h2
      exact h2

end Ron.TextMerge
