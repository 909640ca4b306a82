import Verif.Lemmas.TextMerge
import Verif.Model.TextChain
import Verif.Spec.TextChain
/-!
Chains are stored as text.
-/
namespace Ron.TextChain
open Ron Commit Spec TextParser

theorem heading_holds {buf : List Byte} {c : Cursor} {x : Nat × OpView} (h : Holds buf c x) :
    heading c = some ⟨x.2.id, x.2.ref, [], .raw⟩ := by
  obtain ⟨xs, ho, -⟩ := h.op
  unfold heading Cursor.id Cursor.ref
  rw [ho]
  rfl

theorem fits_cursor {buf : List Byte} (hn : buf.length < 2 ^ 30) (hu : NoOverlong buf) {c : Cursor} {x : Nat × OpView}
    (h : Holds buf c x) (hv : ∀ v ∈ x.2.vals, CopyOk v) :
    Builder.Fits copyHeadOk (.op (Builder.copyValue c) c.src) (.op x.2) := by
  obtain ⟨y, s1, s2⟩ := Builder.shown_cursor hn hu (t := x.1) (o := x.2) h hv
  exact .op s1 s2

theorem event_sane {p : Uuid} {o : AOp} (hp : p.version = Uuid.vTIME) (h1 : o.id.version = Uuid.vTIME)
    (h2 : o.ref = p) (h3 : Uuid.lt p o.id = true) : (checkEventSanity o).ok = true := by
  unfold checkEventSanity
  rw [if_neg (by simpa using h1), h2, if_pos hp, if_neg]
  · decide
  · unfold Uuid.ge
    rw [h3]; decide

/-- A cursor at an op, which reads as it. -/
def Held (buf : List Byte) (c : Cursor) (x : Nat × OpView) : Prop := Holds buf c x ∧ viewOp c = .ok x.2

theorem held_of {buf : List Byte} {m : List Cursor} {l : List (Nat × OpView)} (h : Same2 (Holds buf) m l)
    (hc : collect viewOp m = .ok (l.map Prod.snd)) : Same2 (Held buf) m l := by
  induction h with
  | nil => exact .nil
  | @cons c x m l h _ ih =>
    unfold collect at hc
    obtain ⟨v, e1, hc⟩ := Cursor.bind_ok hc
    obtain ⟨vs, e2, hc⟩ := Cursor.bind_ok hc
    injection hc with hc
    rw [List.map_cons] at hc
    injection hc with e3 e4
    subst e3 e4
    exact .cons ⟨h, e1⟩ (ih e2)

theorem work_cons {w : Builder.Work} {ws : List Builder.Work} {b b' : Builder}
    (h : Builder.doWork (w :: ws) b = .ok b') :
    ∃ b1, Builder.doWork [w] b = .ok b1 ∧ Builder.doWork ws b1 = .ok b' := by
  cases w with
  | op f s =>
    rw [Builder.doWork] at h
    obtain ⟨b1, h1, h2⟩ := Cursor.bind_ok h
    refine ⟨b1, ?_, h2⟩
    rw [Builder.doWork, h1, Op.obind, Builder.doWork]
  | endChunk t =>
    rw [Builder.doWork] at h
    obtain ⟨b1, h1, h2⟩ := Cursor.bind_ok h
    refine ⟨b1, ?_, h2⟩
    rw [Builder.doWork, h1, Op.obind, Builder.doWork]

theorem work_cursor {c : Cursor} {b b' : Builder}
    (h : Builder.doWork [.op (Builder.copyValue c) c.src] b = .ok b') : b.appendCursor c = .ok b' := by
  rw [Builder.doWork] at h
  obtain ⟨b1, h1, h2⟩ := Cursor.bind_ok h
  rw [Builder.doWork] at h2
  injection h2 with h2
  subst h2
  exact h1

theorem lastId_cons (p : Uuid) (o : OpView) (l : List OpView) : lastId p (o :: l) = lastId o.id l := by
  unfold lastId
  cases l with
  | nil => rfl
  | cons a l =>
    rw [List.getLast?_cons_cons]
    cases h : (a :: l).getLast? with
    | none => simp at h
    | some x => rfl

/-- The loop over a chain. -/
theorem walk_ok (hash : Cursor → Digest → Digest → Digest) {buf : List Byte} (hn : buf.length < 2 ^ 30)
    (hu : NoOverlong buf) {p : Uuid} {ops chain rest : List OpView} (h : ChainFrom p ops chain rest) :
    ∀ {c : Cursor} {m : List Cursor} {l : List (Nat × OpView)} {s : Walk}, Chains.Trail c m .endOfFrame →
    Same2 (Held buf) m l → l.map Prod.snd = ops → (∀ x ∈ l, ∀ v ∈ x.2.vals, CopyOk v) → s.m.id = p →
    p.version = Uuid.vTIME → (p.origin = s.base.origin → Uuid.le s.tip p = true) →
    ∃ N works s' c', Same2 (Builder.Fits copyHeadOk) works (chain.map Step.op) ∧
      (∀ w ∈ works, Builder.WholeWork w) ∧ (∀ b b', Builder.doWork works b = .ok b' → ∀ n, N ≤ n →
        walk hash n s b c = .ok (some (Status.OK, s', b', c'))) ∧
      s'.m.id = lastId p chain ∧ s'.m.object = s.m.object ∧ s'.m.rdt = s.m.rdt ∧
      (rest = [] → c'.cs = 0) ∧ ∀ o, rest.head? = some o → viewOp c' = .ok o := by
  induction h with
  | done p =>
    intro c m l s ht hs hl hv hm hp htip
    have : l = [] := List.map_eq_nil_iff.1 hl
    subst this
    cases hs
    generalize e : Cursor.NextStatus.endOfFrame = st at ht
    cases ht with
    | @stop _ c' _ h1 h2 =>
      subst e
      refine ⟨1, [], s, c', .nil, by simp, ?_, hm, rfl, rfl, fun _ => Builder.next_invalid h1 h2, fun o ho => by cases ho⟩
      intro b b' hb n hn
      match n, hn with
      | n + 1, _ =>
      rw [Builder.doWork] at hb
      injection hb with hb
      rw [walk, h1, Op.obind]
      simp only
      rw [if_pos (by decide), if_pos trivial, hb]
  | @other p o os h1 h2 =>
    intro c m l s ht hs hl hv hm hp htip
    match l, hs, hl, ht with
    | x :: l, @Same2.cons _ _ _ c' _ m' _ hx hr, hl, ht =>
    rw [List.map_cons] at hl
    injection hl with e1 e2
    subst e1 e2
    cases ht with
    | more h3 h4 =>
    refine ⟨1, [], s, c', .nil, by simp, ?_, hm, rfl, rfl, fun h => by (cases h), fun o ho => ?_⟩
    · intro b b' hb n hn
      match n, hn with
      | n + 1, _ =>
      rw [Builder.doWork] at hb
      injection hb with hb
      rw [walk, h3, Op.obind]
      simp only
      rw [if_neg (by decide), heading_holds hx.1]
      simp only
      rw [if_neg h1, if_neg, if_neg, hb]
      · simp only [OpMeta.isCheck, hm, h2, decide_false, Bool.and_false]; decide
      · simp only [OpMeta.isNext, hm, h2, decide_false, Bool.and_false]; decide
    · injection ho with ho
      rw [← ho]
      exact hx.2
  | @comment p o os chain rest h1 h2 ih =>
    intro c m l s ht hs hl hv hm hp htip
    match l, hs, hl, ht with
    | x :: l, @Same2.cons _ _ _ c' _ m' _ hx hr, hl, ht =>
    rw [List.map_cons] at hl
    injection hl with e1 e2
    subst e1 e2
    cases ht with
    | more h3 h4 =>
    obtain ⟨N, works, s', c'', g1, g0, g2, g3⟩ := ih h4 hr rfl (fun y hy => hv y (List.mem_cons_of_mem _ hy)) hm hp htip
    refine ⟨N + 1, works, s', c'', g1, g0, ?_, g3⟩
    intro b b' hb n hn
    match n, hn with
    | n + 1, hn =>
    rw [walk, h3, Op.obind]
    simp only
    rw [if_neg (by decide), heading_holds hx.1]
    simp only
    rw [if_pos h1]
    exact g2 b b' hb n (by omega)
  | @next p o os chain rest h1 h2 h3 h4 h5 ih =>
    intro c m l s ht hs hl hv hm hp htip
    match l, hs, hl, ht with
    | x :: l, @Same2.cons _ _ _ c' _ m' _ hx hr, hl, ht =>
    rw [List.map_cons] at hl
    injection hl with e1 e2
    subst e1 e2
    cases ht with
    | more h6 h7 =>
    have hnm : ∃ m1, nextMeta hash s.m c' ⟨x.2.id, x.2.ref, [], .raw⟩ = .ok m1 ∧ m1.id = x.2.id ∧
        m1.object = s.m.object ∧ m1.rdt = s.m.rdt := by
      unfold nextMeta OpMeta.next
      rw [if_pos ⟨by rw [h2, hm], by unfold Uuid.gt; rw [hm]; exact h3⟩]
      exact ⟨_, rfl, rfl, rfl, rfl⟩
    obtain ⟨m1, n1, n2, n3, n4⟩ := hnm
    have hnc : x.2.id ≠ COMMENT := by
      intro e; rw [e] at h1; exact absurd h1 (by decide)
    have hnx : s.m.isNext ⟨x.2.id, x.2.ref, [], .raw⟩ = true := by
      simp only [OpMeta.isNext, hm, h1, h2, h4, Uuid.gt, h3, decide_true, Bool.and_true]
    have hsane := event_sane (o := ⟨x.2.id, x.2.ref, [], .raw⟩) hp h1 h4 h3
    have hlater : x.2.id.origin = s.base.origin → ¬ Uuid.le x.2.id s.tip = true := by
      intro e hle
      have := htip (by rw [← h2, e])
      unfold Uuid.le at this hle
      simp only [Bool.not_eq_true'] at this hle
      rcases Rdt.uuid_lin.tri s.tip p with g | g | g
      · rw [Rdt.uuid_lin.trans _ _ _ g h3] at hle; cases hle
      · rw [g, h3] at hle; cases hle
      · rw [g] at this; cases this
    have hf := fits_cursor hn hu hx.1 (hv x (by simp))
    have hw : ∀ works : List Builder.Work, (∀ w ∈ works, Builder.WholeWork w) →
        ∀ w ∈ Builder.Work.op (Builder.copyValue c') c'.src :: works, Builder.WholeWork w := by
      intro works h w hw
      rcases List.mem_cons.1 hw with rfl | hw
      · exact Builder.cursor_whole hu (t := x.1) (o := x.2) hx.1
      · exact h w hw
    by_cases ho : x.2.id.origin = s.base.origin
    · obtain ⟨N, works, s', c'', g1, g0, g2, g3, g4, g5, g6⟩ := ih (s := { s with m := m1, tip := x.2.id }) h7 hr rfl
        (fun y hy => hv y (List.mem_cons_of_mem _ hy)) n2 h1 (fun _ => by simp [Uuid.le, Rdt.uuid_lin.irrefl])
      refine ⟨N + 1, .op (Builder.copyValue c') c'.src :: works, s', c'', .cons hf g1, hw works g0, ?_, ?_, ?_, ?_, g6⟩
      · intro b b' hb n hn
        match n, hn with
        | n + 1, hn =>
        obtain ⟨b1, w1, w2⟩ := work_cons hb
        rw [walk, h6, Op.obind]
        simp only
        rw [if_neg (by decide), heading_holds hx.1]
        simp only
        rw [if_neg hnc, if_pos hnx, if_neg (by simpa using hsane), n1, Op.obind, work_cursor w1, Op.obind, if_pos ho,
          if_neg (hlater ho)]
        exact g2 b1 b' w2 n (by omega)
      · rw [g3, lastId_cons]
      · rw [g4]; exact n3
      · rw [g5]; exact n4
    · obtain ⟨N, works, s', c'', g1, g0, g2, g3, g4, g5, g6⟩ := ih
        (s := { s with m := m1, max := if Uuid.lt s.max x.2.id then x.2.id else s.max }) h7 hr rfl
        (fun y hy => hv y (List.mem_cons_of_mem _ hy)) n2 h1 (fun e => absurd e ho)
      refine ⟨N + 1, .op (Builder.copyValue c') c'.src :: works, s', c'', .cons hf g1, hw works g0, ?_, ?_, ?_, ?_, g6⟩
      · intro b b' hb n hn
        match n, hn with
        | n + 1, hn =>
        obtain ⟨b1, w1, w2⟩ := work_cons hb
        rw [walk, h6, Op.obind]
        simp only
        rw [if_neg (by decide), heading_holds hx.1]
        simp only
        rw [if_neg hnc, if_pos hnx, if_neg (by simpa using hsane), n1, Op.obind, work_cursor w1, Op.obind, if_neg ho]
        exact g2 b1 b' w2 n (by omega)
      · rw [g3, lastId_cons]
      · rw [g4]; exact n3
      · rw [g5]; exact n4

theorem walk_mono (hash : Cursor → Digest → Digest → Digest) : ∀ {n : Nat} {s : Walk} {b : Builder} {c : Cursor}
    {r : Status × Walk × Builder × Cursor}, walk hash n s b c = .ok (some r) → ∀ k,
    walk hash (n + k) s b c = .ok (some r) := by
  intro n
  induction n with
  | zero => intro s b c r h; simp [walk] at h
  | succ n ih =>
    intro s b c r h k
    rw [show n + 1 + k = n + k + 1 by omega]
    rw [walk] at h ⊢
    obtain ⟨x, h1, h⟩ := Cursor.bind_ok h
    rw [h1, Op.obind]
    split
    · next h2 => rw [if_pos h2] at h; exact h
    · next h2 =>
      rw [if_neg h2] at h
      split
      · next h3 => rw [h3] at h; cases h
      · next o h3 =>
        rw [h3] at h
        simp only at h
        split
        · next h4 => rw [if_pos h4] at h; exact ih h k
        · next h4 =>
          rw [if_neg h4] at h
          split
          · next h5 =>
            rw [if_pos h5] at h
            split
            · next h6 => rw [if_pos h6] at h; exact h
            · next h6 =>
              rw [if_neg h6] at h
              obtain ⟨m, e1, h⟩ := Cursor.bind_ok h
              obtain ⟨b1, e2, h⟩ := Cursor.bind_ok h
              rw [e1, Op.obind, e2, Op.obind]
              split
              · next h7 =>
                rw [if_pos h7] at h
                split
                · next h8 => rw [if_pos h8] at h; exact h
                · next h8 => rw [if_neg h8] at h; exact ih h k
              · next h7 => rw [if_neg h7] at h; exact ih h k
          · next h5 =>
            rw [if_neg h5] at h
            split
            · next h6 =>
              rw [if_pos h6] at h
              split
              · next h7 => rw [if_pos h7] at h; exact h
              · next h7 => rw [if_neg h7] at h; exact ih h k
            · next h6 => rw [if_neg h6] at h; exact h

theorem record_mono (hash : Cursor → Digest → Digest → Digest) {n : Nat} {s : Walk} {c : Cursor}
    {r : Status × List Byte × Walk × Cursor} (h : chainRecord hash n s c = .ok (some r)) (k : Nat) :
    chainRecord hash (n + k) s c = .ok (some r) := by
  unfold chainRecord saveChainlet at h ⊢
  obtain ⟨x, h1, h⟩ := Cursor.bind_ok h
  obtain ⟨b, h2, h1⟩ := Cursor.bind_ok h1
  rw [h2, Op.obind]
  match x, h with
  | some x, h =>
    rw [walk_mono hash h1 k]
    exact h

/-- The same state of the commit and the metadata. -/
structure Like (S : Chainlet) (s : Walk) : Prop where
  m : s.m = S.m
  base : s.base = S.c.base
  tip : s.tip = S.c.tip
  max : s.max = S.c.max

/-- The loop on text does what the loop on ops does. -/
theorem walk_refines (hs : Hashing) (hash : Cursor → Digest → Digest → Digest) {buf : List Byte}
    (hn : buf.length < 2 ^ 30) (hu : NoOverlong buf) (g : Nat × OpView → AOp) (hg1 : ∀ x, (g x).id = x.2.id)
    (hg2 : ∀ x, (g x).ref = x.2.ref) (hg3 : ∀ c x, Holds buf c x → hash c = hs.op (g x)) {st : Cursor.NextStatus}
    {z : Status} {S' : Chainlet} {ops' : List AOp} :
    ∀ {l : List (Nat × OpView)} {c : Cursor} {m : List Cursor} {s : Walk} {S : Chainlet}, Chains.Trail c m st →
    Same2 (Held buf) m l → (∀ x ∈ l, ∀ v ∈ x.2.vals, CopyOk v) → Like S s →
    chainletLoop hs (TextMerge.statusOf st) S (l.map g) = some (z, S', ops') →
    ∃ (N : Nat) (works : List Builder.Work) (s' : Walk) (c' : Cursor) (taken rest : List (Nat × OpView)),
      Same2 (Builder.Fits copyHeadOk) works (taken.map fun x => Step.op x.2) ∧
      ((∀ w ∈ works, Builder.WholeWork w) ∧ (taken.length ≤ l.length ∧ ∀ x ∈ taken, x ∈ l) ∧
        Linked s.m.id (taken.map Prod.snd)) ∧
      (∀ b b', Builder.doWork works b = .ok b' → ∀ n, N ≤ n →
        walk hash n s b c = .ok (some (z, s', b', c'))) ∧
      Like S' s' ∧ S'.to = (taken.map g).foldl ABuilder.append S.to ∧ ops' = rest.map g ∧
      (rest = [] → c'.cs = 0) ∧ ∀ x, rest.head? = some x → viewOp c' = .ok x.2 := by
  intro l
  induction l with
  | nil =>
    intro c m s S ht hsm hv hl h
    cases hsm
    cases ht with
    | @stop _ c' _ h1 h2 =>
    rw [List.map_nil, chainletLoop] at h
    injection h with h
    injection h with h3 h
    injection h with h4 h5
    subst h4 h5
    refine ⟨1, [], s, c', [], [], .nil, ⟨by simp, by simp, trivial⟩, ?_, hl, rfl, rfl, fun _ => Builder.next_invalid h1 h2, fun o ho => by cases ho⟩
    intro b b' hb n hn
    match n, hn with
    | n + 1, _ =>
    rw [Builder.doWork] at hb
    injection hb with hb
    rw [walk, h1, Op.obind]
    simp only
    rw [if_pos h2, hb, ← h3]
    cases st with
    | ok => exact absurd rfl h2
    | endOfFrame => rfl
    | badState => rfl
  | cons x l ih =>
    intro c m s S ht hsm hv hl h
    match m, hsm, ht with
    | c1 :: m, .cons hx hr, ht =>
    cases ht with
    | more h1 h2 =>
    have hv' : ∀ y ∈ l, ∀ v ∈ y.2.vals, CopyOk v := fun y hy => hv y (List.mem_cons_of_mem _ hy)
    have step : ∀ n b, walk hash (n + 1) s b c =
        if x.2.id = COMMENT then walk hash n s b c1
          else if s.m.isNext ⟨x.2.id, x.2.ref, [], .raw⟩ then
            if ¬ (checkEventSanity ⟨x.2.id, x.2.ref, [], .raw⟩).ok then
              .ok (some (checkEventSanity ⟨x.2.id, x.2.ref, [], .raw⟩, s, b, c1))
            else
              (nextMeta hash s.m c1 ⟨x.2.id, x.2.ref, [], .raw⟩).bind fun m =>
                (b.appendCursor c1).bind fun b =>
                  if x.2.id.origin = s.base.origin then
                    if Uuid.le x.2.id s.tip then .ok (some (Status.OK, { s with m := m }, b, c1))
                    else walk hash n { s with m := m, tip := x.2.id } b c1
                  else walk hash n { s with m := m, max := if Uuid.lt s.max x.2.id then x.2.id else s.max } b c1
          else if s.m.isCheck ⟨x.2.id, x.2.ref, [], .raw⟩ then
            if ¬ (OpMeta.check ⟨x.2.id, x.2.ref, [], .raw⟩).ok then
              .ok (some (OpMeta.check ⟨x.2.id, x.2.ref, [], .raw⟩, s, b, c1)) else walk hash n s b c1
          else .ok (some (Status.OK, s, b, c1)) := by
      intro n b
      rw [walk, h1, Op.obind]
      simp only
      rw [if_neg (by decide), heading_holds hx.1]
    have e1 : S.m.isNext (g x) = s.m.isNext ⟨x.2.id, x.2.ref, [], .raw⟩ := by
      simp only [OpMeta.isNext, hg1, hg2, hl.m]
    have e2 : S.m.isCheck (g x) = s.m.isCheck ⟨x.2.id, x.2.ref, [], .raw⟩ := by
      simp only [OpMeta.isCheck, hg1, hg2, hl.m]
    have e3 : checkEventSanity (g x) = checkEventSanity ⟨x.2.id, x.2.ref, [], .raw⟩ := by
      simp only [checkEventSanity, hg1, hg2]
    have e4 : OpMeta.check (g x) = OpMeta.check ⟨x.2.id, x.2.ref, [], .raw⟩ := by
      simp only [OpMeta.check, hg2]
    have e5 : ∀ m', S.m.next hs (g x) S.m = some m' →
        nextMeta hash s.m c1 ⟨x.2.id, x.2.ref, [], .raw⟩ = .ok m' := by
      intro m' h
      unfold nextMeta
      simp only [OpMeta.next, hg1, hg2] at h ⊢
      rw [hl.m, hg3 c1 x hx.1]
      rw [h]
    have stop : ∀ z', chainletLoop hs (TextMerge.statusOf st) S (List.map g (x :: l)) = some (z', S, g x :: l.map g) →
        (∀ n b, walk hash (n + 1) s b c = .ok (some (z', s, b, c1))) →
        ∃ (N : Nat) (works : List Builder.Work) (s' : Walk) (c' : Cursor) (taken rest : List (Nat × OpView)),
      Same2 (Builder.Fits copyHeadOk) works (taken.map fun x => Step.op x.2) ∧
          ((∀ w ∈ works, Builder.WholeWork w) ∧ (taken.length ≤ (x :: l).length ∧ ∀ y ∈ taken, y ∈ x :: l) ∧
            Linked s.m.id (taken.map Prod.snd)) ∧
          (∀ b b', Builder.doWork works b = .ok b' → ∀ n, N ≤ n →
            walk hash n s b c = .ok (some (z, s', b', c'))) ∧
          Like S' s' ∧ S'.to = (taken.map g).foldl ABuilder.append S.to ∧ ops' = rest.map g ∧
          (rest = [] → c'.cs = 0) ∧ ∀ x, rest.head? = some x → viewOp c' = .ok x.2 := by
      intro z' hz hw
      rw [hz] at h
      injection h with h
      injection h with h3 h
      injection h with h4 h5
      subst h3 h4 h5
      refine ⟨1, [], s, c1, [], x :: l, .nil, ⟨by simp, by simp, trivial⟩, ?_, hl, rfl, rfl, fun h => by (cases h), fun o ho => ?_⟩
      · intro b b' hb n hn
        match n, hn with
        | n + 1, _ =>
        rw [Builder.doWork] at hb
        injection hb with hb
        rw [hw, hb]
      · injection ho with ho
        rw [← ho]; exact hx.2
    have skip : chainletLoop hs (TextMerge.statusOf st) S (l.map g) = some (z, S', ops') →
        (∀ n b, walk hash (n + 1) s b c = walk hash n s b c1) →
        ∃ (N : Nat) (works : List Builder.Work) (s' : Walk) (c' : Cursor) (taken rest : List (Nat × OpView)),
      Same2 (Builder.Fits copyHeadOk) works (taken.map fun x => Step.op x.2) ∧
          ((∀ w ∈ works, Builder.WholeWork w) ∧ (taken.length ≤ (x :: l).length ∧ ∀ y ∈ taken, y ∈ x :: l) ∧
            Linked s.m.id (taken.map Prod.snd)) ∧
          (∀ b b', Builder.doWork works b = .ok b' → ∀ n, N ≤ n →
            walk hash n s b c = .ok (some (z, s', b', c'))) ∧
          Like S' s' ∧ S'.to = (taken.map g).foldl ABuilder.append S.to ∧ ops' = rest.map g ∧
          (rest = [] → c'.cs = 0) ∧ ∀ x, rest.head? = some x → viewOp c' = .ok x.2 := by
      intro hz hw
      obtain ⟨N, works, s', c', taken, rest, g1, ⟨q1, q2, q3⟩, g2, g3⟩ := ih h2 hr hv' hl hz
      refine ⟨N + 1, works, s', c', taken, rest, g1, ⟨q1, ⟨Nat.le_succ_of_le q2.1, fun y hy => List.mem_cons_of_mem _ (q2.2 y hy)⟩, q3⟩, ?_, g3⟩
      intro b b' hb n hn
      match n, hn with
      | n + 1, hn =>
      rw [hw]
      exact g2 b b' hb n (by omega)
    have hf := fits_cursor hn hu hx.1 (hv x (by simp))
    have hw : ∀ works : List Builder.Work, (∀ w ∈ works, Builder.WholeWork w) →
        ∀ w ∈ Builder.Work.op (Builder.copyValue c1) c1.src :: works, Builder.WholeWork w := by
      intro works h w hw
      rcases List.mem_cons.1 hw with rfl | hw
      · exact Builder.cursor_whole hu (t := x.1) (o := x.2) hx.1
      · exact h w hw
    have hmem : ∀ {taken : List (Nat × OpView)}, (∀ y ∈ taken, y ∈ l) → ∀ y ∈ x :: taken, y ∈ x :: l := by
      intro taken h y hy
      rcases List.mem_cons.1 hy with rfl | hy
      · simp
      · exact List.mem_cons_of_mem _ (h y hy)
    have hmid : ∀ m', S.m.next hs (g x) S.m = some m' → m'.id = x.2.id := by
      intro m' h
      unfold OpMeta.next at h
      split at h
      · injection h with h
        rw [← h]; exact hg1 x
      · cases h
    rw [List.map_cons, chainletLoop, hg1, e1, e2, e3, e4] at h
    split at h
    · next k1 => exact skip h fun n b => by rw [step, if_pos k1]
    · next k1 =>
      split at h
      · next k2 =>
        split at h
        · next k3 =>
          refine stop _ ?_ fun n b => by rw [step, if_neg k1, if_pos k2, if_pos k3]
          rw [List.map_cons, chainletLoop, hg1, e1, e3, if_neg k1, if_pos k2, if_pos k3]
        · next k3 =>
          obtain ⟨m', k4, h⟩ := TextMerge.optBind h
          have k5 := e5 m' k4
          obtain ⟨n1, n2, n3, n4⟩ : x.2.id.version = Uuid.vTIME ∧ x.2.id.origin = s.m.id.origin ∧
              Uuid.lt s.m.id x.2.id = true ∧ x.2.ref = s.m.id := by
            simp only [OpMeta.isNext, Uuid.gt, Bool.and_eq_true, decide_eq_true_eq] at k2
            exact ⟨k2.1.1.1, k2.1.1.2, k2.1.2, k2.2⟩
          simp only at h
          split at h
          · next k6 =>
            have k6' : x.2.id.origin = s.base.origin := by rw [hl.base]; exact k6
            split at h
            · next k7 =>
              have k7' : Uuid.le x.2.id s.tip = true := by rw [hl.tip]; exact k7
              injection h with h
              injection h with h3 h
              injection h with h4 h5
              subst h3 h4 h5
              refine ⟨1, [.op (Builder.copyValue c1) c1.src], { s with m := m' }, c1, [x], x :: l, .cons hf .nil,
                ⟨hw [] (by simp), by simp, n1, n2, n3, n4, trivial⟩, ?_,
                ⟨rfl, hl.base, hl.tip, hl.max⟩, rfl, rfl, fun h => by (cases h), fun o ho => ?_⟩
              · intro b b' hb n hn
                match n, hn with
                | n + 1, _ =>
                rw [step, if_neg k1, if_pos k2, if_neg k3, k5, Op.obind, work_cursor hb, Op.obind, if_pos k6',
                  if_pos k7']
              · injection ho with ho
                rw [← ho]; exact hx.2
            · next k7 =>
              have k7' : ¬ Uuid.le x.2.id s.tip = true := by rw [hl.tip]; exact k7
              obtain ⟨N, works, s', c', taken, rest, g1, ⟨q1, q2, q3⟩, g2, g3, g4, g5⟩ := ih
                (s := { s with m := m', tip := x.2.id })
                (S := ⟨{ S.c with tip := x.2.id }, m', S.to.append (g x)⟩) h2 hr hv' ⟨rfl, hl.base, rfl, hl.max⟩ h
              refine ⟨N + 1, .op (Builder.copyValue c1) c1.src :: works, s', c', x :: taken, rest, .cons hf g1,
                ⟨hw works q1, ⟨Nat.succ_le_succ q2.1, hmem q2.2⟩, n1, n2, n3, n4, by rw [hmid m' k4] at q3; exact q3⟩, ?_, g3,
                g4, g5⟩
              intro b b' hb n hn
              match n, hn with
              | n + 1, hn =>
              obtain ⟨b1, w1, w2⟩ := work_cons hb
              rw [step, if_neg k1, if_pos k2, if_neg k3, k5, Op.obind, work_cursor w1, Op.obind, if_pos k6',
                if_neg k7']
              exact g2 b1 b' w2 n (by omega)
          · next k6 =>
            have k6' : ¬ x.2.id.origin = s.base.origin := by rw [hl.base]; exact k6
            obtain ⟨N, works, s', c', taken, rest, g1, ⟨q1, q2, q3⟩, g2, g3, g4, g5⟩ := ih
              (s := { s with m := m', max := if Uuid.lt s.max x.2.id then x.2.id else s.max })
              (S := ⟨{ S.c with max := if Uuid.lt S.c.max x.2.id then x.2.id else S.c.max }, m', S.to.append (g x)⟩)
              h2 hr hv' ⟨rfl, hl.base, hl.tip, by simp only [hl.max]⟩ h
            refine ⟨N + 1, .op (Builder.copyValue c1) c1.src :: works, s', c', x :: taken, rest, .cons hf g1,
                ⟨hw works q1, ⟨Nat.succ_le_succ q2.1, hmem q2.2⟩, n1, n2, n3, n4, by rw [hmid m' k4] at q3; exact q3⟩, ?_, g3,
              g4, g5⟩
            intro b b' hb n hn
            match n, hn with
            | n + 1, hn =>
            obtain ⟨b1, w1, w2⟩ := work_cons hb
            rw [step, if_neg k1, if_pos k2, if_neg k3, k5, Op.obind, work_cursor w1, Op.obind, if_neg k6']
            exact g2 b1 b' w2 n (by omega)
      · next k2 =>
        split at h
        · next k3 =>
          split at h
          · next k4 =>
            refine stop _ ?_ fun n b => by rw [step, if_neg k1, if_neg k2, if_pos k3, if_pos k4]
            rw [List.map_cons, chainletLoop, hg1, e1, e2, e4, if_neg k1, if_neg k2, if_pos k3, if_pos k4]
          · next k4 => exact skip h fun n b => by rw [step, if_neg k1, if_neg k2, if_pos k3, if_neg k4]
        · next k3 =>
          refine stop _ ?_ fun n b => by rw [step, if_neg k1, if_neg k2, if_neg k3]
          rw [List.map_cons, chainletLoop, hg1, e1, e2, if_neg k1, if_neg k2, if_neg k3]

/-- Chains are clean, but for the runs. -/
theorem chain_clean : ∀ {p : Uuid} {chain : List OpView} {pv : List View} {mid : Bool}, Linked p chain →
    (∀ o l, chain = o :: l → folds p pv o = true → mid = true ∨ copyHeadOk pv = true) →
    PlainRuns chain → CleanSteps copyHeadOk p pv false mid (chain.map Step.op)
  | _, [], _, _, _, _, _ => trivial
  | p, o :: chain, pv, mid, h, hf, hr => by
    refine ⟨fun _ => h.2.2.2.1, fun h => ⟨rfl, hf o chain rfl h⟩, chain_clean h.2.2.2.2 ?_ ?_⟩
    · intro q l e h'
      subst e
      exact .inr (hr.1 h')
    · cases chain with
      | nil => exact trivial
      | cons a l => exact hr.2

theorem record_clean {x : OpView} {chain : List OpView} (hx : x.id.version = Uuid.vTIME)
    (h : Linked x.id chain) (hr : PlainRuns (x :: chain)) :
    CleanFrom copyHeadOk ((x :: chain).map Step.op) := by
  have hne : x.id ≠ Uuid.NIL.inc := by
    intro e; rw [e] at hx; exact absurd hx (by decide)
  refine ⟨fun e => absurd e hne, fun e => ?_, chain_clean h ?_ ?_⟩
  · unfold folds follows at e
    simp only [hne, decide_false, Bool.false_and] at e
    cases e
  · intro o l e hf
    subst e
    exact .inr (hr.1 hf)
  · cases chain with
    | nil => exact trivial
    | cons a l => exact hr.2

theorem from_linked {p : Uuid} {ops chain rest : List OpView} (h : ChainFrom p ops chain rest) : Linked p chain := by
  induction h with
  | done => exact trivial
  | other _ _ => exact trivial
  | comment _ _ ih => exact ih
  | next h1 h2 h3 h4 _ ih => exact ⟨h1, h2, h3, h4, ih⟩

theorem plainRuns_of : ∀ {l : List OpView},
    (∀ p ∈ l, ∀ o ∈ l, folds p.id p.vals o = true → copyHeadOk p.vals = true) → PlainRuns l
  | [], _ => trivial
  | [_], _ => trivial
  | p :: o :: l, h => ⟨h p (by simp) o (by simp), plainRuns_of fun q hq r hr =>
    h q (List.mem_cons_of_mem _ hq) r (List.mem_cons_of_mem _ hr)⟩

theorem saidBy_ops (l : List OpView) : (saidBy (l.map Step.op)).map Prod.snd = l := by
  induction l with
  | nil => rfl
  | cons o l ih => rw [List.map_cons, saidBy, List.map_cons, ih]

theorem chain_length {p : Uuid} {ops chain rest : List OpView} (h : ChainFrom p ops chain rest) :
    chain.length ≤ ops.length := by
  induction h with
  | done => simp
  | other _ _ => simp
  | comment _ _ ih => simp only [List.length_cons]; omega
  | next _ _ _ _ _ ih => simp only [List.length_cons]; omega

/-- The cursor at an op of a frame. -/
theorem reach {text : List Byte} {l pre post : List (Nat × OpView)} {x : Nat × OpView}
    (hn : text.length < 2 ^ 30) (hf : FrameText Uuid.NIL text l) (hl : l = pre ++ x :: post) :
    ∃ m0 c m, Chains.Trail (Cursor.init text) (m0 ++ c :: m) .endOfFrame ∧ m0.length = pre.length ∧
      Held text c x ∧ Chains.Trail c m .endOfFrame ∧ Same2 (Held text) m post := by
  obtain ⟨m, h1, h2, -, h3⟩ := frame_trail hn hf (cur := Cursor.init text)
    ⟨rfl, rfl, rfl, .inr ⟨rfl, rfl⟩⟩ Cursor.type_nil rfl
  have h4 := held_of h3 h2
  subst hl
  have key : ∀ (pre : List (Nat × OpView)) (m : List Cursor) (c0 : Cursor), Chains.Trail c0 m .endOfFrame →
      Same2 (Held text) m (pre ++ x :: post) →
      ∃ m0 c m', m = m0 ++ c :: m' ∧ m0.length = pre.length ∧ Held text c x ∧ Chains.Trail c m' .endOfFrame ∧
        Same2 (Held text) m' post := by
    intro pre
    induction pre with
    | nil =>
      intro m c0 ht hs
      match m, hs, ht with
      | c :: m, .cons a b, ht =>
      cases ht with
      | more _ ht => exact ⟨[], c, m, rfl, rfl, a, ht, b⟩
    | cons y pre ih =>
      intro m c0 ht hs
      match m, hs, ht with
      | c :: m, .cons a b, ht =>
      cases ht with
      | more _ ht =>
        obtain ⟨m0, c', m', e1, e2, e3⟩ := ih m c ht b
        exact ⟨c :: m0, c', m', by rw [e1]; rfl, by simp [e2], e3⟩
  obtain ⟨m0, c, m', e1, e2, e3⟩ := key pre m _ h1 h4
  subst e1
  exact ⟨m0, c, m', h1, e2, e3⟩

end Ron.TextChain
