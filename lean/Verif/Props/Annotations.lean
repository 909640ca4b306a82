import Verif.Props.Lifecycle
/-!
C100: annotations of known kinds.
-/
namespace Ron.Props
open Ron.Spec Ron.Commit

/-- The kinds of annotations the code knows: `meta`, `prev`, `obj`, `sha3`. -/
def knownKinds : List Uuid := [formUuid Form.META, formUuid Form.PREV, formUuid Form.OBJ, formUuid Form.SHA3]

/-- Events that go on from `p`, and the same events with annotations: ops named by their kind that refer to the event
before them. -/
inductive Annotated : Uuid → List AOp → List AOp → Prop
  | done (p : Uuid) : Annotated p [] []
  | event {p : Uuid} {o : AOp} {os os' : List AOp} : Annotated o.id os os' → Annotated p (o :: os) (o :: os')
  | note {p : Uuid} {a : AOp} {os os' : List AOp} : a.id ∈ knownKinds → a.ref = p → Annotated p os os' →
      Annotated p os (a :: os')

/-- C100: a chain of events is received with annotations of known kinds as it is received without. -/
def C100_claim : Prop := ∀ (env : Env) (main : MemStore) (tip : Uuid) (now : Word) (o : AOp) (os os' : List AOp)
  (s : MemStore) (now' : Word), ChainedTo o.id os → Annotated o.id os os' →
  receive env main tip now ⟨o :: os, Status.ENDOFFRAME, true⟩ = some (Status.OK, s, now') →
  receive env main tip now ⟨o :: os', Status.ENDOFFRAME, true⟩ = some (Status.OK, s, now')

/-- C100 is violated: an event with its hash is refused. The kind of an annotation is looked for in the reference,
which is the event. -/
theorem C100_violated : ¬ C100_claim := by
  intro hc
  have k : (match rcv st1 (evA 10) [op2 (evA 12) (formUuid Form.LWW)] with
      | some (st, _, _) => decide (st = Status.OK)
      | none => false) = true := by decide +kernel
  have k' : (match rcv st1 (evA 10) [op2 (evA 12) (formUuid Form.LWW), op2 (formUuid Form.SHA3) (evA 12) [.str []]] with
      | some (st, _, _) => decide (st = Status.BADARGS)
      | none => false) = true := by decide +kernel
  split at k
  · rename_i st s now e
    rw [decide_eq_true_eq] at k
    subst k
    have := hc tEnv st1 (evA 10) 0#64 (op2 (evA 12) (formUuid Form.LWW)) []
      [op2 (formUuid Form.SHA3) (evA 12) [.str []]] s now trivial
      (Annotated.note (by decide +kernel) rfl (Annotated.done _)) e
    rw [show rcv st1 (evA 10) [op2 (evA 12) (formUuid Form.LWW), op2 (formUuid Form.SHA3) (evA 12) [.str []]] =
      some (Status.OK, s, now) from this] at k'
    exact absurd (show decide (Status.OK = Status.BADARGS) = true from k') (by decide)
  · cases k

/-! ### What the code does -/

theorem form_of_time {u : Uuid} (h : u.version = Uuid.vTIME) : uuid2form u = Form.ZERO := by
  unfold uuid2form
  split
  · rename_i e he
    have h1 := List.find?_some he
    have h2 := List.mem_of_find?_eq_some he
    have h3 : ∀ e ∈ UUID2FORM, e.1.version = Uuid.vNAME := by decide +kernel
    rw [beq_iff_eq] at h1
    have := h3 e h2
    rw [h1, h] at this
    exact absurd this (by decide)
  · rfl

/-- A walk along a chain ends in an error at an annotation. -/
theorem chainletLoop_note {hs : Hashing} {fin : Status} {a : AOp} {rest : List AOp} (ha : a.id.version = Uuid.vNAME)
    (hcom : a.id ≠ COMMENT) : ∀ (os : List AOp) (s : Chainlet), ChainedTo s.m.id os → s.m.id.version = Uuid.vTIME →
    (s.c.base.origin = s.m.id.origin → Uuid.lt s.m.id s.c.tip = false) → a.ref = lastOf s.m.id os →
    ∃ s' rem, chainletLoop hs fin s (os ++ a :: rest) = some (Status.BADARGS, s', rem) := by
  intro os
  induction os with
  | nil =>
    intro s _ hv _ hr
    have hr : a.ref = s.m.id := hr
    rw [List.nil_append]
    unfold chainletLoop
    rw [if_neg hcom, if_neg (by
      unfold OpMeta.isNext
      rw [ha]
      simp [show (Uuid.vNAME = Uuid.vTIME) = False from by decide]), if_pos (by
      unfold OpMeta.isCheck
      simp [ha, hr]), if_pos (by
      unfold OpMeta.check
      rw [hr, form_of_time hv]
      decide)]
    refine ⟨s, a :: rest, ?_⟩
    unfold OpMeta.check
    rw [hr, form_of_time hv]
    rfl
  | cons o os ih =>
    intro s hc hv ht hr
    obtain ⟨h1, h2, h3, h4, h5⟩ := hc
    have hn : s.m.isNext o = true := by
      unfold OpMeta.isNext Uuid.gt
      simp [h1, h2, h3, h4]
    have hcom' : o.id ≠ COMMENT := by
      intro e
      rw [e] at h1
      exact absurd h1 (by decide)
    have hnext : ∃ m, s.m.next hs o s.m = some m ∧ m.id = o.id := by
      unfold OpMeta.next
      rw [if_pos ⟨h2, h3⟩]
      exact ⟨_, rfl, rfl⟩
    obtain ⟨m, hm, e1⟩ := hnext
    rw [← lastOf_cons] at hr
    rw [List.cons_append]
    unfold chainletLoop
    rw [if_neg hcom', if_pos hn, linked_sane h1 h2 h3 h4, if_neg (by decide), hm]
    simp only [Option.bind_some]
    by_cases hb : o.id.origin = s.c.base.origin
    · rw [if_pos hb, if_neg (by
        have := lt_le_trans (ht (by rw [← hb, h2])) h3
        unfold Uuid.le
        rw [this]
        decide)]
      exact ih ⟨{ s.c with tip := o.id }, m, s.to.append o⟩ (by rw [e1]; exact h5) (by rw [e1]; exact h1)
        (fun _ => by rw [e1]; simp [Uuid.lt]) (by rw [e1]; exact hr)
    · rw [if_neg hb]
      exact ih ⟨{ s.c with max := if Uuid.lt s.c.max o.id then o.id else s.c.max }, m, s.to.append o⟩
        (by rw [e1]; exact h5) (by rw [e1]; exact h1) (fun h => absurd (by rw [h, e1]) (Ne.symm hb))
        (by rw [e1]; exact hr)

/-- A chain with an annotation is not saved. -/
theorem saveChain_note {env : Env} {c c' : Commit} {o a : AOp} {os rest : List AOp} {fin st : Status} {b : Bool}
    {cur' : ACur} (hc : ChainedTo o.id os) (ha : a.id.version = Uuid.vNAME) (hcom : a.id ≠ COMMENT)
    (hr : a.ref = lastOf o.id os) (hb : c.base.origin = o.id.origin → Uuid.lt o.id c.tip = false)
    (h : c.saveChain env ⟨o :: (os ++ a :: rest), fin, b⟩ = some (st, c', cur')) : st.ok = false := by
  unfold saveChain at h
  simp only at h
  split at h
  · rename_i hs; cases h; simpa using hs
  · rename_i hs
    have hs : (checkEventSanity o).ok = true := by simpa using hs
    obtain ⟨⟨ts, tm, tc⟩, ht, h⟩ := bind_some h
    simp only at h
    split at h
    · rename_i hn; cases h; simpa using hn
    · obtain ⟨⟨ms, m, mc⟩, hh, h⟩ := bind_some h
      simp only at h
      split at h
      · rename_i hn; cases h; simpa using hn
      · rename_i hn
        obtain ⟨r, hst, h⟩ := map_some h
        cases h
        obtain ⟨x1, e1, -⟩ := yarnTip_keeps ht
        obtain ⟨x2, e2, -⟩ := headMeta_keeps hh
        have hid : m.id = o.id := headMeta_id hh (by simpa using hn)
        have hbase : mc.base = c.base := by rw [e2, e1]
        have htip : mc.tip = c.tip := by rw [e2, e1]
        have href : ¬ o.ref = m.id := by rw [hid]; exact ref_ne_id hs
        unfold storeChain at hst
        simp only [ne_eq, href, not_false_eq_true, if_true] at hst
        split at hst
        · rename_i hw; cases hst; simpa using hw
        · obtain ⟨r, hl, hst⟩ := map_some hst
          have hw : ∀ (k : Key) (f : Frame), (mc.write k f).2.base = mc.base ∧ (mc.write k f).2.tip = mc.tip :=
            fun _ _ => ⟨rfl, rfl⟩
          obtain ⟨s', rem, e⟩ := chainletLoop_note (hs := env.hs) (fin := fin) (rest := rest) ha hcom os
            ⟨(mc.write (Key.mk' o.id Form.META) (m.save env.hs)).2, m, ABuilder.empty.append o⟩
            (by rw [hid]; exact hc) (by rw [hid]; exact sane_time hs)
            (by
              simp only [(hw _ _).1, (hw _ _).2]
              rw [hid, hbase, htip]
              exact hb)
            (by rw [hid]; exact hr)
          rw [e] at hl
          cases hl
          rw [if_pos (show ¬ Status.BADARGS.ok = true by decide)] at hst
          cases hst
          exact show Status.BADARGS.ok = false by decide

/-- No frame that begins with a chain of events and an annotation of it, of any kind, is accepted, and nothing of it
is stored. Missing from the claim: the frames are to be accepted. -/
theorem C100_refused_partial (env : Env) (main : MemStore) (tip : Uuid) (now : Word) (o a : AOp) (os rest : List AOp)
    (fin st : Status) (s : MemStore) (now' : Word) (hv : o.id.version = Uuid.vTIME) (hq : o.term ≠ .query)
    (hp : o.id.origin.payload ≠ 0) (hc : ChainedTo o.id os) (ha : a.id.version = Uuid.vNAME) (hcom : a.id ≠ COMMENT)
    (hr : a.ref = lastOf o.id os) (hb : tip.origin = o.id.origin → Uuid.lt tip o.id = true)
    (h : receive env main tip now ⟨o :: (os ++ a :: rest), fin, true⟩ = some (st, s, now')) :
    st.ok = false ∧ s = main := by
  have hval : (⟨o :: (os ++ a :: rest), fin, true⟩ : ACur).valid = true := rfl
  have hd : dispatch env (start main tip now) ⟨o :: (os ++ a :: rest), fin, true⟩ =
      (start main tip now).saveChain env ⟨o :: (os ++ a :: rest), fin, true⟩ := by
    unfold dispatch
    simp only
    rw [if_pos hv, if_neg hq, if_pos hp]
  unfold receive at h
  obtain ⟨r, hl, h⟩ := map_some h
  unfold receiveLoop at hl
  rw [if_neg (by rw [hval]; decide), hd] at hl
  obtain ⟨⟨x1, x2, x3⟩, hsv, hl⟩ := bind_some hl
  have hx := saveChain_note hc ha hcom hr (fun e => by
    have := hb e
    show Uuid.lt o.id tip = false
    revert this
    unfold Uuid.lt
    simp only [Bool.or_eq_true, decide_eq_true_eq, Bool.and_eq_true, Bool.or_eq_false_iff, decide_eq_false_iff_not,
      Bool.and_eq_false_iff, ← BitVec.toNat_inj]
    omega) hsv
  have hk := (saveChain_step hsv).keeps
  simp only at hl
  rw [hx, if_pos (by decide)] at hl
  cases hl
  simp only at h
  rw [if_pos (by rw [hx]; decide)] at h
  cases h
  exact ⟨hx, hk.main⟩

/-- The hypotheses hold for an event with its hash, which would be accepted alone; an annotation of any other kind is
refused in the same way. -/
example : (formUuid Form.SHA3).version = Uuid.vNAME ∧ formUuid Form.SHA3 ≠ COMMENT ∧ (evA 12).version = Uuid.vTIME ∧
    Uuid.lt (evA 10) (evA 12) = true ∧
    statusOf (rcv st1 (evA 10) [op2 (evA 12) (formUuid Form.LWW), op2 (evA 13) (evA 12)]) = Status.OK ∧
    statusOf (rcv st1 (evA 10) [op2 (evA 12) (formUuid Form.LWW), op2 (evA 13) (evA 12),
      op2 (formUuid Form.SHA3) (evA 13) [.str []]]) = Status.BADARGS ∧
    statusOf (rcv st1 (evA 10) [op2 (evA 12) (formUuid Form.LWW), op2 (evA 13) (evA 12),
      op2 (formUuid Form.LWW) (evA 13) [.str []]]) = Status.BADARGS := by decide +kernel

/-- An annotation that does not refer to the event before it ends the chain and is a command of its own, which no frame
may have but for names and comments. -/
theorem C100_stray (env : Env) (c : Commit) (a : AOp) (os : List AOp) (fin : Status) (ha : a.id.version = Uuid.vNAME)
    (hcom : a.id ≠ COMMENT) (hn : a.id ≠ NAME_UUID) :
    dispatch env c ⟨a :: os, fin, true⟩ = some (Status.BADVALUE, c, ⟨a :: os, fin, true⟩) := by
  unfold dispatch
  simp only
  rw [if_neg (by rw [ha]; decide), if_neg (by rw [ha]; decide), if_pos ha, if_neg hcom, if_neg hn]

/-- Comments in a chain are passed over, whatever they refer to. -/
theorem C100_comments (hs : Hashing) (fin : Status) (s : Chainlet) (a : AOp) (os : List AOp) (ha : a.id = COMMENT) :
    chainletLoop hs fin s (a :: os) = chainletLoop hs fin s os := by
  rw [chainletLoop, if_pos ha]

/-! ### Where a chain ends -/

theorem chainletLoop_then {hs : Hashing} {fin : Status} {b : AOp} {rest : List AOp} (hv : b.id.version = Uuid.vTIME) :
    ∀ (os : List AOp) (s : Chainlet), ChainedTo s.m.id os →
    (b.id.origin ≠ s.m.id.origin ∨ b.ref ≠ lastOf s.m.id os) →
    chainletLoop hs fin s (os ++ b :: rest) =
      (chainletLoop hs Status.ENDOFFRAME s os).map fun r => (r.1, r.2.1, r.2.2 ++ b :: rest) := by
  intro os
  induction os with
  | nil =>
    intro s _ hb
    rw [List.nil_append, chainletLoop, chainletLoop, if_neg (by
      intro e
      rw [e] at hv
      exact absurd hv (by decide)), if_neg (by
      unfold OpMeta.isNext
      simp only [Bool.and_eq_true, decide_eq_true_eq]
      rintro ⟨⟨⟨-, h1⟩, -⟩, h2⟩
      rcases hb with h | h
      · exact h h1
      · exact h h2), if_neg (by
      unfold OpMeta.isCheck
      rw [hv]
      simp [show (Uuid.vTIME = Uuid.vNAME) = False from by decide])]
    rw [if_pos (by decide)]
    rfl
  | cons o os ih =>
    intro s hc hb
    obtain ⟨h1, h2, h3, h4, h5⟩ := hc
    have hn : s.m.isNext o = true := by
      unfold OpMeta.isNext Uuid.gt
      simp [h1, h2, h3, h4]
    have hcom : o.id ≠ COMMENT := by
      intro e
      rw [e] at h1
      exact absurd h1 (by decide)
    have hnext : ∃ m, s.m.next hs o s.m = some m ∧ m.id = o.id := by
      unfold OpMeta.next
      rw [if_pos ⟨h2, h3⟩]
      exact ⟨_, rfl, rfl⟩
    obtain ⟨m, hm, e1⟩ := hnext
    rw [← lastOf_cons, ← h2] at hb
    rw [List.cons_append, chainletLoop, chainletLoop, if_neg hcom, if_neg hcom, if_pos hn, if_pos hn, linked_sane h1 h2 h3 h4,
      if_neg (by decide), if_neg (by decide), hm]
    simp only [Option.bind_some]
    by_cases ho : o.id.origin = s.c.base.origin
    · rw [if_pos ho, if_pos ho]
      split
      · rfl
      · exact ih ⟨{ s.c with tip := o.id }, m, s.to.append o⟩ (by rw [e1]; exact h5) (by rw [e1]; exact hb)
    · rw [if_neg ho, if_neg ho]
      exact ih ⟨{ s.c with max := if Uuid.lt s.c.max o.id then o.id else s.c.max }, m, s.to.append o⟩
        (by rw [e1]; exact h5) (by rw [e1]; exact hb)

/-- A chain ends at an event of another yarn, or of its own that does not refer to the last one, even if that event
refers to an event of the chain: it is saved as it is alone, and the rest of the frame is left to be read. -/
theorem C100_ends (env : Env) (c : Commit) (o b : AOp) (os rest : List AOp) (fin : Status) (st : Bool)
    (hc : ChainedTo o.id os) (hv : b.id.version = Uuid.vTIME)
    (hb : b.id.origin ≠ o.id.origin ∨ b.ref ≠ lastOf o.id os) :
    c.saveChain env ⟨o :: (os ++ b :: rest), fin, st⟩ =
      (c.saveChain env ⟨o :: os, Status.ENDOFFRAME, st⟩).map fun r =>
        (r.1, r.2.1, ⟨r.2.2.ops ++ b :: rest, fin, st⟩) := by
  unfold saveChain
  simp only
  split
  · rfl
  · cases ht : c.yarnTip env o with
    | none => rfl
    | some t =>
      simp only [Option.bind_some]
      split
      · rfl
      · cases hh : t.2.2.headMeta env t.2.1 o with
        | none => rfl
        | some h =>
          simp only [Option.bind_some]
          split
          · rfl
          · rename_i hok
            have hid : h.2.1.id = o.id :=
              headMeta_id (st := h.1) (m := h.2.1) (c' := h.2.2) hh (by simpa using hok)
            unfold storeChain
            simp only
            generalize (if o.ref ≠ h.2.1.id then h.2.2.write (Key.mk' o.id Form.META) (h.2.1.save env.hs)
              else (Status.OK, h.2.2)) = w
            split
            · rfl
            · rw [chainletLoop_then hv os _ (by rw [hid]; exact hc) (by rw [hid]; exact hb)]
              cases chainletLoop env.hs Status.ENDOFFRAME ⟨w.2, h.2.1, ABuilder.empty.append o⟩ os with
              | none => rfl
              | some r =>
                simp only [Option.map_some]
                split
                · rfl
                · split
                  · rfl
                  · split
                    · rfl
                    · split <;> rfl

/-- An event of another yarn that refers to the event before it. -/
example : ChainedTo (evA 12) [op2 (evA 13) (evA 12)] ∧ (evB 20).version = Uuid.vTIME ∧ (evB 20).origin ≠ (evA 12).origin ∧
    ((start st1 (evA 10) 0#64).saveChain tEnv ⟨[op2 (evA 12) (formUuid Form.LWW), op2 (evA 13) (evA 12),
      op2 (evB 20) (evA 13)], Status.ENDOFFRAME, true⟩).map (fun r => (r.1.ok, r.2.2.ops)) =
      some (true, [op2 (evB 20) (evA 13)]) := by
  refine ⟨⟨?_, ?_, ?_, ?_, ?_⟩, ?_, ?_, ?_⟩ <;> first | trivial | decide +kernel

end Ron.Props
