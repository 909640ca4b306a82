import Verif.Lemmas.Lifecycle
import Verif.Spec.ChainReceive
/-!
Which chains are accepted.
-/
namespace Ron
open Spec
namespace Commit

theorem linked_time {p : Uuid} {o : AOp} (h1 : o.id.version = Uuid.vTIME) (h2 : o.id.origin = p.origin) :
    p.version = Uuid.vTIME := by
  unfold Uuid.version at *
  rw [← h2]
  exact h1

theorem linked_sane {p : Uuid} {o : AOp} (h1 : o.id.version = Uuid.vTIME) (h2 : o.id.origin = p.origin)
    (h3 : Uuid.lt p o.id = true) (h4 : o.ref = p) : checkEventSanity o = Status.OK := by
  unfold checkEventSanity
  rw [if_neg (by rw [h1]; decide), h4, if_pos (linked_time h1 h2), if_neg]
  unfold Uuid.ge
  rw [h3]
  decide

theorem lt_le_trans {a b c : Uuid} (h : Uuid.lt b a = false) (h' : Uuid.lt b c = true) : Uuid.lt a c = true := by
  revert h h'
  unfold Uuid.lt
  simp only [Bool.or_eq_true, decide_eq_true_eq, Bool.and_eq_true, Bool.or_eq_false_iff, decide_eq_false_iff_not,
    Bool.and_eq_false_iff, ← BitVec.toNat_inj]
  omega

theorem lastOf_cons {p : Uuid} {o : AOp} {os : List AOp} : lastOf o.id os = lastOf p (o :: os) := by
  cases os with
  | nil => rfl
  | cons q os =>
    unfold lastOf
    rw [List.getLast?_cons_cons]
    cases h : (q :: os).getLast? with
    | none => simp at h
    | some x => rfl

theorem chained_last : ∀ (os : List AOp) (p : Uuid), ChainedTo p os →
    (lastOf p os).origin = p.origin ∧ Uuid.lt (lastOf p os) p = false := by
  intro os
  induction os with
  | nil => intro p _; exact ⟨rfl, by simp [lastOf, Uuid.lt]⟩
  | cons o os ih =>
    intro p h
    obtain ⟨-, h2, h3, -, h5⟩ := h
    obtain ⟨i1, i2⟩ := ih o.id h5
    rw [lastOf_cons (p := p)] at i1 i2
    refine ⟨i1.trans h2, ?_⟩
    revert i2 h3
    unfold Uuid.lt
    simp only [Bool.or_eq_true, decide_eq_true_eq, Bool.and_eq_true, Bool.or_eq_false_iff, decide_eq_false_iff_not,
      Bool.and_eq_false_iff, ← BitVec.toNat_inj]
    omega

/-- A chain is walked to its end. -/
theorem chainletLoop_linked {hs : Hashing} : ∀ (os : List AOp) (s : Chainlet), ChainedTo s.m.id os →
    (s.c.base.origin = s.m.id.origin → Uuid.lt s.m.id s.c.tip = false) →
    ∃ m t x, chainletLoop hs Status.ENDOFFRAME s os =
        some (Status.OK, ⟨{ s.c with tip := t, max := x }, m, Rdt.feed s.to os⟩, []) ∧
      m.id = lastOf s.m.id os ∧ m.rdt = s.m.rdt ∧ m.object = s.m.object := by
  intro os
  induction os with
  | nil =>
    intro s _ _
    refine ⟨s.m, s.c.tip, s.c.max, ?_, rfl, rfl, rfl⟩
    unfold chainletLoop
    rw [if_pos (by decide)]
    rfl
  | cons o os ih =>
    intro s hc ht
    obtain ⟨h1, h2, h3, h4, h5⟩ := hc
    have hn : s.m.isNext o = true := by
      unfold OpMeta.isNext Uuid.gt
      simp [h1, h2, h3, h4]
    have hcom : o.id ≠ COMMENT := by
      intro e
      rw [e] at h1
      exact absurd h1 (by decide)
    have hsan := linked_sane h1 h2 h3 h4
    have hnext : ∃ m, s.m.next hs o s.m = some m ∧ m.id = o.id ∧ m.rdt = s.m.rdt ∧ m.object = s.m.object := by
      unfold OpMeta.next
      rw [if_pos ⟨h2, h3⟩]
      exact ⟨_, rfl, rfl, rfl, rfl⟩
    obtain ⟨m, hm, e1, e2, e3⟩ := hnext
    unfold chainletLoop
    rw [if_neg hcom, if_pos hn, hsan, if_neg (by decide), hm]
    simp only [Option.bind_some]
    by_cases hb : o.id.origin = s.c.base.origin
    · rw [if_pos hb, if_neg (by
        have := lt_le_trans (ht (by rw [← hb, h2])) h3
        unfold Uuid.le
        rw [this]
        decide)]
      obtain ⟨m', t, x, q1, q2, q3, q4⟩ := ih ⟨{ s.c with tip := o.id }, m, s.to.append o⟩ (by rw [e1]; exact h5)
        (fun _ => by rw [e1]; simp [Uuid.lt])
      exact ⟨m', t, x, q1, by rw [q2, e1]; exact lastOf_cons, by rw [q3, e2], by rw [q4, e3]⟩
    · rw [if_neg hb]
      obtain ⟨m', t, x, q1, q2, q3, q4⟩ := ih
        ⟨{ s.c with max := if Uuid.lt s.c.max o.id then o.id else s.c.max }, m, s.to.append o⟩ (by rw [e1]; exact h5)
        (fun h => absurd (by rw [h, e1]) (Ne.symm hb))
      exact ⟨m', t, x, q1, by rw [q2, e1]; exact lastOf_cons, by rw [q3, e2], by rw [q4, e3]⟩

/-- The records of a chain. -/
def chainRecords (hs : Hashing) (m : OpMeta) (o : AOp) (os : List AOp) (mem : MemStore) : MemStore :=
  MemStore.insert (Key.ofUuids m.object m.rdt) (punctuate (o :: os))
    (MemStore.insert (Key.mk' m.object Form.LOG) (punctuate (o :: os))
      (MemStore.insert (Key.mk' o.id Form.META) (m.save hs) mem))

theorem storeChain_linked {env : Env} {c : Commit} {m : OpMeta} {o : AOp} {os : List AOp} (hm : m.id = o.id)
    (hs : (checkEventSanity o).ok = true) (hf : uuid2form m.rdt ≠ Form.ERROR) (hc : ChainedTo o.id os)
    (ht : c.base.origin = o.id.origin → Uuid.lt o.id c.tip = false)
    (hsee : (clockSee c.now (lastOf o.id os)).2.ok = true) :
    ∃ x, c.storeChain env m o os Status.ENDOFFRAME = some (⟨lastOf o.id os, []⟩,
      { c with mem := chainRecords env.hs m o os c.mem, now := (clockSee c.now (lastOf o.id os)).1, tip := lastOf o.id os, max := x }, []) := by
  have w1 : ∀ (c : Commit) (id : Uuid) (f : Form) (x : Frame), f ≠ Form.ERROR →
      c.write (Key.mk' id f) x = (Status.OK, { c with mem := MemStore.insert (Key.mk' id f) x c.mem }) := by
    intro c id f x hf
    unfold write MemStore.write
    rw [if_neg (Key.mk_ne_end hf)]
  have hok : Status.OK.ok = true := by decide
  have href : ¬ o.ref = m.id := by rw [hm]; exact ref_ne_id hs
  unfold storeChain
  simp only [ne_eq, href, not_false_eq_true, if_true]
  rw [w1 _ _ _ _ (by decide : Form.META ≠ Form.ERROR)]
  obtain ⟨m', t, x, q1, q2, q3, q4⟩ := chainletLoop_linked (hs := env.hs) os
    ⟨{ c with mem := MemStore.insert (Key.mk' o.id Form.META) (m.save env.hs) c.mem }, m, ABuilder.empty.append o⟩
    (by rw [hm]; exact hc) (by rw [hm]; exact ht)
  have hrel : (Rdt.feed (ABuilder.empty.append o) os).release = punctuate (o :: os) := by
    unfold ABuilder.release
    rw [Rdt.feed_done]
    rfl
  rw [hm] at q2
  refine ⟨x, ?_⟩
  simp only [hok, not_true_eq_false, if_false, q1, Option.map_some, q2, hsee, hrel, q3, q4]
  unfold Key.ofUuids
  rw [w1 _ _ _ _ (by decide : Form.LOG ≠ Form.ERROR)]
  simp only [hok, not_true_eq_false, if_false]
  rw [w1 _ _ _ _ hf]
  simp only [hok, not_true_eq_false, if_false]
  rfl

/-- A chain is saved if the tip of its yarn and the op it refers to are found. -/
theorem saveChain_linked {env : Env} {c c1 c2 : Commit} {tip m : OpMeta} {o : AOp} {os : List AOp} {b : Bool}
    (hs : (checkEventSanity o).ok = true) (ht : c.yarnTip env o = some (Status.OK, tip, c1))
    (hh : c1.headMeta env tip o = some (Status.OK, m, c2)) (hm : m.id = o.id)
    (hf : uuid2form m.rdt ≠ Form.ERROR) (hc : ChainedTo o.id os)
    (hb : c2.base.origin = o.id.origin → Uuid.lt o.id c2.tip = false)
    (hsee : (clockSee c2.now (lastOf o.id os)).2.ok = true) :
    ∃ x, c.saveChain env ⟨o :: os, Status.ENDOFFRAME, b⟩ = some (⟨lastOf o.id os, []⟩,
      { c2 with mem := chainRecords env.hs m o os c2.mem, now := (clockSee c2.now (lastOf o.id os)).1, tip := lastOf o.id os, max := x },
      ⟨[], Status.ENDOFFRAME, b⟩) := by
  have hok : Status.OK.ok = true := by decide
  obtain ⟨x, e⟩ := storeChain_linked (env := env) hm hs hf hc hb hsee
  refine ⟨x, ?_⟩
  unfold saveChain
  simp only [hs, ht, hh, hok, not_true_eq_false, if_false, Option.bind_some]
  rw [e]
  rfl

/-- A frame of one chain: what is written. -/
theorem receive_chain_eq {env : Env} {main : MemStore} {tip : Uuid} {now : Word} {o : AOp} {os : List AOp} {c1 c2 : Commit}
    {t m : OpMeta} (hq : o.term ≠ .query) (hp : o.id.origin.payload ≠ 0)
    (hs : (checkEventSanity o).ok = true) (ht : (start main tip now).yarnTip env o = some (Status.OK, t, c1))
    (hh : c1.headMeta env t o = some (Status.OK, m, c2)) (hf : uuid2form m.rdt ≠ Form.ERROR) (hc : ChainedTo o.id os)
    (hsee : (clockSee now (lastOf o.id os)).2.ok = true)
    (hb : tip = Uuid.NIL ∨ tip.origin = o.id.origin ∧ Uuid.lt tip o.id = true) :
    receive env main tip now ⟨o :: os, Status.ENDOFFRAME, true⟩ = some (Status.OK, Engine.writeAll main
      (MemStore.insert Key.ZERO [⟨lastOf o.id os, formUuid Form.ZERO, [], .raw⟩] (chainRecords env.hs m o os c2.mem)),
      (clockSee now (lastOf o.id os)).1) := by
  have hv := sane_time hs
  have k1 := yarnTip_keeps ht
  have k2 := headMeta_keeps hh
  obtain ⟨x1, e1, s1⟩ := k1
  obtain ⟨x2, e2, s2⟩ := k2
  have hbase : c2.base = tip := by rw [e2, e1]; rfl
  have htip : c2.tip = tip := by rw [e2, e1]; rfl
  have hmain : c2.main = main := by rw [e2, e1]; rfl
  have hnow : c2.now = now := by rw [e2, e1]; rfl
  have hlt0 : Uuid.lt o.id tip = false := by
    rcases hb with e | ⟨-, e⟩
    · rw [e]; exact Uuid.lt_nil _
    · revert e
      unfold Uuid.lt
      simp only [Bool.or_eq_true, decide_eq_true_eq, Bool.and_eq_true, Bool.or_eq_false_iff, decide_eq_false_iff_not,
        Bool.and_eq_false_iff, ← BitVec.toNat_inj]
      omega
  have hmi := headMeta_id hh (by decide)
  obtain ⟨x, hsv⟩ := saveChain_linked (b := true) hs ht hh hmi hf hc (fun _ => by rw [htip]; exact hlt0)
    (by rw [hnow]; exact hsee)
  obtain ⟨l1, l2⟩ := chained_last os o.id hc
  have hlv : (lastOf o.id os).version = Uuid.vTIME := by
    unfold Uuid.version at *
    rw [l1]
    exact hv
  have hstep := (saveChain_step hsv).keeps
  have htime := Uuid.time_ok hlv
  have hval : (⟨o :: os, Status.ENDOFFRAME, true⟩ : ACur).valid = true := rfl
  have hval' : (⟨[], Status.ENDOFFRAME, true⟩ : ACur).valid = false := rfl
  have hd : dispatch env (start main tip now) ⟨o :: os, Status.ENDOFFRAME, true⟩ =
      (start main tip now).saveChain env ⟨o :: os, Status.ENDOFFRAME, true⟩ := by
    unfold dispatch
    simp only
    rw [if_pos hv, if_neg hq, if_pos hp]
  unfold receive
  rw [show (⟨o :: os, Status.ENDOFFRAME, true⟩ : ACur).ops.length + 1 = os.length + 1 + 1 from rfl]
  unfold receiveLoop
  rw [if_neg (by rw [hval]; decide), hd, hsv]
  simp only [Option.bind_some, Option.map_some, htime, hval', not_true_eq_false, if_false, Bool.false_eq_true]
  generalize hz : lastOf o.id os = z at *
  have hlt : Uuid.lt z tip = false := by
    revert l2 hlt0
    unfold Uuid.lt
    simp only [Bool.or_eq_false_iff, decide_eq_false_iff_not,
      Bool.and_eq_false_iff, ← BitVec.toNat_inj]
    omega
  have hne : z ≠ tip := by
    rcases hb with e | ⟨-, e⟩
    · rw [e]
      intro e
      rw [e] at hlv
      exact absurd hlv (by decide)
    · intro e'
      rw [e', e] at l2
      cases l2
  generalize hmem : chainRecords env.hs m o os c2.mem = mem at *
  have hsave : save { c2 with mem := mem, now := (clockSee c2.now z).1, tip := z, max := x } = (Status.OK,
      { c2 with
        main := Engine.writeAll main (MemStore.insert Key.ZERO [⟨z, formUuid Form.ZERO, [], .raw⟩] mem),
        mem := [], now := (clockSee c2.now z).1, tip := Uuid.NIL, base := Uuid.NIL, max := x }) := by
    unfold save
    simp only
    have h1 : ¬ (Key.ZERO = Key.END) := by decide
    have h2 : ¬ ¬ Status.OK.ok = true := by decide
    rw [hbase, hmain, if_neg hne, if_neg (by
      rintro ⟨a, b⟩
      rcases hb with e | ⟨e, -⟩
      · exact a e
      · exact b (l1.trans e.symm)), if_neg (by rw [hlt]; decide)]
    simp only [MemStore.write, h1, if_false, h2]
  rw [hsave, hnow]

/-- A frame of one chain. -/
theorem receive_chain {env : Env} {main : MemStore} {tip : Uuid} {now : Word} {o : AOp} {os : List AOp} {c1 c2 : Commit}
    {t m : OpMeta} (hm : MemStore.Sorted main) (hq : o.term ≠ .query) (hp : o.id.origin.payload ≠ 0)
    (hs : (checkEventSanity o).ok = true) (ht : (start main tip now).yarnTip env o = some (Status.OK, t, c1))
    (hh : c1.headMeta env t o = some (Status.OK, m, c2)) (hf : uuid2form m.rdt ≠ Form.ERROR) (hc : ChainedTo o.id os)
    (hsee : (clockSee now (lastOf o.id os)).2.ok = true)
    (hb : tip = Uuid.NIL ∨ tip.origin = o.id.origin ∧ Uuid.lt tip o.id = true) :
    ∃ s' now', receive env main tip now ⟨o :: os, Status.ENDOFFRAME, true⟩ = some (Status.OK, s', now') ∧
      tipOf s' = some (lastOf o.id os) ∧ ((Key.mk' m.object Form.LOG, punctuate (o :: os)) ∈ s') ∧
      (Key.ofUuids m.object m.rdt, punctuate (o :: os)) ∈ s' := by
  have hsm : MemStore.Sorted c2.mem := by
    obtain ⟨x1, e1, s1⟩ := yarnTip_keeps ht
    obtain ⟨x2, e2, s2⟩ := headMeta_keeps hh
    rw [e2]
    exact s2 (by rw [e1]; exact s1 List.Pairwise.nil)
  have hsm2 : MemStore.Sorted (chainRecords env.hs m o os c2.mem) :=
    MemStore.insert_sorted (MemStore.insert_sorted (MemStore.insert_sorted hsm _ _) _ _) _ _
  refine ⟨_, _, receive_chain_eq hq hp hs ht hh hf hc hsee hb, ?_, ?_⟩
  all_goals
    generalize hmem : chainRecords env.hs m o os c2.mem = mem at *
    generalize hz : lastOf o.id os = z at *
  · have e : Engine.operands (Engine.writeAll main (MemStore.insert Key.ZERO [⟨z, formUuid Form.ZERO, [], .raw⟩] mem)) Key.ZERO =
        (Engine.operands main Key.ZERO ++ Engine.operands mem Key.ZERO) ++ [[⟨z, formUuid Form.ZERO, [], .raw⟩]] := by
      rw [writeAll_operands _ _ hm]
      have e2 : Engine.operands (MemStore.insert Key.ZERO [⟨z, formUuid Form.ZERO, [], .raw⟩] mem) Key.ZERO = _ :=
        MemStore.insert_recs hsm2 _ _ _
      rw [e2, if_pos rfl, List.append_assoc]
      rfl
    exact Host.tipOf_concat (o := ⟨z, formUuid Form.ZERO, [], .raw⟩) e
  · have hmem' : ∀ r, r ∈ mem → r ∈ Engine.writeAll main (MemStore.insert Key.ZERO [⟨z, formUuid Form.ZERO, [], .raw⟩] mem) :=
      fun r hr => mem_writeAll.2 (Or.inr (mem_insert.2 (Or.inr hr)))
    rw [← hmem] at hmem' ⊢
    exact ⟨hmem' _ (mem_insert.2 (Or.inr (mem_insert.2 (Or.inl rfl)))), hmem' _ (mem_insert.2 (Or.inl rfl))⟩

end Commit
end Ron
