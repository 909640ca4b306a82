import Verif.Lemmas.Comments
import Verif.Props.Replica
/-!
C88: comments in a received frame.
-/
namespace Ron.Props
open Ron Commit Spec

/-! ## C88 — comments in a received frame change nothing -/

/-- Ops that are comments: `Uuid::COMMENT`, `ron/uuid.cc:11`, as the id. -/
def AreComments (cs : List AOp) : Prop := ∀ o ∈ cs, o.id = COMMENT

/-- Receiving a frame is the same as receiving the frame without its comments. -/
def C88_claim : Prop := ∀ (env : Env) (main : MemStore) (tip : Uuid) (now : Word) (pre cs post : List AOp)
  (fin : Status), AreComments cs →
  receive env main tip now ⟨pre ++ cs ++ post, fin, true⟩ = receive env main tip now ⟨pre ++ post, fin, true⟩

/-- A comment as an op. -/
def remark : AOp := op2 COMMENT (formUuid Form.ZERO) [.str [0x68, 0x69]]
/-- A new object, a name for it. -/
def mint : List AOp :=
  [op2 (evA 11) (formUuid Form.LWW), op2 NAME_UUID (formUuid Form.ZERO) [.uuid (formUuid Form.RGA)]]

/-- A new object, a name for it and a comment: the object is not saved. -/
theorem C88_violated : ¬ C88_claim := by
  intro h
  have k : (rcv st1 (evA 10) (mint ++ [remark]) == rcv st1 (evA 10) mint) = false := by decide +kernel
  have e := h tEnv st1 (evA 10) 0#64 mint [remark] [] Status.ENDOFFRAME
    (by intro o ho; rw [List.mem_singleton.1 ho]; decide)
  rw [show rcv st1 (evA 10) (mint ++ [remark]) = rcv st1 (evA 10) mint from e] at k
  simp at k

/-- An id of a mapper's. -/
def mapped : Uuid := ⟨10#64, BitVec.ofNat 64 (3 * 2 ^ 60 + 7)⟩

/-- An op of a mapper's, the terminator of a query on the next op: with a comment between them it is not
taken for a query. -/
theorem C88_peek_violated :
    (dispatch tEnv (start st1 (evA 10) 0#64) ⟨[op2 mapped (formUuid Form.TXT) [] .reduced,
      op2 (evA 12) (evA 11) [] .query], Status.ENDOFFRAME, true⟩).map Prod.fst ≠
    (dispatch tEnv (start st1 (evA 10) 0#64) ⟨[op2 mapped (formUuid Form.TXT) [] .reduced, remark,
      op2 (evA 12) (evA 11) [] .query], Status.ENDOFFRAME, true⟩).map Prod.fst := by
  decide +kernel

/-- Comments put in before other ops, in any number and in any places (within chains too), change nothing. -/
theorem C88_partial (env : Env) (main : MemStore) (tip : Uuid) (now : Word) (xs ys : List AOp) (fin : Status)
    (h : Remarked xs ys) :
    receive env main tip now ⟨xs, fin, true⟩ = receive env main tip now ⟨ys, fin, true⟩ := by
  unfold receive
  rw [receiveLoop_alike env fin _ _ _ xs ys (Nat.lt_succ_self _) (Nat.lt_succ_self _) h]

theorem skip_comments (env : Env) (fin : Status) (c : Commit) : ∀ (cs : List AOp), AreComments cs → cs ≠ [] →
    ∃ o, o.id = COMMENT ∧ Accepts env c ⟨cs, fin, true⟩ c ⟨[o], fin, true⟩
  | [], _, h => absurd rfl h
  | [o], h, _ => ⟨o, h o (by simp), .none _ _⟩
  | o :: p :: cs, h, _ => by
    obtain ⟨q, hq, a⟩ := skip_comments env fin c (p :: cs) (fun x hx => h x (List.mem_cons_of_mem _ hx)) (by simp)
    refine ⟨q, hq, .more (st := Status.OK) (c1 := c) (cur1 := ⟨p :: cs, fin, true⟩) (by simp [ACur.valid]) ?_
      (by decide) a⟩
    have hc := h o (by simp)
    unfold dispatch
    simp only [hc]
    rw [if_neg (by decide), if_neg (by decide), if_pos (by decide), if_pos trivial]
    rfl

theorem Accepts.trans {env : Env} {a b c : Commit} {x y z : ACur} (h : Accepts env a x b y)
    (g : Accepts env b y c z) : Accepts env a x c z := by
  induction h with
  | none => exact g
  | more h1 h2 h3 _ ih => exact .more h1 h2 h3 (ih g)

/-- Comments that are left at the end after all the rest is accepted: the frame is refused as one that
ended too early (`fin` is what the cursor says at the end of the frame) and nothing of it is saved. -/
theorem C88_trailing (env : Env) (main : MemStore) (tip : Uuid) (now : Word) (cur : ACur) (c1 : Commit)
    (cs : List AOp) (fin : Status) (hc : AreComments cs) (hn : cs ≠ []) (hf : fin.ok = false)
    (ha : Accepts env (start main tip now) cur c1 ⟨cs, fin, true⟩) :
    receive env main tip now cur = some (fin, c1.main, c1.now) := by
  obtain ⟨o, ho, a⟩ := skip_comments env fin c1 cs hc hn
  refine C43_refused env main tip now cur c1 c1 _ ⟨[], fin, true⟩ fin (ha.trans a) (by simp [ACur.valid]) ?_ hf
  unfold dispatch
  simp only [ho]
  rw [if_neg (by decide), if_neg (by decide), if_pos (by decide), if_pos trivial]
  rfl

theorem chainlet_tail (hs : Hashing) (fin : Status) (cs : List AOp) (hc : AreComments cs) :
    ∀ (os : List AOp) (s s' : Chainlet) (st : Status), chainletLoop hs fin s os = some (st, s', []) →
    chainletLoop hs fin s (os ++ cs) = some (st, s', []) := by
  intro os
  induction os with
  | nil =>
    intro s s' st h
    rw [List.nil_append]
    induction cs with
    | nil => exact h
    | cons o cs ih =>
      rw [chainletLoop, if_pos (hc o (by simp))]
      exact ih fun x hx => hc x (List.mem_cons_of_mem _ hx)
  | cons o os ih =>
    intro s s' st h
    rw [List.cons_append]
    rw [chainletLoop] at h ⊢
    split at h
    · next h1 => rw [if_pos h1]; exact ih _ _ _ h
    · next h1 =>
      rw [if_neg h1]
      split at h
      · next h2 =>
        rw [if_pos h2]
        split at h
        · cases h
        · next h3 =>
          rw [if_neg h3]
          obtain ⟨m, hm, h⟩ := bind_some h
          rw [hm, Option.bind_some]
          simp only at h ⊢
          split at h
          · next h4 =>
            rw [if_pos h4]
            split at h
            · cases h
            · next h5 => rw [if_neg h5]; exact ih _ _ _ h
          · next h4 => rw [if_neg h4]; exact ih _ _ _ h
      · next h2 =>
        rw [if_neg h2]
        split at h
        · next h3 =>
          rw [if_pos h3]
          split at h
          · cases h
          · next h4 => rw [if_neg h4]; exact ih _ _ _ h
        · cases h

theorem loop_accepts {env : Env} {c1 c2 : Commit} {d e : ACur} {st : Status} (hv : d.valid = true)
    (hd : dispatch env c1 d = some (st, c2, e)) (hst : st.ok = true) (he : e.valid = false) {c : Commit} {cur : ACur}
    (a : Accepts env c cur c1 d) : ∀ n, cur.ops.length < n → receiveLoop env n c cur = some (st, c2) := by
  induction a with
  | none c cur =>
    intro n hn
    match n, hn with
    | n + 1, hn =>
      rw [receiveLoop, if_neg (by simpa using hv), hd, Option.bind_some]
      simp only
      rw [if_neg (by simpa using hst), if_neg (by simpa using he)]
  | @more _ _ _ _ cur1 _ _ h1 h2 h3 h4 ih =>
    intro n hn
    match n, hn with
    | n + 1, hn =>
      have hl := (dispatch_named h1 h2).2.2 h3
      have hv1 : cur1.valid = true := by
        cases h4 with
        | none => exact hv
        | more h _ _ _ => exact h
      simp only [receiveLoop, h1, h2, h3, hv1, Option.bind_some, if_true, not_true_eq_false, if_false]
      exact ih hv hd n (by omega)

/-- But comments after a chain belong to the chain: a frame that ends with one is taken the same with
comments after it. -/
theorem C88_end (env : Env) (main : MemStore) (tip : Uuid) (now : Word) (cur cur' : ACur) (c1 c2 : Commit)
    (o : AOp) (os cs : List AOp) (fin st : Status) (hc : AreComments cs)
    (hv : o.id.version = Uuid.vTIME) (ht : o.term ≠ .query) (hy : o.id.origin.payload ≠ 0)
    (ha : Accepts env (start main tip now) cur c1 ⟨o :: os, fin, true⟩)
    (hb : Accepts env (start main tip now) cur' c1 ⟨o :: os ++ cs, fin, true⟩)
    (hd : dispatch env c1 ⟨o :: os, fin, true⟩ = some (st, c2, ⟨[], fin, true⟩)) :
    receive env main tip now cur' = receive env main tip now cur := by
  have hd' : dispatch env c1 ⟨o :: os ++ cs, fin, true⟩ = some (st, c2, ⟨[], fin, true⟩) := by
    unfold dispatch at hd ⊢
    simp only [List.cons_append] at hd ⊢
    rw [if_pos hv, if_neg ht, if_pos hy] at hd ⊢
    unfold saveChain at hd ⊢
    simp only at hd ⊢
    split at hd
    · cases hd
    · next h1 =>
      rw [if_neg h1]
      obtain ⟨t, h2, hd⟩ := bind_some hd
      rw [h2, Option.bind_some]
      split at hd
      · cases hd
      · next h3 =>
        rw [if_neg h3]
        obtain ⟨m, h4, hd⟩ := bind_some hd
        rw [h4, Option.bind_some]
        split at hd
        · cases hd
        · next h5 =>
          rw [if_neg h5]
          obtain ⟨r, h6, hd⟩ := map_some hd
          obtain ⟨ra, rb, rc⟩ := r
          injection hd with e1 hd
          injection hd with e2 e3
          injection e3 with e3 _ _
          simp only at e1 e2 e3
          subst e1 e2 e3
          have k : storeChain env m.2.2 m.2.1 o (os ++ cs) fin = some (ra, rb, []) := by
            unfold storeChain at h6 ⊢
            revert h6
            generalize (if o.ref ≠ m.2.1.id then m.2.2.write (Key.mk' o.id Form.META) (m.2.1.save env.hs)
              else (Status.OK, m.2.2)) = w
            simp only
            intro h6
            split at h6
            · cases h6
            · next h7 =>
              rw [if_neg h7]
              obtain ⟨s, h8, h6⟩ := map_some h6
              obtain ⟨sa, sb, sc⟩ := s
              have e : sc = [] := by
                simp only at h6
                split at h6
                · injection h6 with _ h6; injection h6
                · split at h6
                  · injection h6 with _ h6; injection h6
                  · split at h6
                    · injection h6 with _ h6; injection h6
                    · split at h6
                      · injection h6 with _ h6; injection h6
                      · injection h6 with _ h6; injection h6
              subst e
              rw [chainlet_tail env.hs fin cs hc os _ _ _ h8, Option.map_some, h6]
          rw [k]
          rfl
  have run : ∀ (cur : ACur) (d : ACur), d.valid = true →
      Accepts env (start main tip now) cur c1 d →
      dispatch env c1 d = some (st, c2, ⟨[], fin, true⟩) →
      receive env main tip now cur = some (if ¬ st.ok then (st, c2.main, c2.now)
        else ((save c2).1, (save c2).2.main, (save c2).2.now)) := by
    intro cur d hv a hd
    by_cases hst : st.ok = true
    · unfold receive
      rw [loop_accepts hv hd hst (by simp [ACur.valid]) a _ (Nat.lt_succ_self _), Option.map_some]
    · rw [C43_refused env main tip now cur c1 c2 d _ st a hv hd (by simpa using hst), if_pos hst]
  rw [run cur' _ (by simp [ACur.valid]) hb hd', run cur _ (by simp [ACur.valid]) ha hd]

/-! Instances: a chain with a comment before it and one within, and a new object after another comment;
a name and a comment at the end; a chain with a comment after it. -/
example : Remarked [remark, op2 (evA 11) (formUuid Form.LWW), remark, remark, op2 (evA 12) (evA 11), remark,
      op2 (evA 13) (formUuid Form.RGA)]
    [op2 (evA 11) (formUuid Form.LWW), op2 (evA 12) (evA 11), op2 (evA 13) (formUuid Form.RGA)] := by
  have hr : remark.id = COMMENT := by decide
  exact .remark hr (by simp) (.op (fun h => absurd h (by decide)) (.remark hr (by simp) (.remark hr (by simp)
    (.op (fun h => absurd h (by decide)) (.remark hr (by simp) (.op (fun h => absurd h (by decide)) .nil))))))
example : statusOf (rcv st1 (evA 10) [op2 (evA 11) (formUuid Form.LWW), remark, op2 (evA 12) (evA 11), remark,
    op2 (evA 13) (formUuid Form.RGA)]) = Status.OK ∧
    (after (rcv st1 (evA 10) [op2 (evA 11) (formUuid Form.LWW), remark, op2 (evA 12) (evA 11), remark,
      op2 (evA 13) (formUuid Form.RGA)])).length > st1.length := by decide +kernel
def c88 : Option (Status × Commit × ACur) :=
  dispatch tEnv (start st1 (evA 10) 0#64) ⟨mint ++ [remark], Status.ENDOFFRAME, true⟩
def c88' : Option (Status × Commit × ACur) := c88.bind fun r => dispatch tEnv r.2.1 r.2.2
example : ∃ c1, AreComments [remark] ∧ Status.ENDOFFRAME.ok = false ∧
    Accepts tEnv (start st1 (evA 10) 0#64) ⟨mint ++ [remark], Status.ENDOFFRAME, true⟩ c1
      ⟨[remark], Status.ENDOFFRAME, true⟩ := by
  have k : (c88.isSome && c88'.isSome && decide ((c88.map fun r => r.1.ok && r.2.2.valid) = some true) &&
    decide ((c88'.map fun r => (r.1.ok, r.2.2)) = some (true, ⟨[remark], Status.ENDOFFRAME, true⟩))) = true := by
    decide +kernel
  simp only [Bool.and_eq_true, decide_eq_true_eq] at k
  obtain ⟨⟨⟨k1, k2⟩, k3⟩, k4⟩ := k
  obtain ⟨⟨s1, d1, e1⟩, h1⟩ := Option.isSome_iff_exists.1 k1
  have h2 : c88' = dispatch tEnv d1 e1 := by unfold c88'; rw [h1]; rfl
  rw [h1] at k3
  rw [h2] at k2 k4
  obtain ⟨⟨s2, d2, e2⟩, h3⟩ := Option.isSome_iff_exists.1 k2
  rw [h3] at k4
  simp only [Option.map_some, Option.some.injEq, Bool.and_eq_true, Prod.mk.injEq] at k3 k4
  obtain ⟨k4, rfl⟩ := k4
  exact ⟨d2, (by intro o ho; rw [List.mem_singleton.1 ho]; decide), by decide,
    .more (by decide) h1 k3.1 (.more k3.2 h3 k4 (.none _ _))⟩
example : ∃ c2 st, dispatch tEnv (start st1 (evA 10) 0#64) ⟨[op2 (evA 11) (formUuid Form.LWW), op2 (evA 12) (evA 11)],
    Status.ENDOFFRAME, true⟩ = some (st, c2, ⟨[], Status.ENDOFFRAME, true⟩) := by
  have k : ((dispatch tEnv (start st1 (evA 10) 0#64) ⟨[op2 (evA 11) (formUuid Form.LWW), op2 (evA 12) (evA 11)],
    Status.ENDOFFRAME, true⟩).map fun r => r.2.2) = some ⟨[], Status.ENDOFFRAME, true⟩ := by decide +kernel
  obtain ⟨⟨st, c2, e⟩, h, rfl⟩ := map_some k
  exact ⟨c2, st, h⟩
example : rcv st1 (evA 10) [op2 (evA 11) (formUuid Form.LWW), op2 (evA 12) (evA 11), remark] =
    rcv st1 (evA 10) [op2 (evA 11) (formUuid Form.LWW), op2 (evA 12) (evA 11)] := by decide +kernel

end Ron.Props
