import Verif.Model.Replica
import Verif.Lemmas.Store
/-!
What the steps of a transaction leave alone.
-/
namespace Ron
namespace Commit

theorem bind_some {α β : Type} {x : Option α} {f : α → Option β} {b : β} (h : x.bind f = some b) :
    ∃ a, x = some a ∧ f a = some b := by
  cases x with
  | none => cases h
  | some a => exact ⟨a, rfl, h⟩

theorem map_some {α β : Type} {x : Option α} {f : α → β} {b : β} (h : x.map f = some b) :
    ∃ a, x = some a ∧ f a = b := by
  cases x with
  | none => cases h
  | some a => exact ⟨a, rfl, by simpa using h⟩

/-- Only the transaction's own records change, and they stay in order. -/
def MemOnly (c c' : Commit) : Prop :=
  ∃ m, c' = { c with mem := m } ∧ (MemStore.Sorted c.mem → MemStore.Sorted m)

theorem MemOnly.rfl' (c : Commit) : MemOnly c c := ⟨c.mem, rfl, fun h => h⟩

theorem memRead_sorted {mg : Reducer} {s s' : MemStore} {k : Key} {into f : Frame} {st : Status}
    (h : s.read mg k into = some (st, f, s')) (hs : MemStore.Sorted s) : MemStore.Sorted s' := by
  rcases MemStore.read_eq mg hs k into with ⟨-, e⟩ | ⟨g, -, e⟩ | ⟨-, ⟨-, e⟩ | ⟨a, b, t, -, e, ht, -⟩⟩
  · rw [e] at h; cases h; exact hs
  · rw [e] at h; cases h; exact hs
  · rw [e] at h; cases h
  · rw [e] at h; cases h; exact ht

/-- A read may only reorganise the transaction's own records. -/
theorem read_keeps {env : Env} {c c' : Commit} {k : Key} {into f : Frame} {st : Status}
    (h : c.read env k into = some (st, f, c')) : MemOnly c c' := by
  unfold read at h
  obtain ⟨a, ha, h⟩ := bind_some h
  split at h
  · cases h; exact MemOnly.rfl' _
  · obtain ⟨b, hb, h⟩ := bind_some h
    have hs := memRead_sorted (st := b.1) (f := b.2.1) (s' := b.2.2) hb
    simp only at h
    split at h
    · cases h; exact ⟨_, rfl, hs⟩
    · split at h
      · cases h; exact ⟨_, rfl, hs⟩
      · split at h
        · cases h; exact ⟨_, rfl, hs⟩
        · obtain ⟨r, hr, h⟩ := map_some h
          split at h <;> (cases h; exact ⟨_, rfl, hs⟩)

theorem findOpMeta_keeps {env : Env} {c c' : Commit} {id : Uuid} {st : Status} {m : OpMeta}
    (h : c.findOpMeta env id = some (st, m, c')) : MemOnly c c' := by
  unfold findOpMeta at h
  obtain ⟨a, ha, h⟩ := bind_some h
  split at h
  · cases h; exact MemOnly.rfl' _
  · split at h
    · cases h; exact MemOnly.rfl' _
    · obtain ⟨l, hl, h⟩ := bind_some h
      have hx := read_keeps (st := l.1) (f := l.2.1) (c' := l.2.2) hl
      split at h
      · cases h; exact hx
      · split at h
        · cases h; exact hx
        · obtain ⟨r, hr, h⟩ := map_some h
          cases h; exact hx

theorem yarnTip_keeps {env : Env} {c c' : Commit} {o : AOp} {st : Status} {m : OpMeta}
    (h : c.yarnTip env o = some (st, m, c')) : MemOnly c c' := by
  unfold yarnTip at h
  obtain ⟨t, ht, h⟩ := bind_some h
  have hx := findOpMeta_keeps (st := t.1) (m := t.2.1) (c' := t.2.2) ht
  split at h
  · split at h
    · obtain ⟨r, hr, h⟩ := map_some h
      cases h; exact hx
    · split at h
      · cases h; exact hx
      · split at h <;> (cases h; exact hx)
  · split at h
    · cases h; exact hx
    · split at h <;> (cases h; exact hx)

theorem headMeta_keeps {env : Env} {c c' : Commit} {t m : OpMeta} {o : AOp} {st : Status}
    (h : c.headMeta env t o = some (st, m, c')) : MemOnly c c' := by
  unfold headMeta at h
  split at h
  · obtain ⟨r, hr, h⟩ := map_some h
    cases h; exact MemOnly.rfl' _
  · split at h
    · split at h
      · cases h; exact MemOnly.rfl' _
      · obtain ⟨r, hr, h⟩ := map_some h
        cases h; exact MemOnly.rfl' _
    · obtain ⟨r, hr, h⟩ := bind_some h
      have hx := findOpMeta_keeps (st := r.1) (m := r.2.1) (c' := r.2.2) hr
      split at h
      · cases h; exact hx
      · obtain ⟨r', hr', h⟩ := map_some h
        cases h; exact hx

/-- The walk along a chain only moves `tip_` and `max_`. -/
theorem chainletLoop_keeps {hs : Hashing} {fin : Status} : ∀ (ops : List AOp) {s s' : Chainlet}
    {st : Status} {rest : List AOp}, chainletLoop hs fin s ops = some (st, s', rest) →
    ∃ t x, s'.c = { s.c with tip := t, max := x } := by
  intro ops
  induction ops with
  | nil =>
    intro s s' st rest h
    simp only [chainletLoop] at h
    cases h; exact ⟨_, _, rfl⟩
  | cons o os ih =>
    intro s s' st rest h
    simp only [chainletLoop] at h
    split at h
    · exact ih h
    · split at h
      · split at h
        · cases h; exact ⟨_, _, rfl⟩
        · obtain ⟨m, hm, h⟩ := bind_some h
          split at h
          · split at h
            · cases h; exact ⟨_, _, rfl⟩
            · obtain ⟨t, x, e⟩ := ih h
              exact ⟨t, x, e⟩
          · obtain ⟨t, x, e⟩ := ih h
            exact ⟨t, x, e⟩
      · split at h
        · split at h
          · cases h; exact ⟨_, _, rfl⟩
          · exact ih h
        · cases h; exact ⟨_, _, rfl⟩

/-- What is left is a tail of what was given. -/
theorem chainletLoop_suffix {hs : Hashing} {fin : Status} : ∀ (ops : List AOp) {s s' : Chainlet}
    {st : Status} {rest : List AOp}, chainletLoop hs fin s ops = some (st, s', rest) →
    ∃ pre, ops = pre ++ rest := by
  intro ops
  induction ops with
  | nil =>
    intro s s' st rest h
    simp only [chainletLoop] at h
    cases h; exact ⟨[], rfl⟩
  | cons o os ih =>
    intro s s' st rest h
    simp only [chainletLoop] at h
    have step : ∀ {s : Chainlet}, chainletLoop hs fin s os = some (st, s', rest) →
        ∃ pre, o :: os = pre ++ rest := by
      intro s h
      obtain ⟨pre, e⟩ := ih h
      exact ⟨o :: pre, by rw [e]; rfl⟩
    split at h
    · exact step h
    · split at h
      · split at h
        · cases h; exact ⟨[], rfl⟩
        · obtain ⟨m, hm, h⟩ := bind_some h
          split at h
          · split at h
            · cases h; exact ⟨[], rfl⟩
            · exact step h
          · exact step h
      · split at h
        · split at h
          · cases h; exact ⟨[], rfl⟩
          · exact step h
        · cases h; exact ⟨[], rfl⟩

/-- The main store is not touched, and the base of the transaction stays. -/
structure Keeps (c c' : Commit) : Prop where
  main : c'.main = c.main
  base : c'.base = c.base
  sorted : MemStore.Sorted c.mem → MemStore.Sorted c'.mem

theorem Keeps.rfl' (c : Commit) : Keeps c c := ⟨rfl, rfl, fun h => h⟩
theorem Keeps.trans {a b c : Commit} (h : Keeps a b) (g : Keeps b c) : Keeps a c :=
  ⟨g.main.trans h.main, g.base.trans h.base, fun x => g.sorted (h.sorted x)⟩
theorem Keeps.mem {c c' : Commit} (h : MemOnly c c') : Keeps c c' := by
  obtain ⟨x, rfl, hx⟩ := h; exact ⟨rfl, rfl, hx⟩
theorem Keeps.write (c : Commit) (k : Key) (f : Frame) : Keeps c (c.write k f).2 := by
  refine ⟨rfl, rfl, fun h => ?_⟩
  show MemStore.Sorted (c.mem.write k f).2
  unfold MemStore.write
  split
  · exact h
  · exact MemStore.insert_sorted h _ _

theorem storeChain_keeps {env : Env} {c c' : Commit} {m : OpMeta} {o : AOp} {os rest : List AOp}
    {fin st : Status} (h : c.storeChain env m o os fin = some (st, c', rest)) :
    Keeps c c' ∧ (st.ok = true → ∃ pre, os = pre ++ rest) ∧ ∃ pre, o :: os = pre ++ rest := by
  unfold storeChain at h
  have hw : Keeps c (if o.ref ≠ m.id then c.write (Key.mk' o.id Form.META) (m.save env.hs)
      else (Status.OK, c)).2 := by
    split
    · exact Keeps.write _ _ _
    · exact Keeps.rfl' _
  revert h hw
  generalize (if o.ref ≠ m.id then c.write (Key.mk' o.id Form.META) (m.save env.hs)
      else (Status.OK, c)) = w
  intro h hw
  simp only at h
  split at h
  · rename_i hbad
    cases h
    refine ⟨hw, fun hok => ?_, [], rfl⟩
    exact absurd hok (by simpa using hbad)
  · obtain ⟨s, hs, h⟩ := map_some h
    obtain ⟨t, y, e⟩ := chainletLoop_keeps os (st := s.1) (s' := s.2.1) (rest := s.2.2) hs
    obtain ⟨pre, e2⟩ := chainletLoop_suffix os (st := s.1) (s' := s.2.1) (rest := s.2.2) hs
    have k1 : Keeps c s.2.1.c := by
      rw [e]
      exact ⟨hw.main, hw.base, hw.sorted⟩
    have fin : ∀ c'' : Commit, Keeps s.2.1.c c'' → ∀ {st' : Status},
        (st', c'', s.2.2) = (st, c', rest) →
        Keeps c c' ∧ (st.ok = true → ∃ pre, os = pre ++ rest) ∧ ∃ pre, o :: os = pre ++ rest := by
      intro c'' k st' e
      cases e
      exact ⟨k1.trans k, fun _ => ⟨pre, e2⟩, o :: pre, by rw [e2]; rfl⟩
    have k2 : Keeps s.2.1.c { s.2.1.c with now := (clockSee s.2.1.c.now s.2.1.m.id).1 } :=
      ⟨rfl, rfl, fun h => h⟩
    split at h
    · exact fin _ (Keeps.rfl' _) h
    · split at h
      · exact fin _ (by exact ⟨rfl, rfl, fun h => h⟩) h
      · split at h
        · exact fin _ (by exact k2.trans (Keeps.write _ _ _)) h
        · split at h
          · exact fin _ (by exact (k2.trans (Keeps.write _ _ _)).trans (Keeps.write _ _ _)) h
          · refine fin _ (by exact ((k2.trans (Keeps.write _ _ _)).trans (Keeps.write _ _ _)).trans (by exact ⟨rfl, rfl, fun h => h⟩)) h

/-- A step: the main store is kept; the cursor moves forward, by at least one op if all is well. -/
structure Step (c : Commit) (cur : ACur) (st : Status) (c' : Commit) (cur' : ACur) : Prop where
  keeps : Keeps c c'
  tail : ∃ pre, cur.ops = pre ++ cur'.ops
  moves : st.ok = true → cur'.ops.length < cur.ops.length
  fin : cur'.fin = cur.fin
  started : cur'.started = cur.started

theorem saveChain_step {env : Env} {c c' : Commit} {cur cur' : ACur} {st : Status}
    (h : c.saveChain env cur = some (st, c', cur')) : Step c cur st c' cur' := by
  unfold saveChain at h
  match hops : cur.ops with
  | [] => rw [hops] at h; cases h
  | o :: os =>
    rw [hops] at h
    simp only at h
    have stay : ∀ {c'' : Commit} {st' : Status}, st'.ok ≠ true → Keeps c c'' →
        some (st', c'', cur) = some (st, c', cur') → Step c cur st c' cur' := by
      intro c'' st' hbad k e
      cases e
      exact ⟨k, ⟨[], by simp⟩, fun hk => absurd hk hbad, rfl, rfl⟩
    split at h
    · exact stay ‹_› (Keeps.rfl' _) h
    · obtain ⟨t, ht, h⟩ := bind_some h
      have k1 := Keeps.mem (yarnTip_keeps (st := t.1) (m := t.2.1) (c' := t.2.2) ht)
      split at h
      · exact stay ‹_› k1 h
      · obtain ⟨g, hg, h⟩ := bind_some h
        have k2 := k1.trans (Keeps.mem (headMeta_keeps (st := g.1) (m := g.2.1) (c' := g.2.2) hg))
        split at h
        · exact stay ‹_› k2 h
        · obtain ⟨r, hr, h⟩ := map_some h
          obtain ⟨k3, hk, pre, e⟩ := storeChain_keeps (st := r.1) (c' := r.2.1) (rest := r.2.2) hr
          cases h
          refine ⟨k2.trans k3, ⟨pre, by rw [hops, e]⟩, fun hok => ?_, rfl, rfl⟩
          obtain ⟨pre', e'⟩ := hk hok
          rw [hops, e']
          simp only [List.length_cons, List.length_append]
          omega

theorem hostNow_keeps (env : Env) (c : Commit) : Keeps c (c.hostNow env).2 := ⟨rfl, rfl, fun h => h⟩

/-- Nothing of what was stamped is saved: the cursor over it is never moved to its first op. -/
theorem saveAll_idle (env : Env) (fuel : Nat) (c : Commit) (ops : List AOp) (fin : Status) :
    c.saveAll env (fuel + 1) ⟨ops, fin, false⟩ = some (Status.OK, c) := by
  simp [saveAll, ACur.valid]

theorem stampAll_rest (now : Uuid) : ∀ (ops : List AOp) (b : ABuilder),
    (stampAll now b ops).2 = ops.dropWhile fun o => decide (o.id.origin.payload = 0) := by
  intro ops
  induction ops with
  | nil => intro b; rfl
  | cons o os ih =>
    intro b
    simp only [stampAll]
    by_cases h : o.id.origin.payload = 0
    · rw [if_neg (by simpa using h), ih, List.dropWhile_cons_of_pos (by simpa using h)]
    · rw [if_pos h, List.dropWhile_cons_of_neg (by simpa using h)]

theorem writeNewEvents_eq (env : Env) (c : Commit) (cur : ACur) :
    c.writeNewEvents env cur = some (Status.OK, (c.hostNow env).2,
      if cur.valid then { cur with ops := cur.ops.dropWhile fun o => decide (o.id.origin.payload = 0) }
      else cur) := by
  unfold writeNewEvents
  simp only [saveAll_idle, Option.map_some]
  by_cases h : cur.valid
  · rw [if_pos h, if_pos h, stampAll_rest]
  · rw [if_neg h, if_neg h]

theorem dropWhile_suffix {α : Type} (p : α → Bool) (l : List α) : ∃ pre, l = pre ++ l.dropWhile p :=
  ⟨l.takeWhile p, (List.takeWhile_append_dropWhile).symm⟩

theorem next_step {cur : ACur} (h : cur.valid = true) :
    cur.next.2 = { cur with ops := cur.ops.tail } := by
  match cur, h with
  | ⟨[], fin, s⟩, h => simp [ACur.valid] at h
  | ⟨[o], fin, s⟩, h =>
    have : s = true := by simpa [ACur.valid] using h
    subst this; rfl
  | ⟨o :: p :: os, fin, s⟩, h =>
    have : s = true := by simpa [ACur.valid] using h
    subst this; rfl

theorem Step.next {c c' : Commit} {cur : ACur} {st : Status} (hv : cur.valid = true) (k : Keeps c c') :
    Step c cur st c' cur.next.2 := by
  rw [next_step hv]
  have hne : cur.ops ≠ [] := by
    intro e; simp [ACur.valid, e] at hv
  obtain ⟨o, os, e⟩ := List.exists_cons_of_ne_nil hne
  exact ⟨k, ⟨[o], by simp [e]⟩, fun _ => by simp [e], rfl, rfl⟩

theorem Step.stay {c c' : Commit} {cur : ACur} {st : Status} (hb : st.ok ≠ true) (k : Keeps c c') :
    Step c cur st c' cur :=
  ⟨k, ⟨[], rfl⟩, fun h => absurd h hb, rfl, rfl⟩

theorem writeNewEvents_step {env : Env} {c c' : Commit} {cur cur' : ACur} {st : Status} {o : AOp}
    {os : List AOp} (hops : cur.ops = o :: os) (h0 : o.id.origin.payload = 0) (hv : cur.valid = true)
    (h : c.writeNewEvents env cur = some (st, c', cur')) : Step c cur st c' cur' := by
  rw [writeNewEvents_eq, if_pos hv] at h
  cases h
  refine ⟨hostNow_keeps env c, dropWhile_suffix _ _, fun _ => ?_, rfl, rfl⟩
  show (cur.ops.dropWhile _).length < _
  rw [hops, List.dropWhile_cons_of_pos (by simpa using h0)]
  obtain ⟨pre, e⟩ := dropWhile_suffix (fun o : AOp => decide (o.id.origin.payload = 0)) os
  have := congrArg List.length e
  simp only [List.length_append] at this
  simp only [List.length_cons]
  omega

/-- The statuses of a scan are errors. -/
theorem unroll_bad {ref : Uuid} {e : Status} : ∀ (fuel : Nat) (s : Rga.Scan),
    Rga.unroll ref fuel s = .bad e → e.ok = false := by
  intro fuel
  induction fuel with
  | zero => intro s h; cases h
  | succ n ih =>
    intro s h
    simp only [Rga.unroll] at h
    split at h
    · split at h
      · cases h
      · split at h
        · rename_i hr
          cases h
          unfold Rga.resolve at hr
          split at hr
          · cases hr; decide
          · repeat' (split at hr)
            all_goals first | cases hr | (simp only at hr; split at hr <;> first | cases hr | (split at hr <;> cases hr))
        · cases h
        · split at h
          · rename_i hp
            simp only [Rga.popTop] at hp
            split at hp <;> cases hp
          · cases h
          · exact ih _ h
    · cases h

theorem turn_bad {s : Rga.Scan} {id ref : Uuid} {et : Nat} {e : Status}
    (h : Rga.turn s id ref et = .bad e) : e.ok = false := by
  simp only [Rga.turn] at h
  split at h
  · cases h; decide
  · split at h
    · cases h; decide
    · split at h
      · rename_i hu; cases h; exact unroll_bad _ _ hu
      · cases h
      · cases h

theorem turns_bad {e : Status} : ∀ (os : List AOp) (s : Rga.Scan), Rga.turns s os = .bad e →
    e.ok = false := by
  intro os
  induction os with
  | nil => intro s h; cases h
  | cons o os ih =>
    intro s h
    simp only [Rga.turns] at h
    split at h
    · rename_i ht; cases h; exact turn_bad ht
    · cases h
    · exact ih _ h

theorem scan_bad {ops : List AOp} {e : Status} (h : Rga.scan ops = .bad e) : e.ok = false := by
  simp only [Rga.scan] at h
  split at h
  · cases h
  · split at h
    · cases h; decide
    · split at h
      · rename_i ht; cases h; exact turns_bad _ _ ht
      · cases h
      · split at h
        · rename_i ht; cases h; exact turn_bad ht
        · cases h
        · cases h

theorem txtWrite_step {env : Env} {c c' : Commit} {cur cur' : ACur} {st : Status}
    (h : c.txtWrite env cur = some (st, c', cur')) : Step c cur st c' cur' := by
  unfold txtWrite at h
  match hops : cur.ops with
  | [] => rw [hops] at h; cases h
  | o :: os =>
    rw [hops] at h
    simp only at h
    split at h
    · obtain ⟨r, hr, h⟩ := bind_some h
      have k := Keeps.mem (read_keeps (st := r.1) (f := r.2.1) (c' := r.2.2) hr)
      split at h
      · cases h; exact Step.stay ‹_› k
      · split at h
        · cases h
        · rename_i e hscan
          cases h
          exact Step.stay (by rw [scan_bad hscan]; decide) k
        · obtain ⟨w, hw, h⟩ := map_some h
          cases h
          rw [writeNewEvents_eq] at hw
          cases hw
          refine ⟨k.trans ⟨rfl, rfl, fun h => h⟩, ⟨[o], by rw [hops]; rfl⟩, fun _ => by rw [hops]; simp, rfl, rfl⟩
    · cases h; exact Step.stay (by decide) (Keeps.rfl' _)

theorem receiveWrites_step {env : Env} {c c' : Commit} {cur cur' : ACur} {st : Status} {o : AOp}
    {os : List AOp} (hops : cur.ops = o :: os) (h0 : o.id.origin.payload = 0) (hv : cur.valid = true)
    (h : c.receiveWrites env cur = some (st, c', cur')) : Step c cur st c' cur' := by
  unfold receiveWrites at h
  rw [hops] at h
  simp only at h
  split at h
  · exact writeNewEvents_step hops h0 hv h
  · split at h
    · cases h; exact Step.stay (by decide) (Keeps.rfl' _)
    · split at h
      · exact writeNewEvents_step hops h0 hv h
      · split at h
        · exact txtWrite_step h
        · cases h; exact Step.stay (by decide) (Keeps.rfl' _)

theorem queryObject_step {env : Env} {c c' : Commit} {cur cur' : ACur} {st : Status} {o : AOp}
    (hv : cur.valid = true) (h : c.queryObject env o cur = some (st, c', cur')) :
    Step c cur st c' cur' := by
  unfold queryObject at h
  obtain ⟨r, hr, h⟩ := map_some h
  have k := Keeps.mem (read_keeps (st := r.1) (f := r.2.1) (c' := r.2.2) hr)
  split at h
  · cases h; exact Step.stay ‹_› k
  · cases h; exact Step.next hv k

theorem queryObjectLog_step {env : Env} {c c' : Commit} {cur cur' : ACur} {st : Status} {o : AOp}
    (hv : cur.valid = true) (h : c.queryObjectLog env o cur = some (st, c', cur')) :
    Step c cur st c' cur' := by
  unfold queryObjectLog at h
  simp only at h
  obtain ⟨m, hm, h⟩ := bind_some h
  have k := Keeps.mem (findOpMeta_keeps (st := m.1) (m := m.2.1) (c' := m.2.2) hm)
  split at h
  · cases h; exact Step.next hv k
  · obtain ⟨r, hr, h⟩ := bind_some h
    have k := k.trans (Keeps.mem (read_keeps (st := r.1) (f := r.2.1) (c' := r.2.2) hr))
    repeat' (split at h)
    all_goals first
      | (cases h; exact Step.next hv k)
      | cases h

theorem receiveQuery_step {env : Env} {c c' : Commit} {cur cur' : ACur} {st : Status}
    (hv : cur.valid = true) (h : c.receiveQuery env cur = some (st, c', cur')) :
    Step c cur st c' cur' := by
  unfold receiveQuery at h
  split at h
  · cases h
  · simp only at h
    split at h
    · exact queryObject_step hv h
    · split at h
      · exact queryObjectLog_step hv h
      · cases h; exact Step.stay (by decide) (Keeps.rfl' _)

theorem receiveMapQuery_step {env : Env} {c c' : Commit} {cur cur' : ACur} {st : Status}
    (hv : cur.valid = true) (h : c.receiveMapQuery env cur = some (st, c', cur')) :
    Step c cur st c' cur' := by
  unfold receiveMapQuery at h
  split at h
  · cases h
  · split at h
    · obtain ⟨r, hr, h⟩ := map_some h
      have k := Keeps.mem (read_keeps (st := r.1) (f := r.2.1) (c' := r.2.2) hr)
      split at h
      · cases h; exact Step.stay ‹_› k
      · cases h; exact Step.next hv k
    · cases h; exact Step.stay (by decide) (Keeps.rfl' _)

theorem receiveMapWrites_step {env : Env} {c c' : Commit} {cur cur' : ACur} {st : Status}
    (h : c.receiveMapWrites env cur = some (st, c', cur')) : Step c cur st c' cur' := by
  unfold receiveMapWrites at h
  split at h
  · cases h
  · split at h
    · exact txtWrite_step h
    · cases h; exact Step.stay (by decide) (Keeps.rfl' _)

/-- The first op of a cursor. -/
theorem dispatch_step {env : Env} {c c' : Commit} {cur cur' : ACur} {st : Status}
    (hv : cur.valid = true) (hn : ∀ o os, cur.ops = o :: os → o.id ≠ NAME_UUID)
    (h : c.dispatch env cur = some (st, c', cur')) : Step c cur st c' cur' := by
  unfold dispatch at h
  split at h
  · cases h
  · rename_i o os hops
    split at h
    · split at h
      · exact receiveQuery_step hv h
      · split at h
        · exact saveChain_step h
        · exact receiveWrites_step hops (Decidable.not_not.1 ‹_›) hv h
    · split at h
      · split at h
        · exact receiveMapQuery_step hv h
        · exact receiveMapWrites_step h
      · split at h
        · split at h
          · cases h; exact Step.next hv (Keeps.rfl' _)
          · split at h
            · exact absurd ‹_› (hn o os hops)
            · cases h; exact Step.stay (by decide) (Keeps.rfl' _)
        · cases h; exact Step.stay (by decide) (Keeps.rfl' _)

theorem receiveLoop_keeps {env : Env} : ∀ (fuel : Nat) (c : Commit) (cur : ACur) {st : Status}
    {c' : Commit}, (∀ o ∈ cur.ops, o.id ≠ NAME_UUID) →
    receiveLoop env fuel c cur = some (st, c') → Keeps c c' := by
  intro fuel
  induction fuel with
  | zero => intro c cur st c' _ h; cases h
  | succ n ih =>
    intro c cur st c' hn h
    simp only [receiveLoop] at h
    split at h
    · cases h; exact Keeps.rfl' _
    · rename_i hv
      obtain ⟨r, hr, h⟩ := bind_some h
      have s := dispatch_step (st := r.1) (c' := r.2.1) (cur' := r.2.2) (by simpa using hv)
        (fun o os e => hn o (by rw [e]; exact List.mem_cons_self)) hr
      split at h
      · cases h; exact s.keeps
      · split at h
        · obtain ⟨pre, e⟩ := s.tail
          exact s.keeps.trans (ih _ _ (fun o ho => hn o (by rw [e]; exact List.mem_append_right _ ho)) h)
        · cases h; exact s.keeps

/-- The key of the record of version names. -/
def NAMES : Key := Key.mk' Uuid.NIL Form.LWW

/-- At most names were added to the main store. -/
def Named (c c' : Commit) : Prop :=
  (∃ fs : List Frame, c'.main = fs.foldl (fun s f => MemStore.insert NAMES f s) c.main) ∧
  c'.base = c.base ∧ (MemStore.Sorted c.mem → MemStore.Sorted c'.mem)

theorem Named.rfl' (c : Commit) : Named c c := ⟨⟨[], rfl⟩, rfl, fun h => h⟩
theorem Named.keeps {c c' : Commit} (h : Keeps c c') : Named c c' := ⟨⟨[], h.main⟩, h.base, h.sorted⟩
theorem Named.trans {a b c : Commit} (h : Named a b) (g : Named b c) : Named a c := by
  obtain ⟨⟨f, hf⟩, h1, h2⟩ := h
  obtain ⟨⟨k, hk⟩, g1, g2⟩ := g
  exact ⟨⟨f ++ k, by rw [hk, hf, List.foldl_append]⟩, g1.trans h1, fun x => g2 (h2 x)⟩

theorem writeName_named {env : Env} {c c' : Commit} {cur cur' : ACur} {st : Status}
    (h : c.writeName env cur = some (st, c', cur')) :
    Named c c' ∧ (∃ pre, cur.ops = pre ++ cur'.ops) ∧ (st.ok = true → cur'.ops.length < cur.ops.length) := by
  unfold writeName at h
  match hops : cur.ops with
  | [] => rw [hops] at h; cases h
  | o :: os =>
    rw [hops] at h
    simp only at h
    split at h
    · split at h
      · cases h; exact ⟨Named.rfl' _, ⟨[], by simp [hops]⟩, fun h => by cases h⟩
      · cases h
        refine ⟨?_, ⟨[o], rfl⟩, fun _ => by simp⟩
        have hne : ¬ (Key.mk' Uuid.NIL Form.LWW = Key.END) := by decide
        simp only [putName, Engine.write, hne, false_and, if_false]
        exact ⟨⟨[_], rfl⟩, rfl, fun h => h⟩
    · cases h; exact ⟨Named.rfl' _, ⟨[], by simp [hops]⟩, fun h => by cases h⟩

theorem dispatch_named {env : Env} {c c' : Commit} {cur cur' : ACur} {st : Status}
    (hv : cur.valid = true) (h : c.dispatch env cur = some (st, c', cur')) :
    Named c c' ∧ (∃ pre, cur.ops = pre ++ cur'.ops) ∧ (st.ok = true → cur'.ops.length < cur.ops.length) := by
  by_cases hn : ∃ o os, cur.ops = o :: os ∧ o.id = NAME_UUID
  · obtain ⟨o, os, hops, hid⟩ := hn
    apply writeName_named (env := env) (cur := cur) (c := c)
    rw [← h]
    unfold dispatch
    rw [hops]
    simp only [hid]
    rw [if_neg (by decide), if_neg (by decide), if_pos (by decide), if_neg (by decide), if_pos trivial]
  · have s := dispatch_step hv (fun o os e hid => hn ⟨o, os, e, hid⟩) h
    exact ⟨Named.keeps s.keeps, s.tail, s.moves⟩

theorem receiveLoop_named {env : Env} : ∀ (fuel : Nat) (c : Commit) (cur : ACur) {st : Status}
    {c' : Commit}, receiveLoop env fuel c cur = some (st, c') → Named c c' := by
  intro fuel
  induction fuel with
  | zero => intro c cur st c' h; cases h
  | succ n ih =>
    intro c cur st c' h
    simp only [receiveLoop] at h
    split at h
    · cases h; exact Named.rfl' _
    · rename_i hv
      obtain ⟨r, hr, h⟩ := bind_some h
      have s := dispatch_named (st := r.1) (c' := r.2.1) (cur' := r.2.2) (by simpa using hv) hr
      split at h
      · cases h; exact s.1
      · split at h
        · exact s.1.trans (ih _ _ h)
        · cases h; exact s.1

theorem operands_insert {k j : Key} (hk : k ≠ j) (f : Frame) : ∀ s : MemStore,
    Engine.operands (MemStore.insert k f s) j = Engine.operands s j := by
  intro s
  induction s with
  | nil => simp [MemStore.insert, Engine.operands, hk]
  | cons r s ih =>
    simp only [MemStore.insert]
    split
    · simp [Engine.operands, hk]
    · simp only [Engine.operands, List.filter_cons] at ih ⊢
      split <;> simp [ih]

theorem Named.operands {c c' : Commit} (h : Named c c') {j : Key} (hj : NAMES ≠ j) :
    Engine.operands c'.main j = Engine.operands c.main j := by
  obtain ⟨⟨fs, e⟩, -⟩ := h
  rw [e]
  clear e
  generalize c.main = s
  induction fs generalizing s with
  | nil => rfl
  | cons f fs ih => rw [List.foldl_cons, ih, operands_insert hj]

theorem Named.main_sorted {c c' : Commit} (h : Named c c') (hs : MemStore.Sorted c.main) :
    MemStore.Sorted c'.main := by
  obtain ⟨⟨fs, e⟩, -⟩ := h
  rw [e]
  clear e
  revert hs
  generalize c.main = s
  intro hs
  induction fs generalizing s with
  | nil => exact hs
  | cons f fs ih => rw [List.foldl_cons]; exact ih _ (MemStore.insert_sorted hs _ _)

/-- `Save` either writes all the records or none. -/
theorem save_main (c : Commit) : (c.save).1.ok = true ∧
    ((c.save).2.main = c.main ∨ (c.save).2.main = Engine.writeAll c.main
      (MemStore.insert Key.ZERO [⟨c.tip, formUuid Form.ZERO, [], .raw⟩] c.mem)) ∨
    (c.save).1.ok = false ∧ (c.save).2.main = c.main := by
  unfold save
  split
  · exact Or.inl ⟨(by decide : Status.OK.ok = true), Or.inl rfl⟩
  · split
    · exact Or.inr ⟨(by decide : Status.BAD_STATE.ok = false), rfl⟩
    · split
      · exact Or.inr ⟨(by decide : Status.BAD_STATE.ok = false), rfl⟩
      · have hne : ¬ (Key.ZERO = Key.END) := by decide
        have hok : ¬ ¬ Status.OK.ok = true := by decide
        simp only [MemStore.write, hne, if_false, hok]
        exact Or.inl ⟨(by decide : Status.OK.ok = true), Or.inr trivial⟩

theorem writeAll_sorted : ∀ (rs : List (Key × Frame)) {s : MemStore}, MemStore.Sorted s →
    MemStore.Sorted (Engine.writeAll s rs) := by
  intro rs
  induction rs with
  | nil => intro s hs; exact hs
  | cons r rs ih => intro s hs; exact ih (MemStore.insert_sorted hs _ _)

theorem writeAll_operands (k : Key) : ∀ (rs : List (Key × Frame)) {s : MemStore}, MemStore.Sorted s →
    Engine.operands (Engine.writeAll s rs) k = Engine.operands s k ++ Engine.operands rs k := by
  intro rs
  induction rs with
  | nil => intro s hs; exact (List.append_nil _).symm
  | cons r rs ih =>
    intro s hs
    show Engine.operands (Engine.writeAll (MemStore.insert r.1 r.2 s) rs) k = _
    rw [ih (MemStore.insert_sorted hs _ _)]
    have e : Engine.operands (MemStore.insert r.1 r.2 s) k = Engine.operands s k ++ if k = r.1 then [r.2] else [] :=
      MemStore.insert_recs hs r.1 k r.2
    rw [e, List.append_assoc]
    congr 1
    unfold Engine.operands
    by_cases hk : k = r.1
    · rw [if_pos hk, List.filter_cons_of_pos (by simp [hk])]; rfl
    · rw [if_neg hk, List.filter_cons_of_neg (by simpa using fun e => hk e.symm)]; rfl

/-- `Save`: the main store is kept, or the tip is in order and its record the last. -/
theorem save_tip (c : Commit) (hm : MemStore.Sorted c.main) (hs : MemStore.Sorted c.mem) :
    (c.save).2.main = c.main ∨ (c.save).1.ok = true ∧ MemStore.Sorted (c.save).2.main ∧
    (c.base ≠ Uuid.NIL → c.tip.origin = c.base.origin) ∧ Uuid.lt c.tip c.base = false ∧
    ∃ pre, Engine.operands (c.save).2.main Key.ZERO = pre ++ [[⟨c.tip, formUuid Form.ZERO, [], .raw⟩]] := by
  unfold save
  split
  · exact Or.inl rfl
  · split
    · exact Or.inl rfl
    · rename_i h1
      split
      · exact Or.inl rfl
      · rename_i h2
        have hne : ¬ (Key.ZERO = Key.END) := by decide
        have hok : ¬ ¬ Status.OK.ok = true := by decide
        simp only [MemStore.write, hne, if_false, hok]
        refine Or.inr ⟨(by decide : Status.OK.ok = true), writeAll_sorted _ hm, ?_, ?_, ?_⟩
        · intro hb
          exact Decidable.byContradiction fun h => h1 ⟨hb, h⟩
        · simpa using h2
        · rw [writeAll_operands _ _ hm]
          refine ⟨Engine.operands c.main Key.ZERO ++ Engine.operands c.mem Key.ZERO, ?_⟩
          have e : Engine.operands (MemStore.insert Key.ZERO [⟨c.tip, formUuid Form.ZERO, [], .raw⟩] c.mem) Key.ZERO =
            Engine.operands c.mem Key.ZERO ++ if Key.ZERO = Key.ZERO then [[⟨c.tip, formUuid Form.ZERO, [], .raw⟩]] else [] :=
            MemStore.insert_recs hs _ _ _
          rw [e, if_pos rfl, List.append_assoc]

/-- `Release` after a run of appends: every op, all but the last closed with `,`. -/
theorem stampAll_bodies (now : Uuid) : ∀ (ops : List AOp) (b : ABuilder),
    (stampAll now b ops).1.bodies = b.bodies ++
      (ops.takeWhile fun o => decide (o.id.origin.payload = 0)).map fun o =>
        (now, (if o.ref.origin = 0#64 ∧ o.ref.value.toNat < MAXSEQ then
          (⟨now.value + o.ref.value, now.origin⟩ : Uuid) else o.ref), o.vals) := by
  intro ops
  induction ops with
  | nil => intro b; simp [stampAll]
  | cons o os ih =>
    intro b
    simp only [stampAll]
    by_cases h : o.id.origin.payload = 0
    · rw [if_neg (by simpa using h), ih, List.takeWhile_cons_of_pos (by simpa using h), List.map_cons]
      have : ∀ x : AOp, (b.append x).bodies = b.bodies ++ [x.body] := by
        intro x
        cases hb : b.pending <;>
          simp [ABuilder.append, ABuilder.writeTerm, ABuilder.bodies, hb, AOp.body]
      rw [this, List.append_assoc]
      rfl
    · rw [if_pos h, List.takeWhile_cons_of_neg (by simpa using h)]
      simp

end Commit
end Ron
