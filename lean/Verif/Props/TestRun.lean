import Verif.Model.TestRun
import Verif.Spec.TestRun
import Verif.Props.Compare
import Verif.Props.Script
/-!
C87: running a test script.
-/
namespace Ron.Props
open Ron.Spec Ron.Cursor

/-! ### more fuel -/

theorem skip_mono : ∀ {n : Nat} {a c : Cursor}, skipComments n a = .ok (some c) → ∀ k, skipComments (n + k) a = .ok (some c) := by
  intro n
  induction n with
  | zero => intro a c h; simp [skipComments] at h
  | succ n ih =>
    intro a c h k
    rw [show n + 1 + k = n + k + 1 by omega]
    rw [skipComments] at h ⊢
    split
    · rename_i hc
      rw [if_pos hc] at h
      obtain ⟨r, e, h⟩ := bind_ok h
      rw [e, Op.obind]
      exact ih h k
    · rename_i hc
      rw [if_neg hc] at h
      exact h

theorem compareTail_mono {n : Nat} {a b : Cursor} {st : Status} (h : compareTail n a b = .ok (some st)) (k : Nat) :
    compareTail (n + k) a b = .ok (some st) := by
  unfold compareTail at h ⊢
  obtain ⟨a', e1, h⟩ := bind_ok h
  obtain ⟨b', e2, h⟩ := bind_ok h
  cases a' with
  | none => simp at h
  | some a' =>
    cases b' with
    | none => simp at h
    | some b' => rw [skip_mono e1, Op.obind, skip_mono e2, Op.obind]; exact h

theorem compareCursors_mono {feq : List Byte → List Byte → Bool} : ∀ {n : Nat} {a b : Cursor} {st : Status},
    compareCursors feq n a b = .ok (some st) → ∀ k, compareCursors feq (n + k) a b = .ok (some st) := by
  intro n
  induction n with
  | zero => intro a b st h; simp [compareCursors] at h
  | succ n ih =>
    intro a b st h k
    rw [show n + 1 + k = n + k + 1 by omega]
    rw [compareCursors] at h ⊢
    split
    · rename_i hv
      rw [if_pos hv] at h
      obtain ⟨a', e1, h⟩ := bind_ok h
      obtain ⟨b', e2, h⟩ := bind_ok h
      cases a' with
      | none => simp at h
      | some a' =>
        cases b' with
        | none => simp at h
        | some b' =>
          have e1' := skip_mono e1 k
          have e2' := skip_mono e2 k
          rw [show n + 1 + k = n + k + 1 by omega] at e1' e2'
          rw [e1', Op.obind, e2', Op.obind]
          simp only at h ⊢
          split
          · rename_i hc
            rw [if_pos hc] at h
            have := compareTail_mono h k
            rwa [show n + 1 + k = n + k + 1 by omega] at this
          · rename_i hc
            rw [if_neg hc] at h
            obtain ⟨x, e3, h⟩ := bind_ok h
            rw [e3, Op.obind]
            split
            · rename_i hx
              rw [if_pos hx] at h
              exact h
            · rename_i hx
              rw [if_neg hx] at h
              obtain ⟨ra, e4, h⟩ := bind_ok h
              obtain ⟨rb, e5, h⟩ := bind_ok h
              rw [e4, Op.obind, e5, Op.obind]
              exact ih h k
    · rename_i hv
      rw [if_neg hv] at h
      have := compareTail_mono h k
      rwa [show n + 1 + k = n + k + 1 by omega] at this

theorem compareFrames_mono {feq : List Byte → List Byte → Bool} {n : Nat} {a b : List Byte} {st : Status}
    (h : compareFrames feq n a b = .ok (some st)) (k : Nat) : compareFrames feq (n + k) a b = .ok (some st) := by
  unfold compareFrames at h ⊢
  obtain ⟨ra, e1, h⟩ := bind_ok h
  obtain ⟨rb, e2, h⟩ := bind_ok h
  rw [e1, Op.obind, e2, Op.obind]
  split
  · rename_i hc
    rw [if_pos hc] at h
    exact h
  · rename_i hc
    rw [if_neg hc] at h
    exact compareCursors_mono h k

/-! ### what the comparison ends with -/

theorem compareTail_status {n : Nat} {a b : Cursor} {st : Status} (h : compareTail n a b = .ok (some st)) :
    st.ok = true → st = .OK := by
  unfold compareTail at h
  obtain ⟨a', e1, h⟩ := bind_ok h
  obtain ⟨b', e2, h⟩ := bind_ok h
  cases a' with
  | none => simp at h
  | some a' =>
    cases b' with
    | none => simp at h
    | some b' =>
      simp only [Out.ok.injEq, Option.some.injEq] at h
      split at h
      · subst h; intro h; exact absurd h (by decide)
      · exact fun _ => h.symm

theorem compareOps_status {feq : List Byte → List Byte → Bool} {a b : Cursor} {st : Status}
    (h : compareOps feq a b = .ok st) : st.ok = true → st = .OK := by
  unfold compareOps at h
  split at h
  · split at h
    · injection h with h; subst h; intro h; exact absurd h (by decide)
    · split at h
      · injection h with h; subst h; intro h; exact absurd h (by decide)
      · split at h
        · injection h with h; subst h; intro h; exact absurd h (by decide)
        · obtain ⟨e, -, h⟩ := bind_ok h
          injection h with h
          subst h
          split
          · exact fun _ => rfl
          · intro h; exact absurd h (by decide)
  · cases h

theorem compareCursors_status {feq : List Byte → List Byte → Bool} : ∀ {n : Nat} {a b : Cursor} {st : Status},
    compareCursors feq n a b = .ok (some st) → st.ok = true → st = .OK := by
  intro n
  induction n with
  | zero => intro a b st h; simp [compareCursors] at h
  | succ n ih =>
    intro a b st h
    rw [compareCursors] at h
    split at h
    · obtain ⟨a', e1, h⟩ := bind_ok h
      obtain ⟨b', e2, h⟩ := bind_ok h
      cases a' with
      | none => simp at h
      | some a' =>
        cases b' with
        | none => simp at h
        | some b' =>
          simp only at h
          split at h
          · exact compareTail_status h
          · obtain ⟨x, e3, h⟩ := bind_ok h
            split at h
            · injection h with h
              injection h with h
              subst h
              exact compareOps_status e3
            · obtain ⟨ra, e4, h⟩ := bind_ok h
              obtain ⟨rb, e5, h⟩ := bind_ok h
              exact ih h
    · exact compareTail_status h

theorem compareFrames_status {feq : List Byte → List Byte → Bool} {n : Nat} {a b : List Byte} {st : Status}
    (h : compareFrames feq n a b = .ok (some st)) : st.ok = true → st = .OK := by
  unfold compareFrames at h
  obtain ⟨ra, e1, h⟩ := bind_ok h
  obtain ⟨rb, e2, h⟩ := bind_ok h
  split at h
  · injection h with h
    injection h with h
    subst h
    intro h; exact absurd h (by decide)
  · exact compareCursors_status h

/-- Frames the comparison finds equal agree. -/
theorem compare_agree {feq : List Byte → List Byte → Bool} {n : Nat} {a b : List Byte} {st : Status}
    (h : compareFrames feq n a b = .ok (some st)) (hok : st.ok = true) : Agree feq a b := by
  intro va vb sa sb ha hb
  have hst := compareFrames_status h hok
  subst hst
  obtain ⟨st, h1, h2⟩ := C50_exact_partial feq a b va vb sa sb ha hb (n + (va.length + vb.length + 1)) (by omega) (by omega)
  rw [compareFrames_mono h] at h1
  injection h1 with h1
  injection h1 with h1
  exact (h2.1 h1.symm).2.2

/-! ### the runs -/

theorem header_of {f : List Byte} {t : Nat} (h : Script.readHeader f = .ok (some t)) : Header f t := by
  unfold Script.readHeader at h
  obtain ⟨⟨c, st⟩, e, h⟩ := bind_ok h
  simp only at h
  split at h
  · cases h
  · rename_i u hu
    split at h
    · cases h
    · rename_i hc
      obtain ⟨x, -, h⟩ := bind_ok h
      obtain ⟨y, -, h⟩ := bind_ok h
      injection h with h
      injection h with h
      refine ⟨c, st, e, ?_, h⟩
      rw [hu]
      have : u = Script.COMMENT := Classical.not_not.1 hc
      rw [this]
      decide

variable {S : Type} {recv : S → Builder → List Byte → Out (S × Builder × Status)} {feq : List Byte → List Byte → Bool}

theorem run_pass {n : Nat} {fs : List (List Byte)} : ∀ {s s' : S} {b b' : Builder} {st st' : Status},
    Script.runTests recv feq n fs s b st = .ok (some (s', b', st')) → st'.ok = true →
    st.ok = true ∧ Pass recv (Agree feq) fs s b s' b' := by
  induction fs with
  | nil =>
    intro s s' b b' st st' h hok
    rw [Script.runTests] at h
    injection h with h
    injection h with h
    cases h
    exact ⟨hok, .done _ _⟩
  | cons f fs ih =>
    intro s s' b b' st st' h hok
    rw [Script.runTests] at h
    split at h
    · rename_i hc
      injection h with h
      injection h with h
      cases h
      rw [hok] at hc
      cases hc
    · rename_i hc
      refine ⟨by simpa using hc, ?_⟩
      obtain ⟨x, e, h⟩ := bind_ok h
      split at h
      · injection h with h
        injection h with h
        cases h
        exact absurd hok (by decide)
      · rename_i t
        have hh := header_of e
        split at h
        · rename_i ht
          subst ht
          obtain ⟨⟨re, b1⟩, e1, h⟩ := bind_ok h
          obtain ⟨y, e2, h⟩ := bind_ok h
          split at h
          · injection h with h; cases h
          · rename_i st1
            obtain ⟨i1, i2⟩ := ih h hok
            exact .query hh e1 (compare_agree e2 i1) i2
        · split at h
          · rename_i ht
            obtain ⟨⟨s1, b1, st1⟩, e1, h⟩ := bind_ok h
            obtain ⟨i1, i2⟩ := ih h hok
            refine .input ?_ e1 i1 i2
            rcases ht with rfl | rfl
            · exact .inl hh
            · exact .inr hh
          · injection h with h
            injection h with h
            cases h
            exact absurd hok (by decide)

theorem run_mono {n : Nat} {fs : List (List Byte)} : ∀ {s : S} {b : Builder} {st : Status} {r},
    Script.runTests recv feq n fs s b st = .ok (some r) → ∀ k, Script.runTests recv feq (n + k) fs s b st = .ok (some r) := by
  induction fs with
  | nil => intro s b st r h k; rw [Script.runTests] at h ⊢; exact h
  | cons f fs ih =>
    intro s b st r h k
    rw [Script.runTests] at h ⊢
    split
    · rename_i hc
      rw [if_pos hc] at h
      exact h
    · rename_i hc
      rw [if_neg hc] at h
      obtain ⟨x, e, h⟩ := bind_ok h
      rw [e, Op.obind]
      cases x with
      | none => exact h
      | some t =>
        simp only at h ⊢
        split
        · rename_i ht
          rw [if_pos ht] at h
          obtain ⟨re, e1, h⟩ := bind_ok h
          obtain ⟨y, e2, h⟩ := bind_ok h
          cases y with
          | none => simp at h
          | some st1 =>
            rw [e1, Op.obind, compareFrames_mono e2, Op.obind]
            exact ih h k
        · rename_i ht
          rw [if_neg ht] at h
          split
          · rename_i h2
            rw [if_pos h2] at h
            obtain ⟨re, e1, h⟩ := bind_ok h
            rw [e1, Op.obind]
            exact ih h k
          · rename_i h2
            rw [if_neg h2] at h
            exact h

theorem command_mono {n : Nat} {s : S} {script : List Byte} {r}
    (h : Script.commandTest recv feq n s script = .ok (some r)) (k : Nat) :
    Script.commandTest recv feq (n + k) s script = .ok (some r) := by
  unfold Script.commandTest at h ⊢
  obtain ⟨x, e, h⟩ := bind_ok h
  cases x with
  | none => simp at h
  | some ts =>
    rw [show Script.splitTests (n + k) script = .ok (some ts) from splitLoop_mono e k, Op.obind]
    exact run_mono h k

theorem run_unique {n m : Nat} {s : S} {script : List Byte} {r r'}
    (h : Script.commandTest recv feq n s script = .ok (some r))
    (h' : Script.commandTest recv feq m s script = .ok (some r')) : r = r' := by
  have a := command_mono h m
  have b := command_mono h' n
  rw [Nat.add_comm, a] at b
  injection b with b
  injection b

/-- Running the script ends so. -/
def Runs (recv : S → Builder → List Byte → Out (S × Builder × Status)) (feq : List Byte → List Byte → Bool) (s : S)
    (script : List Byte) (r : S × Builder × Status) : Prop :=
  ∃ n, Script.commandTest recv feq n s script = .ok (some r)

/-- C87: if a run of a script ends without an error, then all the tests it was split into pass: each input was received
without an error, and each expected response has the ops of the response. For all replicas and all scripts. -/
theorem C87_sound (s s' : S) (b' : Builder) (st : Status) (script : List Byte)
    (h : Runs recv feq s script (s', b', st)) (hok : st.ok = true) :
    ∃ tests, SplitsTo script tests ∧ Pass recv (Agree feq) tests s Builder.init s' b' := by
  obtain ⟨n, h⟩ := h
  unfold Script.commandTest at h
  obtain ⟨x, e, h⟩ := bind_ok h
  split at h
  · injection h with h; cases h
  · rename_i tests
    exact ⟨tests, ⟨n, e⟩, (run_pass h hok).2⟩

theorem collect_mem {α β : Type} {g : α → Out β} : ∀ {l : List α} {r : List β}, collect g l = .ok r → ∀ x ∈ l, ∃ y, g x = .ok y := by
  intro l
  induction l with
  | nil => intro r _ x hx; simp at hx
  | cons a l ih =>
    intro r h x hx
    rw [collect] at h
    obtain ⟨b, e, h⟩ := bind_ok h
    obtain ⟨bs, e', h⟩ := bind_ok h
    rcases List.mem_cons.1 hx with rfl | hx
    · exact ⟨b, e⟩
    · exact ih e' x hx

/-- The header of a frame that can be read is read. -/
theorem header_reads {f : List Byte} {t : Nat} {v : List OpView} {e : NextStatus} (hc : Contents f v e) (hv : v ≠ [])
    (h : Header f t) : Script.readHeader f = .ok (some t) := by
  obtain ⟨c, st, hn, hid, ht⟩ := h
  obtain ⟨fuel, l, h1, h2⟩ := hc
  cases fuel with
  | zero => simp [iterate] at h1
  | succ fuel =>
    rw [iterate, hn, Op.obind] at h1
    have key : ∃ r l', st = .ok ∧ l = c :: l' ∧ iterate fuel c = .ok (some r) := by
      cases st with
      | ok =>
        simp only at h1
        obtain ⟨x, e1, h1⟩ := bind_ok h1
        cases x with
        | none => simp at h1
        | some x =>
          simp only [Option.map_some, Out.ok.injEq, Option.some.injEq, Prod.mk.injEq] at h1
          exact ⟨x, x.1, rfl, h1.1.symm, e1⟩
      | endOfFrame =>
        simp only [Out.ok.injEq, Option.some.injEq, Prod.mk.injEq] at h1
        rw [← h1.1] at h2
        simp only [collect, Out.ok.injEq] at h2
        exact absurd h2.symm hv
      | badState =>
        simp only [Out.ok.injEq, Option.some.injEq, Prod.mk.injEq] at h1
        rw [← h1.1] at h2
        simp only [collect, Out.ok.injEq] at h2
        exact absurd h2.symm hv
    obtain ⟨r, l', rfl, rfl, hi⟩ := key
    have hnext : ∃ y, next c = .ok y := by
      cases fuel with
      | zero => simp [iterate] at hi
      | succ fuel =>
        rw [iterate] at hi
        obtain ⟨y, e1, -⟩ := bind_ok hi
        exact ⟨y, e1⟩
    obtain ⟨y, hy⟩ := hnext
    obtain ⟨o, ho⟩ := collect_mem h2 c (by simp)
    unfold Script.readHeader
    rw [hn, Op.obind]
    simp only [hid]
    rw [if_neg (by decide)]
    have hstr : ∃ u, (match c.op[2]? with
        | some a => if Atom.type a = Atom.tSTRING then (readString c.buf a).bind fun _ => Out.ok () else .ok ()
        | none => .ok ()) = .ok u := by
      unfold viewOp at ho
      split at ho
      · rename_i i j vals hop
        obtain ⟨vs, e1, -⟩ := bind_ok ho
        rw [hop]
        cases vals with
        | nil => exact ⟨(), rfl⟩
        | cons a vals =>
          show ∃ u, (if Atom.type a = Atom.tSTRING then (readString c.buf a).bind fun _ => Out.ok () else .ok ()) = .ok u
          split
          · rename_i hs
            obtain ⟨w, e2⟩ := collect_mem e1 a (by simp)
            unfold viewAtom at e2
            rw [if_neg (by rw [hs]; decide), if_neg (by rw [hs]; decide), if_pos hs] at e2
            obtain ⟨z, e3, -⟩ := bind_ok e2
            exact ⟨(), by rw [e3]; rfl⟩
          · exact ⟨(), rfl⟩
      · cases ho
    obtain ⟨u, hu⟩ := hstr
    exact (congrArg (fun z : Out Unit => z.bind fun _ => c.next.bind fun _ => .ok (some c.term)) hu).trans (by
      rw [Op.obind, hy, Op.obind, ht])

/-- Both frames can be read, and have the same ops, comments aside. -/
def Equal (feq : List Byte → List Byte → Bool) (a b : List Byte) : Prop :=
  ∃ va vb sa sb, Contents a va sa ∧ Contents b vb sb ∧ Same2 (OpView.Same feq) (events va) (events vb)

/-- The same, and there are ops, or comments at least, in the first one. -/
def EqualSome (feq : List Byte → List Byte → Bool) (a b : List Byte) : Prop :=
  ∃ va vb sa sb, Contents a va sa ∧ va ≠ [] ∧ Contents b vb sb ∧ Same2 (OpView.Same feq) (events va) (events vb)

theorem pass_run {fs : List (List Byte)} {s s' : S} {b b' : Builder} (h : Pass recv (EqualSome feq) fs s b s' b')
    (hr : ∀ f ∈ fs, ∃ v e, Contents f v e ∧ v ≠ []) : ∀ st : Status, st.ok = true →
    ∃ st', st'.ok = true ∧ ∃ n0, ∀ n, n0 ≤ n → Script.runTests recv feq n fs s b st = .ok (some (s', b', st')) := by
  induction h with
  | done s b =>
    intro st hok
    exact ⟨st, hok, 0, fun n _ => by rw [Script.runTests]⟩
  | @input f fs s b s1 b1 st1 s' b' h hrecv hok1 _ ih =>
    intro st hok
    obtain ⟨st', k, n0, hn⟩ := ih (fun f hf => hr f (by simp [hf])) st1 hok1
    obtain ⟨v, e, hc, hv⟩ := hr f (by simp)
    refine ⟨st', k, n0, fun n hle => ?_⟩
    rw [Script.runTests, if_neg (by rw [hok]; decide)]
    rcases h with h | h
    · rw [header_reads hc hv h, Op.obind]
      simp only
      rw [if_neg (by decide), if_pos (by decide), hrecv, Op.obind]
      exact hn n hle
    · rw [header_reads hc hv h, Op.obind]
      simp only
      rw [if_neg (by decide), if_pos (by decide), hrecv, Op.obind]
      exact hn n hle
  | @query f fs s b re b1 s' b' h hrel heq _ ih =>
    intro st hok
    obtain ⟨st', k, n0, hn⟩ := ih (fun f hf => hr f (by simp [hf])) Status.OK (by decide)
    obtain ⟨v, e, hc, hv⟩ := hr f (by simp)
    obtain ⟨va, vb, sa, sb, c1, ne, c2, same⟩ := heq
    refine ⟨st', k, n0 + va.length + vb.length + 1, fun n hle => ?_⟩
    rw [Script.runTests, if_neg (by rw [hok]; decide), header_reads hc hv h, Op.obind]
    simp only
    rw [if_pos trivial, hrel, Op.obind]
    obtain ⟨st2, g1, g2⟩ := C50_exact_partial feq re f va vb sa sb c1 c2 n (by omega) (by omega)
    have hvb : vb ≠ [] := by
      obtain ⟨rfl, -⟩ := Chains.contents_unique c2 hc
      exact hv
    have := g2.2 ⟨⟨fun h => absurd h ne, fun h => absurd h hvb⟩, fun h => absurd h ne, same⟩
    subst this
    rw [g1, Op.obind]
    exact hn n (by omega)

theorem splitTests_mono {n : Nat} {script : List Byte} {ts : List (List Byte)}
    (h : Script.splitTests n script = .ok (some ts)) (k : Nat) : Script.splitTests (n + k) script = .ok (some ts) :=
  splitLoop_mono h k

/-- C87: if the tests pass, the run ends without an error. -/
def C87_claim : Prop := ∀ (S : Type) (recv : S → Builder → List Byte → Out (S × Builder × Status))
  (feq : List Byte → List Byte → Bool) (script : List Byte) (tests : List (List Byte)) (s s' : S) (b' : Builder),
  SplitsTo script tests → (∀ f ∈ tests, ∃ v, Contents f v .endOfFrame) →
  Pass recv (Equal feq) tests s Builder.init s' b' → ∃ st, Runs recv feq s script (s', b', st) ∧ st.ok = true

/-- C87: a run that ends without an error leaves no response that was not asked for. -/
def C87_unread_claim : Prop := ∀ (S : Type) (recv : S → Builder → List Byte → Out (S × Builder × Status))
  (feq : List Byte → List Byte → Bool) (script : List Byte) (s s' : S) (b' : Builder) (st : Status),
  Runs recv feq s script (s', b', st) → st.ok = true → b'.data = []

/-- C87: a run that ends without an error is of all of the script. -/
def C87_whole_claim : Prop := ∀ (S : Type) (recv : S → Builder → List Byte → Out (S × Builder × Status))
  (feq : List Byte → List Byte → Bool) (script : List Byte) (s s' : S) (b' : Builder) (st : Status),
  Runs recv feq s script (s', b', st) → st.ok = true → ∃ ops, Contents script ops .endOfFrame

/-- C87: if the tests pass, and no expected response is to nothing at all, the run ends without an error. -/
theorem C87_complete_partial (script : List Byte) (tests : List (List Byte)) (s s' : S) (b' : Builder)
    (hs : SplitsTo script tests) (hr : ∀ f ∈ tests, ∃ v e, Contents f v e ∧ v ≠ [])
    (h : Pass recv (EqualSome feq) tests s Builder.init s' b') :
    ∃ st, Runs recv feq s script (s', b', st) ∧ st.ok = true := by
  obtain ⟨n, hs⟩ := hs
  obtain ⟨st, hok, n0, hn⟩ := pass_run h hr Status.OK (by decide)
  refine ⟨st, ⟨n + n0, ?_⟩, hok⟩
  unfold Script.commandTest
  rw [splitTests_mono hs, Op.obind]
  exact hn _ (by omega)

/-! ### scripts -/

/-- A replica that answers with the second op of what it gets. -/
def echo : Unit → Builder → List Byte → Out (Unit × Builder × Status) := fun s b f =>
  (next (init f)).bind fun r => (next r.1).bind fun r => (b.appendCursor r.1).bind fun b => .ok (s, b, .OK)

/-- A replica that does not answer. -/
def mute : Unit → Builder → List Byte → Out (Unit × Builder × Status) := fun s b _ => .ok (s, b, .OK)

/-- How a run of the script ends. -/
def ranSo (recv : Unit → Builder → List Byte → Out (Unit × Builder × Status)) (script : List Byte) : Option (Builder × Status) :=
  match Script.commandTest recv litEq 30 () script with
  | .ok (some (_, b, st)) => some (b, st)
  | _ => none

theorem ranSo_runs {recv : Unit → Builder → List Byte → Out (Unit × Builder × Status)} {script : List Byte} {b : Builder}
    {st : Status} (h : ranSo recv script = some (b, st)) : Runs recv litEq () script ((), b, st) := by
  unfold ranSo at h
  split at h
  · rename_i b' st' e
    injection h with h
    injection h with h1 h2
    subst h1 h2
    exact ⟨30, e⟩
  · cases h

def good87 : List Byte := lit "@~ 'a' !
@1+A :lww 1;
@~ 'b' ?
@1+A :lww 1;
@~ 'c' !
@3+A :1+A 2;
@~ 'd' ?
@3+A :1+A 2;
"
def wrong87 : List Byte := lit "@~ 'a' !
@1+A :lww 1;
@~ 'b' ?
@1+A :lww 1;
@~ 'c' !
@3+A :1+A 2;
@~ 'd' ?
@3+A :1+A 3;
"

-- Four tests pass; with another value expected they do not; neither do they with a replica that does not answer.
example : (ranSo echo good87).map Prod.snd = some Status.OK := by decide +kernel
example : (ranSo echo wrong87).map Prod.snd = some Status.BADVALUE := by decide +kernel
example : (ranSo mute good87).map Prod.snd = some Status.BADVALUE := by decide +kernel

def two87 : List Byte := lit "@~ 'a' !\n@1+A :lww 1;\n@~ 'b' ?\n@1+A :lww 1;\n"

-- The hypotheses of `C87_complete_partial` hold for it.
example : ∃ tests b, SplitsTo two87 tests ∧ (∀ f ∈ tests, ∃ v e, Contents f v e ∧ v ≠ []) ∧
    Pass echo (EqualSome litEq) tests () Builder.init () b ∧ tests.length = 2 := by
  have k : (match Script.splitTests 30 two87 with
    | .ok (some [x, y]) =>
      (match readOps 20 x, readOps 20 y, next (init x), next (init y), echo () Builder.init x with
       | .ok (some (_ :: _, _)), .ok (some ([v, w], _)), .ok (c, _), .ok (d, _), .ok (_, b1, st) =>
         decide (c.id = some COMMENT) && decide (c.term = 2) && decide (d.id = some COMMENT) && decide (d.term = 3) &&
         decide (v.id = COMMENT) && decide (w.id ≠ COMMENT) && st.ok &&
         (match b1.release with
          | .ok (re, _) =>
            (match readOps 20 re with
             | .ok (some ([w'], _)) => decide (w' = w)
             | _ => false)
          | _ => false)
       | _, _, _, _, _ => false)
    | _ => false) = true := by decide +kernel
  split at k
  · rename_i x y h1
    split at k
    · rename_i l0 l sx v w sy c s1 d s2 u b1 st r1 r2 n1 n2 he
      simp only [Bool.and_eq_true, decide_eq_true_eq] at k
      obtain ⟨⟨⟨⟨⟨⟨⟨k1, k2⟩, k3⟩, k4⟩, k5⟩, k6⟩, k7⟩, k⟩ := k
      split at k
      · rename_i re b2 hre
        split at k
        · rename_i w' sr r3
          have e := of_decide_eq_true k
          subst e
          refine ⟨[x, y], Builder.init, ⟨30, h1⟩, ?_, ?_, rfl⟩
          · intro f hf
            simp only [List.mem_cons, List.not_mem_nil, or_false] at hf
            rcases hf with rfl | rfl
            · exact ⟨_, _, contents_of 20 r1, by simp⟩
            · exact ⟨_, _, contents_of 20 r2, by simp⟩
          · refine .input (.inl ⟨c, s1, n1, k1, k2⟩) he k7 (.query ⟨d, s2, n2, k3, k4⟩ hre ?_ (.done _ _))
            refine ⟨[w'], [v, w'], _, _, contents_of 20 r3, by simp, contents_of 20 r2, ?_⟩
            have e1 : events [w'] = [w'] := by simp [events, k6]
            have e2 : events [v, w'] = [w'] := by simp [events, k5, k6]
            rw [e1, e2]
            exact .cons ⟨rfl, rfl, same2_refl (same_refl litEq_equiv) _⟩ .nil
        · cases k
      · cases k
    · cases k
  · cases k

def empty87 : List Byte := lit "@~ 'a' !
@1+A :lww 1;
@~ 'nothing' ?
"

/-- C87 is violated: a test which expects nothing fails when there is no response. `CompareFrames` wants the first steps of
the two cursors to have the same result, and the expected frame has its header. -/
theorem C87_violated : ¬ C87_claim := by
  intro hc
  have k : (match Script.splitTests 30 empty87, ranSo mute empty87 with
    | .ok (some [x, y]), some (_, st) =>
      (match readOps 20 x, readOps 20 y, next (init x), next (init y) with
       | .ok (some (_, .endOfFrame)), .ok (some ([v], .endOfFrame)), .ok (c, _), .ok (d, _) =>
         decide (c.id = some COMMENT) && decide (c.term = 2) && decide (d.id = some COMMENT) && decide (d.term = 3) &&
         decide (v.id = COMMENT) && !st.ok
       | _, _, _, _ => false)
    | _, _ => false) = true := by decide +kernel
  split at k
  · rename_i x y b st h1 h2
    split at k
    · rename_i l v c s1 d s2 r1 r2 n1 n2
      simp only [Bool.and_eq_true, decide_eq_true_eq, Bool.not_eq_true'] at k
      obtain ⟨⟨⟨⟨⟨k1, k2⟩, k3⟩, k4⟩, k5⟩, k6⟩ := k
      obtain ⟨re, b1, hre, e⟩ : ∃ re b1, Builder.init.release = .ok (re, b1) ∧ re = [] := by
        have : (match Builder.init.release with | .ok (re, _) => decide (re = []) | _ => false) = true := by decide +kernel
        split at this
        · rename_i re b1 h; exact ⟨re, b1, h, of_decide_eq_true this⟩
        · cases this
      subst e
      have c0 : readOps 20 [] = .ok (some ([], .endOfFrame)) := by decide +kernel
      have hp : Pass mute (Equal litEq) [x, y] () Builder.init () Builder.init := by
        refine .input (st := Status.OK) (.inl ⟨c, s1, n1, k1, k2⟩) rfl (by decide) (.query ⟨d, s2, n2, k3, k4⟩ hre ?_ (.done _ _))
        refine ⟨[], [v], _, _, contents_of 20 c0, contents_of 20 r2, ?_⟩
        have : events [v] = [] := by simp [events, k5]
        rw [this]
        exact .nil
      obtain ⟨st', hr, hok⟩ := hc Unit mute litEq empty87 [x, y] () () Builder.init ⟨30, h1⟩ (by
        intro f hf
        simp only [List.mem_cons, List.not_mem_nil, or_false] at hf
        rcases hf with rfl | rfl
        · exact ⟨_, contents_of 20 r1⟩
        · exact ⟨_, contents_of 20 r2⟩) hp
      have hr' := ranSo_runs h2
      obtain ⟨n, hr⟩ := hr
      obtain ⟨m, hr'⟩ := hr'
      have := run_unique hr hr'
      injection this with _ this
      injection this with _ this
      subst this
      rw [hok] at k6
      cases k6
    · cases k
  · cases k

def unread87 : List Byte := lit "@~ 'a' !
@1+A :lww 1;
"

/-- C87 is violated: responses after the last test with a question mark are dropped. -/
theorem C87_unread_violated : ¬ C87_unread_claim := by
  intro hc
  have k : (match ranSo echo unread87 with
    | some (b, st) => decide (st.ok = true) && decide (b.data ≠ [])
    | _ => false) = true := by decide +kernel
  split at k
  · rename_i b st h
    simp only [Bool.and_eq_true, decide_eq_true_eq] at k
    exact k.2 (hc Unit echo litEq unread87 () () b st (ranSo_runs h) k.1)
  · cases k

/-- C87 is violated: what is after a full stop, or after an error, is not run, and the run ends without an error. -/
theorem C87_whole_violated : ¬ C87_whole_claim := by
  intro hc
  have k : (match ranSo echo script1, readOps 20 script1 with
    | some (_, st), .ok (some (_, e)) => decide (st.ok = true) && decide (e ≠ .endOfFrame)
    | _, _ => false) = true := by decide +kernel
  split at k
  · rename_i b st l e h1 h2
    simp only [Bool.and_eq_true, decide_eq_true_eq] at k
    obtain ⟨ops, h⟩ := hc Unit echo litEq script1 () () b st (ranSo_runs h1) k.1
    exact k.2 (Chains.contents_unique (contents_of 20 h2) h).2
  · cases k

end Ron.Props
