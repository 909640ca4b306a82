import Verif.Lemmas.Replica
import Verif.Lemmas.Store
import Verif.Spec.History
/-!
Transactions keep the history causally closed.
-/
namespace Ron
open Spec

namespace Commit

/-- A record of the key holds the op. -/
def HeldAt (k : Key) (s : MemStore) (b : Body) : Prop := ∃ f, (k, f) ∈ s ∧ ∃ o ∈ f, o.body = b

theorem HeldAt.held {k : Key} {s : MemStore} {b : Body} (h : HeldAt k s b) : Held s b := by
  obtain ⟨f, hf, h⟩ := h
  exact ⟨_, hf, h⟩

theorem HeldAt.logged {k : Key} {s : MemStore} {b : Body} (h : HeldAt k s b) (hk : k.form = Form.LOG) :
    Logged s b := by
  obtain ⟨f, hf, h⟩ := h
  exact ⟨_, hf, hk, h⟩

theorem HeldAt.left {k : Key} {s t : MemStore} {b : Body} (h : HeldAt k s b) : HeldAt k (s ++ t) b := by
  obtain ⟨f, hf, h⟩ := h
  exact ⟨f, List.mem_append_left _ hf, h⟩

theorem HeldAt.right {k : Key} {s t : MemStore} {b : Body} (h : HeldAt k t b) : HeldAt k (s ++ t) b := by
  obtain ⟨f, hf, h⟩ := h
  exact ⟨f, List.mem_append_right _ hf, h⟩

theorem mem_withOps {fs : List Frame} {f : Frame} : f ∈ withOps fs ↔ f ∈ fs ∧ f ≠ [] := by
  unfold withOps
  rw [List.mem_filter]
  simp

theorem mem_recs {s : MemStore} {k : Key} {f : Frame} : f ∈ MemStore.recs k s ↔ (k, f) ∈ s := by
  unfold MemStore.recs Spec.stored
  rw [List.mem_map]
  constructor
  · rintro ⟨⟨j, g⟩, h, rfl⟩
    rw [List.mem_filter] at h
    obtain ⟨h, e⟩ := h
    have : j = k := by simpa using e
    subst this
    exact h
  · intro h
    exact ⟨(k, f), List.mem_filter.2 ⟨h, by simp⟩, rfl⟩

theorem mem_insert {k : Key} {f : Frame} {r : Key × Frame} : ∀ {s : MemStore},
    r ∈ MemStore.insert k f s ↔ r = (k, f) ∨ r ∈ s := by
  intro s
  induction s with
  | nil => simp [MemStore.insert]
  | cons x s ih =>
    simp only [MemStore.insert]
    split
    · simp
    · simp only [List.mem_cons, ih]
      constructor
      · rintro (h | h | h)
        · exact Or.inr (Or.inl h)
        · exact Or.inl h
        · exact Or.inr (Or.inr h)
      · rintro (h | h | h)
        · exact Or.inr (Or.inl h)
        · exact Or.inl h
        · exact Or.inr (Or.inr h)

theorem mem_writeAll {r : Key × Frame} : ∀ {rs : List (Key × Frame)} {s : MemStore},
    r ∈ Engine.writeAll s rs ↔ r ∈ s ∨ r ∈ rs := by
  intro rs
  induction rs with
  | nil => intro s; simp [Engine.writeAll]
  | cons x rs ih =>
    intro s
    have : Engine.writeAll s (x :: rs) = Engine.writeAll (MemStore.insert x.1 x.2 s) rs := rfl
    rw [this, ih, mem_insert, List.mem_cons]
    constructor
    · rintro ((h | h) | h)
      · exact Or.inr (Or.inl h)
      · exact Or.inl h
      · exact Or.inr (Or.inr h)
    · rintro (h | h | h)
      · exact Or.inl (Or.inr h)
      · exact Or.inl (Or.inl h)
      · exact Or.inr h

theorem max_log : Form.LOG ≠ Form.MAX := by decide

/-- A read of a sorted store: still sorted, same logs, no new ops but those made up; the frame read
holds ops of the store, and those made up. -/
theorem memRead {mg : Reducer} {N : Body → Prop} (hm : Makes (formUuid Form.META) N mg) {s s' : MemStore} (hs : MemStore.Sorted s) {k : Key}
    {st : Status} {f : Frame} (h : s.read mg k [] = some (st, f, s')) :
    MemStore.Sorted s' ∧ (∀ b, Logged s' b ↔ Logged s b) ∧ (∀ b, Held s' b → Held s b ∨ N b) ∧
    (∀ o ∈ f, HeldAt k s o.body ∨ (k.form = Form.MAX ∧ N o.body)) := by
  have held : ∀ {k : Key} {f : Frame} {o : AOp}, f ∈ MemStore.recs k s → o ∈ f → HeldAt k s o.body :=
    fun h ho => ⟨_, mem_recs.1 h, _, ho, rfl⟩
  rcases MemStore.read_eq mg hs k [] with ⟨e, hr⟩ | ⟨g, e, hr⟩ | ⟨-, ⟨-, hr⟩ | ⟨st', out, s'', em, hr, hs'', er, ho⟩⟩
  · rw [hr] at h; cases h
    exact ⟨hs, fun _ => Iff.rfl, fun _ h => Or.inl h, fun o ho => by cases ho⟩
  · rw [hr] at h; cases h
    exact ⟨hs, fun _ => Iff.rfl, fun _ h => Or.inl h,
      fun o ho => Or.inl (held (by rw [e]; exact List.mem_singleton.2 rfl) ho)⟩
  · rw [hr] at h; cases h
  · rw [hr] at h
    cases h
    -- what is in the output
    have hout : ∀ o ∈ (if st.ok = true then out else []),
        HeldAt k s o.body ∨ (k.form = Form.MAX ∧ N o.body) := by
      intro o ho
      cases hok : st.ok with
      | false => rw [hok] at ho; cases ho
      | true =>
        rw [hok, if_pos rfl] at ho
        rcases hm.noNew em hok o ho with ⟨i, hi, x, hx, e⟩ | h
        · rw [← e]
          exact Or.inl (held (mem_withOps.1 hi).1 hx)
        · exact Or.inr h
    have hheld : ∀ b, Held s' b → Held s b ∨ N b := by
      rintro b ⟨r, hr, o, hor, rfl⟩
      by_cases hk : r.1 = k
      · have := mem_recs.2 (show (k, r.2) ∈ s' by rw [← hk]; exact hr)
        rw [er] at this
        exact (hout o (by rw [← List.mem_singleton.1 this]; exact hor)).imp HeldAt.held And.right
      · have := mem_recs.2 (show (r.1, r.2) ∈ s' from hr)
        rw [ho _ hk] at this
        exact Or.inl (held this hor).held
    refine ⟨hs'', fun b => ?_, hheld, hout⟩
    constructor
    · rintro ⟨r, hr, hf, o, hor, rfl⟩
      by_cases hk : r.1 = k
      · have := mem_recs.2 (show (k, r.2) ∈ s' by rw [← hk]; exact hr)
        rw [er] at this
        have hor' : o ∈ (if st.ok = true then out else []) := by
          rw [← List.mem_singleton.1 this]; exact hor
        cases hok : st.ok with
        | false => rw [hok] at hor'; cases hor'
        | true =>
          rw [hok, if_pos rfl] at hor'
          rcases hm.noNew em hok o hor' with ⟨i, hi, x, hx, e⟩ | ⟨h, -⟩
          · exact ⟨_, mem_recs.1 (mem_withOps.1 hi).1, by rw [← hk]; exact hf, x, hx, e⟩
          · rw [← hk, hf] at h
            exact absurd h max_log
      · have := mem_recs.2 (show (r.1, r.2) ∈ s' from hr)
        rw [ho _ hk] at this
        exact ⟨_, mem_recs.1 this, hf, o, hor, rfl⟩
    · rintro ⟨r, hr, hf, o, hor, rfl⟩
      by_cases hk : r.1 = k
      · rw [← hk, hf] at em
        obtain ⟨hok, hall⟩ := hm.log em
        have hri : r.2 ∈ withOps (MemStore.recs k s) :=
          mem_withOps.2 ⟨mem_recs.2 (by rw [← hk]; exact hr), by intro e; rw [e] at hor; cases hor⟩
        rw [← hk] at hri
        obtain ⟨x, hx, e⟩ := hall _ hri o hor
        rw [hok, if_pos rfl] at er
        exact ⟨(k, out), mem_recs.1 (by rw [er]; exact List.mem_singleton.2 rfl), by rw [← hk]; exact hf, x, hx, e⟩
      · have := mem_recs.2 (show (r.1, r.2) ∈ s from hr)
        rw [← ho _ hk] at this
        exact ⟨_, mem_recs.1 this, hf, o, hor, rfl⟩

theorem engineRead {mg : Reducer} {N : Body → Prop} (hm : Makes (formUuid Form.META) N mg) {s : MemStore} {k : Key} {st : Status} {f : Frame}
    (h : Engine.read mg s k = some (st, f)) : ∀ o ∈ f, HeldAt k s o.body ∨ (k.form = Form.MAX ∧ N o.body) := by
  unfold Engine.read at h
  split at h
  · cases h; intro o ho; cases ho
  · split at h
    · cases h; intro o ho; cases ho
    · obtain ⟨r, hr, h⟩ := map_some h
      split at h
      · rename_i hok
        cases h
        intro o ho
        rcases hm.noNew hr hok o ho with ⟨i, hi, x, hx, e⟩ | h
        · have : i ∈ MemStore.recs k s := (mem_withOps.1 hi).1
          exact Or.inl ⟨_, mem_recs.1 this, x, hx, e⟩
        · exact Or.inr h
      · cases h; intro o ho; cases ho

theorem guess {mg : Reducer} {N : Body → Prop} (hm : Makes (formUuid Form.META) N mg) {a b out : Frame} {st : Status} {P : Body → Prop}
    (h : Joined.mergeGuess mg [a, b] = some (st, out)) (hok : st.ok = true)
    (ha : ∀ o ∈ a, P o.body) (hb : ∀ o ∈ b, P o.body) :
    ∀ o ∈ out, P o.body ∨ (N o.body ∧ (a = [] ∨ b = [])) := by
  unfold Joined.mergeGuess at h
  split at h
  · cases h; exact absurd hok (by decide)
  · intro o ho
    have old : (∃ i ∈ withOps [a, b], ∃ x ∈ i, x.body = o.body) → P o.body := by
      rintro ⟨i, hi, x, hx, e⟩
      rw [← e]
      have := (mem_withOps.1 hi).1
      rcases List.mem_cons.1 this with rfl | this
      · exact ha x hx
      · rw [List.mem_singleton.1 this] at hx
        exact hb x hx
    by_cases he : a = [] ∨ b = []
    · rcases hm.noNew h hok o ho with h | ⟨-, h⟩
      · exact Or.inl (old h)
      · exact Or.inr ⟨h, he⟩
    · refine Or.inl (old (hm.two h hok ?_ (fun i hi => (mem_withOps.1 hi).2) o ho))
      cases a with
      | nil => exact absurd (Or.inl rfl) he
      | cons x xs =>
        cases b with
        | nil => exact absurd (Or.inr rfl) he
        | cons y ys => exact Nat.le_refl 2

/-- Both layers. -/
def all (c : Commit) : MemStore := c.main ++ c.mem

theorem held_append {a b : MemStore} {x : Body} : Held (a ++ b) x ↔ Held a x ∨ Held b x := by
  unfold Held
  constructor
  · rintro ⟨r, hr, h⟩
    rcases List.mem_append.1 hr with hr | hr
    · exact Or.inl ⟨r, hr, h⟩
    · exact Or.inr ⟨r, hr, h⟩
  · rintro (⟨r, hr, h⟩ | ⟨r, hr, h⟩)
    · exact ⟨r, List.mem_append_left _ hr, h⟩
    · exact ⟨r, List.mem_append_right _ hr, h⟩

theorem logged_append {a b : MemStore} {x : Body} : Logged (a ++ b) x ↔ Logged a x ∨ Logged b x := by
  unfold Logged
  constructor
  · rintro ⟨r, hr, h⟩
    rcases List.mem_append.1 hr with hr | hr
    · exact Or.inl ⟨r, hr, h⟩
    · exact Or.inr ⟨r, hr, h⟩
  · rintro (⟨r, hr, h⟩ | ⟨r, hr, h⟩)
    · exact ⟨r, List.mem_append_left _ hr, h⟩
    · exact ⟨r, List.mem_append_right _ hr, h⟩

/-- The state of a transaction that is going well. -/
structure Inv (c : Commit) : Prop where
  sorted : MemStore.Sorted c.mem
  closed : Closed (formUuid Form.META) c.all

/-- A step that does not change the history. -/
structure Quiet (N : Body → Prop) (c c' : Commit) : Prop where
  logged : ∀ b, Logged c'.all b ↔ Logged c.all b
  held : ∀ b, Held c'.all b → Held c.all b ∨ N b
  sorted : MemStore.Sorted c.mem → MemStore.Sorted c'.mem

theorem Quiet.rfl' {N : Body → Prop} (c : Commit) : Quiet N c c := ⟨fun _ => Iff.rfl, fun _ h => Or.inl h, fun h => h⟩
theorem Quiet.trans {N : Body → Prop} {a b c : Commit} (h : Quiet N a b) (g : Quiet N b c) : Quiet N a c :=
  ⟨fun x => (g.logged x).trans (h.logged x), fun x hx => (g.held x hx).elim (h.held x) Or.inr,
   fun x => g.sorted (h.sorted x)⟩
theorem Quiet.of {N : Body → Prop} {c c' : Commit} (h1 : c'.main = c.main) (h2 : c'.mem = c.mem) : Quiet N c c' := by
  have e : c'.all = c.all := by unfold all; rw [h1, h2]
  exact ⟨fun b => by rw [e], fun b h => by rw [e] at h; exact Or.inl h, fun h => by rw [h2]; exact h⟩

theorem Caused.mono {s t : MemStore} {b : Body} (h : Caused s b) (hst : ∀ x, Logged s x → Logged t x) :
    Caused t b := by
  rcases h with h | ⟨h1, h2, x, hx, e⟩
  · exact Or.inl h
  · exact Or.inr ⟨h1, h2, x, hst x hx, e⟩

theorem Inv.quiet {N : Body → Prop} (hN : ∀ b, N b → b.2.1 ≠ formUuid Form.META) {c c' : Commit} (h : Inv c)
    (q : Quiet N c c') : Inv c' := by
  refine ⟨q.sorted h.sorted, fun b hb => ?_, fun b hb e => ?_⟩
  · exact Caused.mono (h.closed.causes b ((q.logged b).1 hb)) fun x hx => (q.logged x).2 hx
  · obtain ⟨x, hx, e⟩ := h.closed.index b ((q.held b hb).resolve_right fun n => hN b n e) e
    exact ⟨x, (q.logged x).2 hx, e⟩

theorem read_quiet {env : Env} {N : Body → Prop} (hm : Makes (formUuid Form.META) N env.mg) {c c' : Commit} (hs : MemStore.Sorted c.mem) {k : Key}
    {f : Frame} {st : Status} (h : c.read env k [] = some (st, f, c')) :
    Quiet N c c' ∧ ∀ o ∈ f, HeldAt k c.all o.body ∨ (k.form = Form.MAX ∧ N o.body) := by
  unfold read at h
  obtain ⟨a, ha, h⟩ := bind_some h
  have h1 := engineRead (st := a.1) (f := a.2) hm ha
  split at h
  · cases h; exact ⟨Quiet.rfl' _, fun o ho => by cases ho⟩
  · obtain ⟨b, hb, h⟩ := bind_some h
    obtain ⟨g1, g2, g3, g4⟩ := memRead (st := b.1) (f := b.2.1) (s' := b.2.2) hm hs hb
    have q : Quiet N c { c with mem := b.2.2 } := by
      refine ⟨fun x => ?_, fun x hx => ?_, fun _ => g1⟩
      · unfold all
        rw [logged_append, logged_append, g2]
      · unfold all at hx ⊢
        rw [held_append] at hx ⊢
        rcases hx with hx | hx
        · exact Or.inl (Or.inl hx)
        · exact (g3 x hx).imp Or.inr id
    have ha' : ∀ o ∈ a.2, HeldAt k c.all o.body ∨ (k.form = Form.MAX ∧ N o.body) := fun o ho => by
      unfold all; exact (h1 o ho).imp HeldAt.left id
    have hb' : ∀ o ∈ b.2.1, HeldAt k c.all o.body ∨ (k.form = Form.MAX ∧ N o.body) := fun o ho => by
      unfold all; exact (g4 o ho).imp HeldAt.right id
    simp only at h
    split at h
    · cases h; exact ⟨q, fun o ho => by cases ho⟩
    · split at h
      · cases h; exact ⟨q, hb'⟩
      · rename_i e1
        split at h
        · cases h; exact ⟨q, ha'⟩
        · rename_i e2
          obtain ⟨r, hr, h⟩ := map_some h
          split at h
          · rename_i hok
            cases h
            exact ⟨q, fun o ho => (guess (st := r.1) (out := r.2)
              (P := fun x => HeldAt k c.all x ∨ (k.form = Form.MAX ∧ N x)) hm hr hok ha' hb' o ho).resolve_right
                fun n => n.2.elim e1 e2⟩
          · cases h; exact ⟨q, fun o ho => by cases ho⟩

theorem mem_slice {s : MemStore} {i j : Nat} {f : Frame} (h : f ∈ ((s.take j).drop i).map Prod.snd) :
    ∃ k, (k, f) ∈ s := by
  obtain ⟨r, hr, rfl⟩ := List.mem_map.1 h
  exact ⟨r.1, List.mem_of_mem_take (List.mem_of_mem_drop hr)⟩

theorem value_held {mg : Reducer} {N : Body → Prop} (hm : Makes (formUuid Form.META) N mg) {s : MemStore} {it it' : MemStore.Iter} {f : Frame}
    (hi : it.merged = []) (h : it.value mg s = some (f, it')) : ∀ o ∈ f, Held s o.body ∨ N o.body := by
  unfold MemStore.Iter.value at h
  split at h
  · cases h; intro o ho; cases ho
  · split at h
    · obtain ⟨r, hr, h⟩ := map_some h
      cases h
      intro o ho
      exact Or.inl ⟨r, List.mem_of_getElem? hr, o, ho, rfl⟩
    · obtain ⟨k, hk, h⟩ := bind_some h
      obtain ⟨r, hr, h⟩ := map_some h
      cases h
      intro o ho
      cases hok : r.1.ok with
      | false => rw [hok, hi] at ho; cases ho
      | true =>
        rw [hok, if_pos rfl] at ho
        rcases hm.noNew (st := r.1) (out := r.2) hr hok o ho with ⟨i, hi, x, hx, e⟩ | ⟨-, h⟩
        · obtain ⟨k', hk'⟩ := mem_slice (mem_withOps.1 hi).1
          exact Or.inl ⟨_, hk', x, hx, e⟩
        · exact Or.inr h

theorem scroll_merged (s : MemStore) (it : MemStore.Iter) : (MemStore.Iter.scroll s it).merged = it.merged := by
  unfold MemStore.Iter.scroll
  split <;> rfl

theorem seekTo_merged (s : MemStore) (it : MemStore.Iter) (k : Key) (p : Bool) :
    (it.seekTo s k p).merged = it.merged := by
  unfold MemStore.Iter.seekTo
  simp only
  split
  · split
    · rw [scroll_merged]
    · rfl
  · split
    · split
      · rw [scroll_merged]
      · rfl
    · rw [scroll_merged]

theorem engineSeek {mg : Reducer} {N : Body → Prop} (hm : Makes (formUuid Form.META) N mg) {s : MemStore} {k j : Key} {st : Status} {f : Frame}
    (h : Engine.seekPrev mg s k = some (st, j, f)) : ∀ o ∈ f, Held s o.body ∨ N o.body := by
  unfold Engine.seekPrev at h
  split at h
  · cases h; intro o ho; cases ho
  · obtain ⟨v, hv, h⟩ := map_some h
    cases h
    intro o ho
    exact (engineRead (st := v.1) (f := v.2) hm hv o ho).imp HeldAt.held And.right

theorem seekPrev_held {env : Env} {N : Body → Prop} (hm : Makes (formUuid Form.META) N env.mg) {c : Commit} {k : Key} {st : Status} {f : Frame}
    (h : c.seekPrev env k = some (st, f)) : ∀ o ∈ f, Held c.all o.body ∨ N o.body := by
  unfold seekPrev at h
  obtain ⟨a, ha, h⟩ := bind_some h
  have h1 := engineSeek (st := a.1) (j := a.2.1) (f := a.2.2) hm ha
  have h1 : ∀ o ∈ a.2.2, Held c.all o.body ∨ N o.body := fun o ho =>
    (h1 o ho).imp (fun h => held_append.2 (Or.inl h)) id
  have h2 : ∀ v, (MemStore.Iter.fresh.seekTo c.mem k true).value env.mg c.mem = some v →
      ∀ o ∈ v.1, Held c.all o.body ∨ N o.body := by
    intro v hv o ho
    exact (value_held (it' := v.2) hm (seekTo_merged _ _ _ _) hv o ho).imp (fun h => held_append.2 (Or.inr h)) id
  split at h
  · cases h; intro o ho; cases ho
  · simp only at h
    obtain ⟨kb, hkb, h⟩ := bind_some h
    revert h
    generalize (if a.2.1 = Key.END then kb else if kb = Key.END then a.2.1
      else Joined.JIter.maxKey a.2.1 kb) = at_
    intro h
    split at h
    · obtain ⟨v, hv, h⟩ := map_some h
      cases h
      exact h2 v hv
    · split at h
      · cases h; exact h1
      · obtain ⟨v, hv, h⟩ := bind_some h
        obtain ⟨r, hr, h⟩ := bind_some h
        split at h
        · rename_i hok
          cases h
          exact fun o ho => (guess (st := r.1) (out := r.2) (P := fun x => Held c.all x ∨ N x) hm hr hok h1
            (h2 v hv) o ho).elim id fun n => Or.inr n.1
        · cases h

theorem ok_of_not_not {s : Status} (h : ¬ ¬ s.ok = true) : s.ok = true := Decidable.not_not.1 h

/-- A found chain head is a logged event. -/
theorem findChainHeadMeta_logged {env : Env} {N : Body → Prop} (hm : Makes (formUuid Form.META) N env.mg) {c : Commit} (hc : Inv c) {id : Uuid}
    {st : Status} {m : OpMeta} (h : c.findChainHeadMeta env id = some (st, m)) (hok : st.ok = true) :
    LoggedId c.all m.id := by
  unfold findChainHeadMeta at h
  obtain ⟨r, hr, h⟩ := map_some h
  have hh := seekPrev_held (st := r.1) (f := r.2) hm hr
  split at h
  · cases h; exact absurd hok ‹_›
  · split at h
    · cases h; exact absurd hok (by decide)
    · rename_i o os ho
      rw [ho] at hh
      split at h
      · cases h; exact absurd hok (by decide)
      · rename_i hcond
        have href : o.ref = formUuid Form.META := Decidable.not_not.1 fun e => hcond (Or.inr e)
        unfold OpMeta.load at h
        rw [if_neg (by simpa using href)] at h
        split at h
        · cases h
          exact hc.closed.index o.body ((hh o List.mem_cons_self).resolve_right fun n => hm.plain _ n href) href
        · cases h; exact absurd hok (by decide)

/-- What is found along a chain. -/
theorem walkChain_id {hs : Hashing} {id : Uuid} : ∀ (ops : List AOp) {m m' : OpMeta} {st : Status},
    walkChain hs id m ops = some (st, m') → st.ok = true →
    (m'.id = m.id ∨ ∃ o ∈ ops, o.id = m'.id) ∧ (m'.id = id ∨ id.value = NEVER) := by
  intro ops
  induction ops with
  | nil =>
    intro m m' st h hok
    simp only [walkChain] at h
    split at h
    · cases h; exact ⟨Or.inl rfl, Or.inr ‹_›⟩
    · cases h; exact absurd hok (by decide)
  | cons o os ih =>
    intro m m' st h hok
    simp only [walkChain] at h
    split at h
    · obtain ⟨h1, h2⟩ := ih h hok
      refine ⟨?_, h2⟩
      rcases h1 with h1 | ⟨x, hx, e⟩
      · exact Or.inl h1
      · exact Or.inr ⟨x, List.mem_cons_of_mem _ hx, e⟩
    · split at h
      · cases h; exact absurd hok (by decide)
      · obtain ⟨n, hn, h⟩ := bind_some h
        have hid : n.id = o.id := by
          unfold OpMeta.next at hn
          split at hn
          · cases hn; rfl
          · cases hn
        split at h
        · cases h
          exact ⟨Or.inr ⟨o, List.mem_cons_self, hid.symm⟩, Or.inl ‹_›⟩
        · obtain ⟨h1, h2⟩ := ih h hok
          refine ⟨Or.inr ?_, h2⟩
          rcases h1 with h1 | ⟨x, hx, e⟩
          · exact ⟨o, List.mem_cons_self, by rw [h1, hid]⟩
          · exact ⟨x, List.mem_cons_of_mem _ hx, e⟩

theorem form_mk (id : Uuid) (f : Form) : (Key.mk' id f).form = f := by
  apply UInt8.toNat_inj.1
  rw [Key.form_eq, Key.mk_hi]
  omega

theorem form_log (id : Uuid) : (Key.mk' id Form.LOG).form = Form.LOG := form_mk id _
theorem form_meta (id : Uuid) : (Key.mk' id Form.META).form = Form.META := form_mk id _

theorem findOpMeta_quiet {env : Env} {N : Body → Prop} (hm : Makes (formUuid Form.META) N env.mg) {c c' : Commit} (hc : Inv c) {id : Uuid}
    {st : Status} {m : OpMeta} (h : c.findOpMeta env id = some (st, m, c')) :
    Quiet N c c' ∧ (st.ok = true → LoggedId c.all m.id ∧ (m.id = id ∨ id.value = NEVER)) := by
  unfold findOpMeta at h
  obtain ⟨a, ha, h⟩ := bind_some h
  split at h
  · cases h; exact ⟨Quiet.rfl' _, fun hok => absurd hok ‹_›⟩
  · rename_i hok1
    have h1 := findChainHeadMeta_logged (st := a.1) (m := a.2) hm hc ha (ok_of_not_not hok1)
    split at h
    · cases h; exact ⟨Quiet.rfl' _, fun _ => ⟨h1, Or.inl ‹_›⟩⟩
    · obtain ⟨l, hl, h⟩ := bind_some h
      obtain ⟨q, hlog⟩ := read_quiet (st := l.1) (f := l.2.1) (c' := l.2.2) hm hc.sorted hl
      split at h
      · cases h; exact ⟨q, fun hok => absurd hok ‹_›⟩
      · split at h
        · cases h; exact ⟨q, fun hok => absurd hok (by decide)⟩
        · rename_i o os hdrop
          obtain ⟨r, hr, h⟩ := map_some h
          cases h
          refine ⟨q, fun hok => ?_⟩
          obtain ⟨h2, h3⟩ := walkChain_id os (st := r.1) (m' := r.2) hr hok
          refine ⟨?_, h3⟩
          rcases h2 with h2 | ⟨x, hx, e⟩
          · rw [h2]; exact h1
          · have hmem : x ∈ l.2.1 := by
              have : x ∈ l.2.1.dropWhile fun o => decide (o.id ≠ a.2.id) := by
                rw [hdrop]; exact List.mem_cons_of_mem _ hx
              exact (List.dropWhile_sublist _).subset this
            have hx := (hlog x hmem).resolve_right fun n => by
              rw [form_log] at n; exact max_log n.1
            exact ⟨x.body, hx.logged (form_log _), e⟩

theorem yarnTip_quiet {env : Env} {N : Body → Prop} (hm : Makes (formUuid Form.META) N env.mg) {c c' : Commit} (hc : Inv c) {o : AOp}
    {st : Status} {m : OpMeta} (h : c.yarnTip env o = some (st, m, c')) :
    Quiet N c c' ∧ (st.ok = true → o.ref ≠ formUuid Form.YARN → LoggedId c.all m.id) := by
  unfold yarnTip at h
  obtain ⟨t, ht, h⟩ := bind_some h
  obtain ⟨q, hl⟩ := findOpMeta_quiet (st := t.1) (m := t.2.1) (c' := t.2.2) hm hc ht
  split at h
  · rename_i hy
    have : c' = t.2.2 := by
      split at h
      · obtain ⟨r, hr, h⟩ := map_some h
        cases h; rfl
      · split at h
        · cases h; rfl
        · split at h <;> (cases h; rfl)
    rw [this]
    exact ⟨q, fun _ hn => absurd hy hn⟩
  · split at h
    · cases h; exact ⟨q, fun hok _ => (hl hok).1⟩
    · rename_i hok
      split at h <;> (cases h; exact ⟨q, fun _ _ => (hl (ok_of_not_not hok)).1⟩)

theorem next_id {hs : Hashing} {m m' r : OpMeta} {o : AOp} (h : m.next hs o r = some m') : m'.id = o.id := by
  unfold OpMeta.next at h
  split at h
  · cases h; rfl
  · cases h

theorem root_id {hs : Hashing} {m m' : OpMeta} {o : AOp} (h : OpMeta.root hs o m = some m') : m'.id = o.id := by
  unfold OpMeta.root at h
  split at h
  · cases h; rfl
  · cases h

theorem version_ne : Uuid.vNAME ≠ Uuid.vTIME := by decide

theorem headMeta_quiet {env : Env} {N : Body → Prop} (hm : Makes (formUuid Form.META) N env.mg) {c c' : Commit} (hc : Inv c) {tip m : OpMeta} {o : AOp}
    {st : Status} (h : c.headMeta env tip o = some (st, m, c')) :
    Quiet N c c' ∧ (st.ok = true → m.id = o.id ∧ ((o.ref = tip.id → LoggedId c.all tip.id) →
      o.ref.version = Uuid.vTIME → o.ref.value ≠ NEVER → LoggedId c.all o.ref)) := by
  unfold headMeta at h
  split at h
  · rename_i hr
    obtain ⟨r, hr', h⟩ := map_some h
    cases h
    exact ⟨Quiet.rfl' _, fun _ => ⟨next_id hr', fun hl _ _ => by rw [hr]; exact hl hr⟩⟩
  · split at h
    · rename_i hv
      split at h
      · cases h; exact ⟨Quiet.rfl' _, fun hok => absurd hok (by decide)⟩
      · obtain ⟨r, hr', h⟩ := map_some h
        cases h
        exact ⟨Quiet.rfl' _, fun _ => ⟨root_id hr', fun _ ht => absurd (hv.symm.trans ht) version_ne⟩⟩
    · obtain ⟨r, hr, h⟩ := bind_some h
      obtain ⟨q, hl⟩ := findOpMeta_quiet (st := r.1) (m := r.2.1) (c' := r.2.2) hm hc hr
      split at h
      · cases h; exact ⟨q, fun hok => absurd hok ‹_›⟩
      · rename_i hok
        obtain ⟨n, hn, h⟩ := map_some h
        cases h
        refine ⟨q, fun _ => ⟨next_id hn, fun _ _ hne => ?_⟩⟩
        obtain ⟨h1, h2⟩ := hl (ok_of_not_not hok)
        rcases h2 with h2 | h2
        · rw [← h2]; exact h1
        · exact absurd h2 hne

theorem append_bodies (b : ABuilder) (x : AOp) : (b.append x).bodies = b.bodies ++ [x.body] := by
  cases hb : b.pending <;>
    simp [ABuilder.append, ABuilder.writeTerm, ABuilder.bodies, hb, AOp.body]

theorem release_bodies (b : ABuilder) : b.release.map AOp.body = b.bodies := by
  cases hb : b.pending <;>
    simp [ABuilder.release, ABuilder.endChunk, ABuilder.writeTerm, ABuilder.bodies, hb, AOp.body]

/-- What a sane event refers to. -/
theorem sane_ref {o : AOp} (h : (checkEventSanity o).ok = true) :
    (o.ref.version = Uuid.vNAME ∧ uuid2form o.ref ≠ Form.ZERO) ∨
    (o.ref.version = Uuid.vTIME ∧ Uuid.lt o.ref o.id = true) := by
  unfold checkEventSanity at h
  split at h
  · exact absurd h (by decide)
  · split at h
    · split at h
      · exact absurd h (by decide)
      · rename_i h1 h2
        refine Or.inr ⟨h1, ?_⟩
        unfold Uuid.ge at h2
        simpa using h2
    · split at h
      · exact absurd h (by decide)
      · rename_i h1
        split at h
        · exact absurd h (by decide)
        · exact Or.inl ⟨Decidable.not_not.1 h1, ‹_›⟩

/-- The ops collected so far are caused by the history or by each other. -/
structure Chained (s : MemStore) (m : OpMeta) (to : ABuilder) : Prop where
  last : ∃ b ∈ to.bodies, b.1 = m.id
  causes : ∀ b ∈ to.bodies, (b.2.1.version = Uuid.vNAME ∧ uuid2form b.2.1 ≠ Form.ZERO) ∨
    (b.2.1.version = Uuid.vTIME ∧ Uuid.lt b.2.1 b.1 = true ∧ (LoggedId s b.2.1 ∨ ∃ x ∈ to.bodies, x.1 = b.2.1))

theorem Chained.add {s : MemStore} {m m' : OpMeta} {to : ABuilder} {o : AOp} (h : Chained s m to)
    (hr : o.ref = m.id) (hs : (checkEventSanity o).ok = true) (hm : m'.id = o.id) :
    Chained s m' (to.append o) := by
  constructor
  · exact ⟨o.body, by rw [append_bodies]; simp, hm.symm⟩
  · intro b hb
    rw [append_bodies] at hb
    rcases List.mem_append.1 hb with hb | hb
    · rcases h.causes b hb with h1 | ⟨h1, h2, h3⟩
      · exact Or.inl h1
      · refine Or.inr ⟨h1, h2, ?_⟩
        rcases h3 with h3 | ⟨x, hx, e⟩
        · exact Or.inl h3
        · exact Or.inr ⟨x, by rw [append_bodies]; exact List.mem_append_left _ hx, e⟩
    · rw [List.mem_singleton.1 hb]
      rcases sane_ref hs with h1 | ⟨h1, h2⟩
      · exact Or.inl h1
      · obtain ⟨x, hx, e⟩ := h.last
        exact Or.inr ⟨h1, h2, Or.inr ⟨x, by rw [append_bodies]; exact List.mem_append_left _ hx, by
          rw [e]; exact hr.symm⟩⟩

theorem chainletLoop_chained {hs : Hashing} {fin : Status} {σ : MemStore} : ∀ (ops : List AOp)
    {s s' : Chainlet} {st : Status} {rest : List AOp},
    chainletLoop hs fin s ops = some (st, s', rest) → Chained σ s.m s.to → Chained σ s'.m s'.to ∧
      ∀ b ∈ s.to.bodies, b ∈ s'.to.bodies := by
  intro ops
  induction ops with
  | nil =>
    intro s s' st rest h hc
    simp only [chainletLoop] at h
    cases h; exact ⟨hc, fun b h => h⟩
  | cons o os ih =>
    intro s s' st rest h hc
    simp only [chainletLoop] at h
    split at h
    · exact ih h hc
    · split at h
      · rename_i hnext
        have href : o.ref = s.m.id := by
          unfold OpMeta.isNext at hnext
          simp only [Bool.and_eq_true, decide_eq_true_eq] at hnext
          exact hnext.2
        split at h
        · cases h; exact ⟨hc, fun b h => h⟩
        · rename_i hsane
          obtain ⟨m, hm, h⟩ := bind_some h
          have hc' : Chained σ m (s.to.append o) := hc.add href (ok_of_not_not hsane) (next_id hm)
          have hsub : ∀ b ∈ s.to.bodies, b ∈ (s.to.append o).bodies := fun b hb => by
            rw [append_bodies]; exact List.mem_append_left _ hb
          have fin : ∀ {x : Chainlet}, x.m = m → x.to = s.to.append o →
              chainletLoop hs fin x os = some (st, s', rest) →
              Chained σ s'.m s'.to ∧ ∀ b ∈ s.to.bodies, b ∈ s'.to.bodies := by
            intro x e1 e2 h
            obtain ⟨h1, h2⟩ := ih h (by rw [e1, e2]; exact hc')
            exact ⟨h1, fun b hb => h2 b (by rw [e2]; exact hsub b hb)⟩
          split at h
          · split at h
            · cases h; exact ⟨hc', hsub⟩
            · exact fin (by rfl) (by rfl) h
          · exact fin (by rfl) (by rfl) h
      · split at h
        · split at h
          · cases h; exact ⟨hc, fun b h => h⟩
          · exact ih h hc
        · cases h; exact ⟨hc, fun b h => h⟩

theorem write_ok {c : Commit} {k : Key} {f : Frame} (h : (c.write k f).1.ok = true) :
    (c.write k f).2 = { c with mem := MemStore.insert k f c.mem } := by
  unfold write MemStore.write at h ⊢
  by_cases hk : k = Key.END
  · simp only [hk, if_true] at h
    exact absurd h (by decide)
  · simp only [hk, if_false]

theorem form_ne : Form.META ≠ Form.LOG := by decide

/-- The records of a chain are added to the transaction. -/
theorem Inv.chain {c c' : Commit} (hc : Inv c) {m : OpMeta} {to : ABuilder} {extra : MemStore} {k : Key}
    {obj : Uuid} (ht : Chained c.all m to)
    (hx : ∀ r ∈ extra, r.1.form = Form.META ∧ ∀ o ∈ r.2, ∃ b ∈ to.bodies, b.1 = o.id)
    (hs : MemStore.Sorted c'.mem)
    (hmem : ∀ r, r ∈ c'.all ↔ r ∈ c.all ∨ r ∈ extra ∨ r = (Key.mk' obj Form.LOG, to.release) ∨
      r = (k, to.release)) : Inv c' := by
  have mono : ∀ x, Logged c.all x → Logged c'.all x := by
    rintro x ⟨r, hr, h⟩
    exact ⟨r, (hmem r).2 (Or.inl hr), h⟩
  have new : ∀ b ∈ to.bodies, Logged c'.all b := by
    intro b hb
    refine ⟨_, (hmem _).2 (Or.inr (Or.inr (Or.inl rfl))), form_log _, ?_⟩
    rw [← release_bodies] at hb
    obtain ⟨o, ho, e⟩ := List.mem_map.1 hb
    exact ⟨o, ho, e⟩
  have mem : ∀ o ∈ to.release, o.body ∈ to.bodies := by
    intro o ho
    rw [← release_bodies]
    exact List.mem_map.2 ⟨o, ho, rfl⟩
  have hcause : ∀ o ∈ to.release, Caused c'.all o.body := by
    intro o ho
    rcases ht.causes _ (mem o ho) with h | ⟨h1, h2, h3⟩
    · exact Or.inl h
    · refine Or.inr ⟨h1, h2, ?_⟩
      rcases h3 with ⟨x, hx, e⟩ | ⟨x, hx, e⟩
      · exact ⟨x, mono x hx, e⟩
      · exact ⟨x, new x hx, e⟩
  refine ⟨hs, ?_, ?_⟩
  · rintro b ⟨r, hr, hf, o, ho, rfl⟩
    rcases (hmem r).1 hr with hr | hr | hr | hr
    · exact Caused.mono (hc.closed.causes _ ⟨r, hr, hf, o, ho, rfl⟩) mono
    · exact absurd ((hx r hr).1.symm.trans hf) form_ne
    · rw [hr] at ho; exact hcause o ho
    · rw [hr] at ho; exact hcause o ho
  · rintro b ⟨r, hr, o, ho, rfl⟩ e
    rcases (hmem r).1 hr with hr | hr | hr | hr
    · obtain ⟨x, hx, e⟩ := hc.closed.index _ ⟨r, hr, o, ho, rfl⟩ e
      exact ⟨x, mono x hx, e⟩
    · obtain ⟨x, hx, e⟩ := (hx r hr).2 o ho
      exact ⟨x, new x hx, e⟩
    · rw [hr] at ho; exact ⟨_, new _ (mem o ho), rfl⟩
    · rw [hr] at ho; exact ⟨_, new _ (mem o ho), rfl⟩

theorem storeChain_inv {env : Env} {c c' : Commit} {m : OpMeta} {o : AOp} {os rest : List AOp}
    {fin st : Status} (hc : Inv c) (hm : m.id = o.id) (ho : Caused c.all o.body)
    (h : c.storeChain env m o os fin = some (st, c', rest)) (hok : st.ok = true) : Inv c' := by
  unfold storeChain at h
  have hw : ∀ w, (if o.ref ≠ m.id then c.write (Key.mk' o.id Form.META) (m.save env.hs)
      else (Status.OK, c)) = w → w.1.ok = true → ∃ extra : MemStore,
      (∀ r ∈ extra, r.1.form = Form.META ∧ ∀ p ∈ r.2, p.id = o.id) ∧ w.2.main = c.main ∧
      MemStore.Sorted w.2.mem ∧ ∀ r, r ∈ w.2.mem ↔ r ∈ c.mem ∨ r ∈ extra := by
    intro w hw hok
    split at hw
    · subst hw
      rw [write_ok hok]
      refine ⟨[(Key.mk' o.id Form.META, m.save env.hs)], ?_, rfl, MemStore.insert_sorted hc.sorted _ _, ?_⟩
      · intro r hr
        rw [List.mem_singleton.1 hr]
        refine ⟨form_meta _, fun p hp => ?_⟩
        rw [List.mem_singleton.1 hp]
        exact hm
      · intro r
        rw [mem_insert, List.mem_singleton]
        exact or_comm
    · subst hw
      exact ⟨[], by simp, rfl, hc.sorted, by simp⟩
  revert h hw
  generalize (if o.ref ≠ m.id then c.write (Key.mk' o.id Form.META) (m.save env.hs)
      else (Status.OK, c)) = w
  intro h hw
  simp only at h
  split at h
  · cases h; exact absurd hok ‹_›
  · rename_i hwok
    obtain ⟨extra, hx, hmain, hsort, hmem⟩ := hw w rfl (ok_of_not_not hwok)
    obtain ⟨s, hs, h⟩ := map_some h
    obtain ⟨t, y, e⟩ := chainletLoop_keeps os (st := s.1) (s' := s.2.1) (rest := s.2.2) hs
    have h0 : Chained c.all m (ABuilder.empty.append o) := by
      constructor
      · exact ⟨o.body, by rw [append_bodies]; simp [ABuilder.empty, ABuilder.bodies], hm.symm⟩
      · intro b hb
        rw [append_bodies] at hb
        have : b = o.body := by simpa [ABuilder.empty, ABuilder.bodies] using hb
        rw [this]
        rcases ho with ho | ⟨h1, h2, h3⟩
        · exact Or.inl ho
        · exact Or.inr ⟨h1, h2, Or.inl h3⟩
    obtain ⟨ht, hsub⟩ := chainletLoop_chained os (st := s.1) (s' := s.2.1) (rest := s.2.2) (σ := c.all) hs h0
    split at h
    · cases h; exact absurd hok ‹_›
    · split at h
      · cases h; exact absurd hok ‹_›
      · split at h
        · cases h; exact absurd hok ‹_›
        · rename_i hok1
          rw [write_ok (ok_of_not_not hok1)] at h
          split at h
          · cases h; exact absurd hok ‹_›
          · rename_i hok2
            rw [write_ok (ok_of_not_not hok2)] at h
            cases h
            have e1 : s.2.1.c.main = c.main := by rw [e]; exact hmain
            have e2 : s.2.1.c.mem = w.2.mem := by rw [e]
            refine hc.chain (obj := s.2.1.m.object) (k := Key.ofUuids s.2.1.m.object s.2.1.m.rdt)
              (extra := extra) ht ?_ ?_ ?_
            · intro r hr
              refine ⟨(hx r hr).1, fun p hp => ⟨o.body, hsub _ ?_, ((hx r hr).2 p hp).symm⟩⟩
              show _ ∈ (ABuilder.empty.append o).bodies
              rw [append_bodies]; simp [ABuilder.empty, ABuilder.bodies]
            · show MemStore.Sorted (MemStore.insert _ _ (MemStore.insert _ _ s.2.1.c.mem))
              rw [e2]
              exact MemStore.insert_sorted (MemStore.insert_sorted hsort _ _) _ _
            · intro r
              show r ∈ s.2.1.c.main ++ MemStore.insert _ _ (MemStore.insert _ _ s.2.1.c.mem) ↔ _
              rw [e1, e2, List.mem_append, mem_insert, mem_insert, hmem]
              unfold all
              rw [List.mem_append]
              constructor
              · rintro (h | h | h | h | h)
                · exact Or.inl (Or.inl h)
                · exact Or.inr (Or.inr (Or.inr h))
                · exact Or.inr (Or.inr (Or.inl h))
                · exact Or.inl (Or.inr h)
                · exact Or.inr (Or.inl h)
              · rintro ((h | h) | h | h | h)
                · exact Or.inl h
                · exact Or.inr (Or.inr (Or.inr (Or.inl h)))
                · exact Or.inr (Or.inr (Or.inr (Or.inr h)))
                · exact Or.inr (Or.inr (Or.inl h))
                · exact Or.inr (Or.inl h)

theorem lt_value {a b : Uuid} (h : Uuid.lt a b = true) : a.value.toNat ≤ b.value.toNat := by
  unfold Uuid.lt at h
  simp only [Bool.or_eq_true, Bool.and_eq_true, decide_eq_true_eq] at h
  rcases h with h | ⟨h, -⟩
  · omega
  · rw [h]; exact Nat.le_refl _

theorem yarn_name : (formUuid Form.YARN).version = Uuid.vNAME := by decide

theorem saveChain_inv {env : Env} {N : Body → Prop} (hm : Makes (formUuid Form.META) N env.mg) {c c' : Commit} {cur cur' : ACur} {st : Status}
    (hc : Inv c) (hn : ∀ o ∈ cur.ops, o.ref.version = Uuid.vTIME → o.ref.value ≠ NEVER)
    (h : c.saveChain env cur = some (st, c', cur')) (hok : st.ok = true) : Inv c' := by
  unfold saveChain at h
  match hops : cur.ops with
  | [] => rw [hops] at h; cases h
  | o :: os =>
    rw [hops] at h hn
    simp only at h
    split at h
    · cases h; exact absurd hok ‹_›
    · rename_i hsane
      have hsane := ok_of_not_not hsane
      obtain ⟨t, ht, h⟩ := bind_some h
      obtain ⟨q1, l1⟩ := yarnTip_quiet (st := t.1) (m := t.2.1) (c' := t.2.2) hm hc ht
      split at h
      · cases h; exact absurd hok ‹_›
      · rename_i hok1
        obtain ⟨g, hg, h⟩ := bind_some h
        have hc1 := hc.quiet hm.plain q1
        obtain ⟨q2, l2⟩ := headMeta_quiet (st := g.1) (m := g.2.1) (c' := g.2.2) hm hc1 hg
        split at h
        · cases h; exact absurd hok ‹_›
        · rename_i hok2
          obtain ⟨r, hr, h⟩ := map_some h
          cases h
          obtain ⟨e, l2⟩ := l2 (ok_of_not_not hok2)
          refine storeChain_inv (st := r.1) (c' := r.2.1) (rest := r.2.2) (hc1.quiet hm.plain q2) e ?_ hr hok
          rcases sane_ref hsane with h1 | ⟨h1, h2⟩
          · exact Or.inl h1
          · have hlt : o.ref.value ≠ NEVER := hn o List.mem_cons_self h1
            obtain ⟨x, hx, e⟩ := l2 (fun _ => by
              obtain ⟨x, hx, e⟩ := l1 (ok_of_not_not hok1) (by
                intro e
                rw [e, yarn_name] at h1
                exact version_ne h1)
              exact ⟨x, (q1.logged x).2 hx, e⟩) h1 hlt
            exact Or.inr ⟨h1, h2, x, (q2.logged x).2 hx, e⟩

theorem writeNewEvents_inv {env : Env} {c c' : Commit} {cur cur' : ACur} {st : Status} (hc : Inv c)
    (h : c.writeNewEvents env cur = some (st, c', cur')) : Inv c' := by
  rw [writeNewEvents_eq] at h
  cases h
  exact hc.quiet (N := fun _ => False) (fun _ h => h.elim) (Quiet.of rfl rfl)

theorem txtWrite_inv {env : Env} {N : Body → Prop} (hm : Makes (formUuid Form.META) N env.mg) {c c' : Commit} {cur cur' : ACur} {st : Status} (hc : Inv c)
    (h : c.txtWrite env cur = some (st, c', cur')) : Inv c' := by
  unfold txtWrite at h
  split at h
  · cases h
  · split at h
    · obtain ⟨r, hr, h⟩ := bind_some h
      have hc1 := hc.quiet hm.plain (read_quiet (st := r.1) (f := r.2.1) (c' := r.2.2) hm hc.sorted hr).1
      split at h
      · cases h; exact hc1
      · split at h
        · cases h
        · cases h; exact hc1
        · obtain ⟨w, hw, h⟩ := map_some h
          cases h
          exact writeNewEvents_inv (st := w.1) (c' := w.2.1) (cur' := w.2.2)
            (by exact hc1.quiet (N := fun _ => False) (fun _ h => h.elim) (Quiet.of rfl rfl)) hw
    · cases h; exact hc

theorem receiveWrites_inv {env : Env} {N : Body → Prop} (hm : Makes (formUuid Form.META) N env.mg) {c c' : Commit} {cur cur' : ACur} {st : Status}
    (hc : Inv c) (h : c.receiveWrites env cur = some (st, c', cur')) : Inv c' := by
  unfold receiveWrites at h
  split at h
  · cases h
  · split at h
    · exact writeNewEvents_inv hc h
    · split at h
      · cases h; exact hc
      · simp only at h
        split at h
        · exact writeNewEvents_inv hc h
        · split at h
          · exact txtWrite_inv hm hc h
          · cases h; exact hc

theorem receiveQuery_inv {env : Env} {N : Body → Prop} (hm : Makes (formUuid Form.META) N env.mg) {c c' : Commit} {cur cur' : ACur} {st : Status}
    (hc : Inv c) (h : c.receiveQuery env cur = some (st, c', cur')) : Inv c' := by
  unfold receiveQuery at h
  split at h
  · cases h
  · simp only at h
    split at h
    · unfold queryObject at h
      obtain ⟨r, hr, h⟩ := map_some h
      have hc1 := hc.quiet hm.plain (read_quiet (st := r.1) (f := r.2.1) (c' := r.2.2) hm hc.sorted hr).1
      split at h <;> (cases h; exact hc1)
    · split at h
      · unfold queryObjectLog at h
        simp only at h
        obtain ⟨m, hm', h⟩ := bind_some h
        have hc1 := hc.quiet hm.plain (findOpMeta_quiet (st := m.1) (m := m.2.1) (c' := m.2.2) hm hc hm').1
        split at h
        · cases h; exact hc1
        · obtain ⟨r, hr, h⟩ := bind_some h
          have hc2 := hc1.quiet hm.plain (read_quiet (st := r.1) (f := r.2.1) (c' := r.2.2) hm hc1.sorted hr).1
          repeat' (split at h)
          all_goals first
            | (cases h; exact hc2)
            | cases h
      · cases h; exact hc

theorem receiveMapQuery_inv {env : Env} {N : Body → Prop} (hm : Makes (formUuid Form.META) N env.mg) {c c' : Commit} {cur cur' : ACur} {st : Status}
    (hc : Inv c) (h : c.receiveMapQuery env cur = some (st, c', cur')) : Inv c' := by
  unfold receiveMapQuery at h
  split at h
  · cases h
  · split at h
    · obtain ⟨r, hr, h⟩ := map_some h
      have hc1 := hc.quiet hm.plain (read_quiet (st := r.1) (f := r.2.1) (c' := r.2.2) hm hc.sorted hr).1
      split at h <;> (cases h; exact hc1)
    · cases h; exact hc

theorem receiveMapWrites_inv {env : Env} {N : Body → Prop} (hm : Makes (formUuid Form.META) N env.mg) {c c' : Commit} {cur cur' : ACur} {st : Status}
    (hc : Inv c) (h : c.receiveMapWrites env cur = some (st, c', cur')) : Inv c' := by
  unfold receiveMapWrites at h
  split at h
  · cases h
  · split at h
    · exact txtWrite_inv hm hc h
    · cases h; exact hc

/-- Adding a record that neither is a log nor has index entries. -/
theorem Closed.add {s t : MemStore} {r : Key × Frame} (h : Closed (formUuid Form.META) s)
    (hr : r.1.form ≠ Form.LOG) (ho : ∀ o ∈ r.2, o.ref ≠ formUuid Form.META)
    (ht : ∀ x, x ∈ t ↔ x = r ∨ x ∈ s) : Closed (formUuid Form.META) t := by
  have mono : ∀ x, Logged s x → Logged t x := by
    rintro x ⟨y, hy, h⟩
    exact ⟨y, (ht y).2 (Or.inr hy), h⟩
  refine ⟨?_, ?_⟩
  · rintro b ⟨x, hx, hf, o, ho', rfl⟩
    rcases (ht x).1 hx with rfl | hx
    · exact absurd hf hr
    · exact Caused.mono (h.causes _ ⟨x, hx, hf, o, ho', rfl⟩) mono
  · rintro b ⟨x, hx, o, ho', rfl⟩ e
    rcases (ht x).1 hx with rfl | hx
    · exact absurd e (ho o ho')
    · obtain ⟨y, hy, e⟩ := h.index _ ⟨x, hx, o, ho', rfl⟩ e
      exact ⟨y, mono y hy, e⟩

theorem writeName_inv {env : Env} {c c' : Commit} {cur cur' : ACur} {st : Status}
    (hc : Inv c) (h : c.writeName env cur = some (st, c', cur')) : Inv c' := by
  unfold writeName at h
  split at h
  · cases h
  · split at h
    · split at h
      · cases h; exact hc
      · cases h
        have hne : ¬ (Key.mk' Uuid.NIL Form.LWW = Key.END) := by decide
        simp only [putName, Engine.write, hne, false_and, if_false]
        have hok : Status.OK.ok = true := by decide
        rw [if_pos hok]
        refine ⟨hc.sorted, ?_⟩
        show Closed _ (MemStore.insert NAMES _ _ ++ c.mem)
        refine Closed.add (r := (NAMES, _)) hc.closed
          (by rw [show NAMES.form = Form.LWW from form_mk _ _]; decide) ?_
          (fun x => by rw [List.mem_append, mem_insert]; unfold all; rw [List.mem_append]; exact or_assoc)
        intro o ho
        rw [List.mem_singleton.1 ho]
        show Uuid.NIL ≠ _
        decide
    · cases h; exact hc

theorem dispatch_inv {env : Env} {N : Body → Prop} (hm : Makes (formUuid Form.META) N env.mg) {c c' : Commit} {cur cur' : ACur} {st : Status}
    (hc : Inv c) (hn : ∀ o ∈ cur.ops, o.ref.version = Uuid.vTIME → o.ref.value ≠ NEVER)
    (h : c.dispatch env cur = some (st, c', cur')) (hok : st.ok = true) : Inv c' := by
  unfold dispatch at h
  split at h
  · cases h
  · split at h
    · split at h
      · exact receiveQuery_inv hm hc h
      · split at h
        · exact saveChain_inv hm hc hn h hok
        · exact receiveWrites_inv hm hc h
    · split at h
      · split at h
        · exact receiveMapQuery_inv hm hc h
        · exact receiveMapWrites_inv hm hc h
      · split at h
        · split at h
          · cases h; exact hc
          · split at h
            · exact writeName_inv hc h
            · cases h; exact hc
        · cases h; exact hc

theorem receiveLoop_inv {env : Env} {N : Body → Prop} (hm : Makes (formUuid Form.META) N env.mg) : ∀ (fuel : Nat) {c c' : Commit} {cur : ACur}
    {st : Status}, Inv c →
    (∀ o ∈ cur.ops, o.ref.version = Uuid.vTIME → o.ref.value ≠ NEVER) →
    receiveLoop env fuel c cur = some (st, c') → st.ok = true → Inv c' := by
  intro fuel
  induction fuel with
  | zero => intro c c' cur st _ _ h; cases h
  | succ n ih =>
    intro c c' cur st hc hn h hok
    simp only [receiveLoop] at h
    split at h
    · cases h; exact hc
    · rename_i hv
      obtain ⟨r, hr, h⟩ := bind_some h
      split at h
      · cases h; exact absurd hok ‹_›
      · rename_i hok'
        have hc1 := dispatch_inv (st := r.1) (c' := r.2.1) (cur' := r.2.2) hm hc hn hr (ok_of_not_not hok')
        split at h
        · obtain ⟨-, ⟨pre, e⟩, -⟩ := dispatch_named (st := r.1) (c' := r.2.1) (cur' := r.2.2)
            (by simpa using hv) hr
          exact ih hc1 (fun o ho => hn o (by rw [e]; exact List.mem_append_right _ ho)) h hok
        · cases h; exact hc1

/-- The main store alone stays closed whatever happens. -/
theorem dispatch_main {env : Env} {c c' : Commit} {cur cur' : ACur} {st : Status}
    (hc : Closed (formUuid Form.META) c.main) (hv : cur.valid = true)
    (h : c.dispatch env cur = some (st, c', cur')) : Closed (formUuid Form.META) c'.main := by
  by_cases hn : ∃ o os, cur.ops = o :: os ∧ o.id = NAME_UUID
  · obtain ⟨o, os, hops, hid⟩ := hn
    have e : c.writeName env cur = some (st, c', cur') := by
      rw [← h]
      unfold dispatch
      rw [hops]
      simp only [hid]
      rw [if_neg (by decide), if_neg (by decide), if_pos (by decide), if_neg (by decide), if_pos trivial]
    have hi : Inv { c with mem := [] } :=
      ⟨List.Pairwise.nil, by unfold all; rw [List.append_nil]; exact hc⟩
    unfold writeName at e
    rw [hops] at e
    simp only at e
    split at e
    · split at e
      · cases e; exact hc
      · have hne : ¬ (Key.mk' Uuid.NIL Form.LWW = Key.END) := by decide
        simp only [putName, Engine.write, hne, false_and, if_false] at e
        have hok : Status.OK.ok = true := by decide
        rw [if_pos hok] at e
        cases e
        refine Closed.add (r := (NAMES, _)) hc (by rw [show NAMES.form = Form.LWW from form_mk _ _]; decide)
          ?_ (fun x => mem_insert)
        intro o ho
        rw [List.mem_singleton.1 ho]
        show Uuid.NIL ≠ _
        decide
    · cases e; exact hc
  · rw [(dispatch_step hv (fun o os e hid => hn ⟨o, os, e, hid⟩) h).keeps.main]
    exact hc

theorem receiveLoop_main {env : Env} : ∀ (fuel : Nat) {c c' : Commit} {cur : ACur}
    {st : Status}, Closed (formUuid Form.META) c.main →
    receiveLoop env fuel c cur = some (st, c') → Closed (formUuid Form.META) c'.main := by
  intro fuel
  induction fuel with
  | zero => intro c c' cur st _ h; cases h
  | succ n ih =>
    intro c c' cur st hc h
    simp only [receiveLoop] at h
    split at h
    · cases h; exact hc
    · rename_i hv
      obtain ⟨r, hr, h⟩ := bind_some h
      have hc1 := dispatch_main (st := r.1) (c' := r.2.1) (cur' := r.2.2) hc (by simpa using hv) hr
      split at h
      · cases h; exact hc1
      · split at h
        · exact ih hc1 h
        · cases h; exact hc1

theorem zero_form : Key.ZERO.form ≠ Form.LOG := by decide
theorem zero_ref : formUuid Form.ZERO ≠ formUuid Form.META := by decide

theorem save_closed {c : Commit} (hc : Inv c) (hm : Closed (formUuid Form.META) c.main) :
    Closed (formUuid Form.META) (c.save).2.main := by
  rcases save_main c with ⟨-, h | h⟩ | ⟨-, h⟩
  · rw [h]; exact hm
  · rw [h]
    refine Closed.add (r := (Key.ZERO, [⟨c.tip, formUuid Form.ZERO, [], .raw⟩])) hc.closed zero_form ?_ ?_
    · intro o ho
      rw [List.mem_singleton.1 ho]
      exact zero_ref
    · intro x
      rw [mem_writeAll, mem_insert]
      unfold all
      rw [List.mem_append]
      constructor
      · rintro (h | h | h)
        · exact Or.inr (Or.inl h)
        · exact Or.inl h
        · exact Or.inr (Or.inr h)
      · rintro (h | h | h)
        · exact Or.inr (Or.inl h)
        · exact Or.inl h
        · exact Or.inr (Or.inr h)
  · rw [h]; exact hm

end Commit
end Ron
