import Verif.Lemmas.History
import Verif.Spec.Filing
/-!
Transactions keep every op in the log of its object.
-/
namespace Ron
open Spec

namespace Commit

theorem heldAt_append {k : Key} {a b : MemStore} {x : Body} :
    HeldIn k (a ++ b) x ↔ HeldIn k a x ∨ HeldIn k b x := by
  unfold HeldIn
  constructor
  · rintro ⟨f, hf, h⟩
    rcases List.mem_append.1 hf with hf | hf
    · exact Or.inl ⟨f, hf, h⟩
    · exact Or.inr ⟨f, hf, h⟩
  · rintro (⟨f, hf, h⟩ | ⟨f, hf, h⟩)
    · exact ⟨f, List.mem_append_left _ hf, h⟩
    · exact ⟨f, List.mem_append_right _ hf, h⟩

theorem heldIn_recs {k : Key} {s : MemStore} {b : Body} :
    HeldIn k s b ↔ ∃ f ∈ MemStore.recs k s, ∃ o ∈ f, o.body = b := by
  unfold HeldIn
  constructor
  · rintro ⟨f, hf, h⟩; exact ⟨f, mem_recs.2 hf, h⟩
  · rintro ⟨f, hf, h⟩; exact ⟨f, mem_recs.1 hf, h⟩

/-- A read moves nothing from key to key and loses nothing from the logs. -/
theorem memRead_at {mg : Reducer} (hm : Honest mg) {s s' : MemStore} (hs : MemStore.Sorted s) {k : Key}
    {st : Status} {f : Frame} (h : s.read mg k [] = some (st, f, s')) :
    (∀ j b, HeldIn j s' b → HeldIn j s b) ∧ (∀ j b, j.form = Form.LOG → HeldIn j s b → HeldIn j s' b) := by
  rcases MemStore.read_eq mg hs k [] with ⟨e, hr⟩ | ⟨g, e, hr⟩ | ⟨-, ⟨-, hr⟩ | ⟨st', out, s'', em, hr, hs'', er, ho⟩⟩
  · rw [hr] at h; cases h
    exact ⟨fun _ _ h => h, fun _ _ _ h => h⟩
  · rw [hr] at h; cases h
    exact ⟨fun _ _ h => h, fun _ _ _ h => h⟩
  · rw [hr] at h; cases h
  · rw [hr] at h
    cases h
    constructor
    · intro j b hb
      rw [heldIn_recs] at hb ⊢
      by_cases hk : j = k
      · subst hk
        rw [er] at hb
        obtain ⟨g, hg, o, hog, rfl⟩ := hb
        rw [List.mem_singleton.1 hg] at hog
        cases hok : st.ok with
        | false => rw [hok] at hog; cases hog
        | true =>
          rw [hok, if_pos rfl] at hog
          obtain ⟨i, hi, x, hx, e⟩ := hm.noNew em hok o hog
          exact ⟨i, (mem_withOps.1 hi).1, x, hx, e⟩
      · rw [ho _ hk] at hb
        exact hb
    · intro j b hf hb
      rw [heldIn_recs] at hb ⊢
      by_cases hk : j = k
      · subst hk
        obtain ⟨g, hg, o, hog, rfl⟩ := hb
        rw [hf] at em
        obtain ⟨hok, hall⟩ := hm.log em
        obtain ⟨x, hx, e⟩ := hall g (mem_withOps.2 ⟨hg, by intro e; rw [e] at hog; cases hog⟩) o hog
        rw [er, hok, if_pos rfl]
        exact ⟨out, List.mem_singleton.2 rfl, x, hx, e⟩
      · rw [ho _ hk]; exact hb

/-- A step that moves nothing from key to key and loses nothing from the logs. -/
structure Still (c c' : Commit) : Prop where
  held : ∀ k b, HeldIn k c'.all b → HeldIn k c.all b
  logs : ∀ k b, k.form = Form.LOG → HeldIn k c.all b → HeldIn k c'.all b
  sorted : MemStore.Sorted c.mem → MemStore.Sorted c'.mem

theorem Still.rfl' (c : Commit) : Still c c := ⟨fun _ _ h => h, fun _ _ _ h => h, fun h => h⟩
theorem Still.trans {a b c : Commit} (h : Still a b) (g : Still b c) : Still a c :=
  ⟨fun k x hx => h.held k x (g.held k x hx), fun k x hk hx => g.logs k x hk (h.logs k x hk hx),
   fun x => g.sorted (h.sorted x)⟩
theorem Still.of {c c' : Commit} (h1 : c'.main = c.main) (h2 : c'.mem = c.mem) : Still c c' := by
  have e : c'.all = c.all := by unfold all; rw [h1, h2]
  exact ⟨fun k b h => by rw [e] at h; exact h, fun k b _ h => by rw [e]; exact h, fun h => by rw [h2]; exact h⟩

theorem read_still {env : Env} (hm : Honest env.mg) {c c' : Commit} (hs : MemStore.Sorted c.mem) {k : Key}
    {f : Frame} {st : Status} (h : c.read env k [] = some (st, f, c')) :
    Still c c' ∧ ∀ o ∈ f, HeldIn k c.all o.body := by
  refine ⟨?_, fun o ho => ((read_quiet hm.makes hs h).2 o ho).resolve_right And.right⟩
  unfold read at h
  obtain ⟨a, ha, h⟩ := bind_some h
  split at h
  · cases h; exact Still.rfl' _
  · obtain ⟨b, hb, h⟩ := bind_some h
    obtain ⟨g1, g2⟩ := memRead_at (st := b.1) (f := b.2.1) (s' := b.2.2) hm hs hb
    have q : Still c { c with mem := b.2.2 } := by
      refine ⟨fun j x hx => ?_, fun j x hj hx => ?_, fun _ =>
        (memRead (st := b.1) (f := b.2.1) (s' := b.2.2) (hm.makes (metaName := formUuid Form.META)) hs hb).1⟩
      · unfold all at hx ⊢
        rw [heldAt_append] at hx ⊢
        exact hx.imp (fun h => h) (g1 j x)
      · unfold all at hx ⊢
        rw [heldAt_append] at hx ⊢
        exact hx.imp (fun h => h) (g2 j x hj)
    simp only at h
    split at h
    · cases h; exact q
    · split at h
      · cases h; exact q
      · split at h
        · cases h; exact q
        · obtain ⟨r, hr, h⟩ := map_some h
          split at h <;> (cases h; exact q)

theorem findOpMeta_still {env : Env} (hm : Honest env.mg) {c c' : Commit} (hs : MemStore.Sorted c.mem)
    {id : Uuid} {st : Status} {m : OpMeta} (h : c.findOpMeta env id = some (st, m, c')) : Still c c' := by
  unfold findOpMeta at h
  obtain ⟨a, ha, h⟩ := bind_some h
  split at h
  · cases h; exact Still.rfl' _
  · split at h
    · cases h; exact Still.rfl' _
    · obtain ⟨l, hl, h⟩ := bind_some h
      have q := (read_still (st := l.1) (f := l.2.1) (c' := l.2.2) hm hs hl).1
      split at h
      · cases h; exact q
      · split at h
        · cases h; exact q
        · obtain ⟨r, hr, h⟩ := map_some h
          cases h; exact q

/-- The invariant of a transaction. -/
structure Fine (c : Commit) : Prop where
  sorted : MemStore.Sorted c.mem
  filed : Filed (formUuid Form.META) NAMES c.all

theorem _root_.Ron.Spec.LogHas.mono {s t : MemStore} {obj id : Uuid} (h : LogHas s obj id)
    (hst : ∀ k b, k.form = Form.LOG → HeldIn k s b → HeldIn k t b) : LogHas t obj id := by
  obtain ⟨b, hb, e⟩ := h
  exact ⟨b, hst _ _ (form_log _) hb, e⟩

theorem _root_.Ron.Spec.Created.mono {s t : MemStore} {obj rdt : Uuid} (h : Created s obj rdt)
    (hst : ∀ k b, k.form = Form.LOG → HeldIn k s b → HeldIn k t b) : Created t obj rdt := by
  obtain ⟨h0, b, hb, e⟩ := h
  exact ⟨h0, b, hst _ _ (form_log _) hb, e⟩

theorem _root_.Ron.Spec.Rooted.mono {s t : MemStore} {k : Key} {b : Body} (h : Rooted s k b)
    (hst : ∀ b, HeldIn k s b → HeldIn k t b) : Rooted t k b := by
  obtain ⟨h0, h | ⟨h1, h2, x, hx, e⟩⟩ := h
  · exact ⟨h0, Or.inl h⟩
  · exact ⟨h0, Or.inr ⟨h1, h2, x, hst x hx, e⟩⟩

theorem Fine.still {c c' : Commit} (h : Fine c) (q : Still c c') : Fine c' := by
  refine ⟨q.sorted h.sorted, fun k b hk hb => ?_, fun k b h1 h2 h3 h4 hb => ?_, fun k b hb e obj rdt rest ev => ?_⟩
  · exact (h.filed.logs k b hk (q.held k b hb)).mono fun x hx => q.logs k x hk hx
  · obtain ⟨obj, rdt, e, hc, hl⟩ := h.filed.states k b h1 h2 h3 h4 (q.held k b hb)
    exact ⟨obj, rdt, e, hc.mono q.logs, q.logs _ _ (form_log _) hl⟩
  · obtain ⟨h1, h2⟩ := h.filed.index k b (q.held k b hb) e obj rdt rest ev
    exact ⟨h1.mono q.logs, h2.mono q.logs⟩

/-- What is known of an event's metadata. -/
structure Known (s : MemStore) (m : OpMeta) : Prop where
  has : LogHas s m.object m.id
  created : Created s m.object m.rdt

theorem Known.mono {s t : MemStore} {m : OpMeta} (h : Known s m)
    (hst : ∀ k b, k.form = Form.LOG → HeldIn k s b → HeldIn k t b) : Known t m :=
  ⟨h.has.mono hst, h.created.mono hst⟩

theorem held_at {s : MemStore} {b : Body} (h : Held s b) : ∃ k, HeldIn k s b := by
  obtain ⟨r, hr, h⟩ := h
  exact ⟨r.1, r.2, hr, h⟩

theorem findChainHeadMeta_known {env : Env} (hm : Honest env.mg) {c : Commit} (hc : Fine c) {id : Uuid}
    {st : Status} {m : OpMeta} (h : c.findChainHeadMeta env id = some (st, m)) (hok : st.ok = true) :
    Known c.all m := by
  unfold findChainHeadMeta at h
  obtain ⟨r, hr, h⟩ := map_some h
  have hh : ∀ o ∈ r.2, Held c.all o.body := fun o ho =>
    (seekPrev_held (st := r.1) (f := r.2) hm.makes hr o ho).resolve_right not_false
  split at h
  · cases h; exact absurd hok ‹_›
  · split at h
    · cases h; exact absurd hok (by decide)
    · rename_i o os ho
      rw [ho] at hh
      split at h
      · cases h; exact absurd hok (by decide)
      · rename_i hcond
        have href : o.ref = formUuid Form.META := Decidable.not_not.1 fun e => hcond (Or.inr e)
        unfold OpMeta.load at h
        rw [if_neg (by simpa using href)] at h
        split at h
        · rename_i obj rdt rest hv
          cases h
          obtain ⟨k, hk⟩ := held_at (hh o List.mem_cons_self)
          obtain ⟨h1, h2⟩ := hc.filed.index k o.body hk href obj rdt rest hv
          exact ⟨h1, h2⟩
        · cases h; exact absurd hok (by decide)

/-- What is found along a chain is of the same object. -/
theorem walkChain_object {hs : Hashing} {id : Uuid} : ∀ (ops : List AOp) {m m' : OpMeta} {st : Status},
    walkChain hs id m ops = some (st, m') → m'.object = m.object ∧ m'.rdt = m.rdt := by
  intro ops
  induction ops with
  | nil =>
    intro m m' st h
    simp only [walkChain] at h
    split at h <;> (cases h; exact ⟨rfl, rfl⟩)
  | cons o os ih =>
    intro m m' st h
    simp only [walkChain] at h
    split at h
    · exact ih h
    · split at h
      · cases h; exact ⟨rfl, rfl⟩
      · obtain ⟨n, hn, h⟩ := bind_some h
        have hid : n.object = m.object ∧ n.rdt = m.rdt := by
          unfold OpMeta.next at hn
          split at hn
          · cases hn; exact ⟨rfl, rfl⟩
          · cases hn
        split at h
        · cases h; exact hid
        · obtain ⟨h1, h2⟩ := ih h
          exact ⟨h1.trans hid.1, h2.trans hid.2⟩

theorem findOpMeta_known {env : Env} (hm : Honest env.mg) {c c' : Commit} (hc : Fine c) {id : Uuid}
    {st : Status} {m : OpMeta} (h : c.findOpMeta env id = some (st, m, c')) (hok : st.ok = true) :
    Known c.all m ∧ (m.id = id ∨ id.value = NEVER) := by
  unfold findOpMeta at h
  obtain ⟨a, ha, h⟩ := bind_some h
  split at h
  · cases h; exact absurd hok ‹_›
  · rename_i hok1
    have h1 := findChainHeadMeta_known (st := a.1) (m := a.2) hm hc ha (ok_of_not_not hok1)
    split at h
    · cases h; exact ⟨h1, Or.inl ‹_›⟩
    · obtain ⟨l, hl, h⟩ := bind_some h
      obtain ⟨q, hlog⟩ := read_still (st := l.1) (f := l.2.1) (c' := l.2.2) hm hc.sorted hl
      split at h
      · cases h; exact absurd hok ‹_›
      · split at h
        · cases h; exact absurd hok (by decide)
        · rename_i o os hdrop
          obtain ⟨r, hr, h⟩ := map_some h
          cases h
          obtain ⟨h2, h3⟩ := walkChain_id os (st := r.1) (m' := r.2) hr hok
          obtain ⟨e1, e2⟩ := walkChain_object os (st := r.1) (m' := r.2) hr
          refine ⟨⟨?_, ?_⟩, h3⟩
          · rw [e1]
            rcases h2 with h2 | ⟨x, hx, e⟩
            · rw [h2]; exact h1.has
            · have hmem : x ∈ l.2.1 := by
                have : x ∈ l.2.1.dropWhile fun o => decide (o.id ≠ a.2.id) := by
                  rw [hdrop]; exact List.mem_cons_of_mem _ hx
                exact (List.dropWhile_sublist _).subset this
              exact ⟨x.body, hlog x hmem, e⟩
          · rw [e1, e2]; exact h1.created

/-- An op is taken if the yarn is new, or if it is later than all the yarn has. -/
theorem yarnTip_known {env : Env} (hm : Honest env.mg) {c c' : Commit} (hc : Fine c) {o : AOp}
    {st : Status} {m : OpMeta} (h : c.yarnTip env o = some (st, m, c')) (hok : st.ok = true) :
    Still c c' ∧ ((o.ref = formUuid Form.YARN ∧ m.id = o.id) ∨
      (o.ref ≠ formUuid Form.YARN ∧ Known c.all m ∧ Uuid.lt m.id o.id = true)) := by
  unfold yarnTip at h
  obtain ⟨t, ht, h⟩ := bind_some h
  have q := findOpMeta_still (st := t.1) (m := t.2.1) (c' := t.2.2) hm hc.sorted ht
  have hl := findOpMeta_known (st := t.1) (m := t.2.1) (c' := t.2.2) hm hc ht
  split at h
  · rename_i hy
    split at h
    · obtain ⟨r, hr, h⟩ := map_some h
      cases h; exact ⟨q, Or.inl ⟨hy, root_id hr⟩⟩
    · split at h
      · cases h; exact absurd hok ‹_›
      · split at h <;> (cases h; exact absurd hok (by decide))
  · rename_i hy
    split at h
    · cases h; exact absurd hok ‹_›
    · rename_i hok1
      split at h
      · cases h; exact absurd hok (by decide)
      · rename_i hge
        cases h
        refine ⟨q, Or.inr ⟨hy, (hl (ok_of_not_not hok1)).1, ?_⟩⟩
        unfold Uuid.ge at hge
        simpa using hge


theorem next_obj {hs : Hashing} {m m' r : OpMeta} {o : AOp} (h : m.next hs o r = some m') :
    m'.object = r.object ∧ m'.rdt = r.rdt := by
  unfold OpMeta.next at h
  split at h
  · cases h; exact ⟨rfl, rfl⟩
  · cases h

theorem root_obj {hs : Hashing} {m m' : OpMeta} {o : AOp} (h : OpMeta.root hs o m = some m') :
    m'.object = o.id ∧ m'.rdt = o.ref := by
  unfold OpMeta.root at h
  split at h
  · cases h; exact ⟨rfl, rfl⟩
  · cases h

/-- An id in a log is that of an event. -/
theorem _root_.Ron.Spec.LogHas.time {c : Commit} (hc : Fine c) {obj id : Uuid} (h : LogHas c.all obj id) :
    id.version = Uuid.vTIME := by
  obtain ⟨b, hb, rfl⟩ := h
  exact (hc.filed.logs _ _ (form_log _) hb).1

/-- The metadata of the first op of a chain: it begins an object, or the object is that of the op it
refers to. -/
def Headed (s : MemStore) (m : OpMeta) (o : AOp) : Prop :=
  (o.ref.version = Uuid.vNAME ∧ m.object = o.id ∧ m.rdt = o.ref) ∨
  (o.ref.version = Uuid.vTIME ∧ LogHas s m.object o.ref ∧ Created s m.object m.rdt)

theorem headMeta_known {env : Env} (hm : Honest env.mg) {c c' : Commit} (hc : Fine c) {tip m : OpMeta} {o : AOp}
    {st : Status} (h : c.headMeta env tip o = some (st, m, c')) (hok : st.ok = true)
    (ht : o.ref = tip.id → Known c.all tip) (hv : o.ref.version = Uuid.vNAME ∨ o.ref.version = Uuid.vTIME)
    (hne : o.ref.version = Uuid.vTIME → o.ref.value ≠ NEVER) :
    Still c c' ∧ m.id = o.id ∧ Headed c.all m o := by
  unfold headMeta at h
  split at h
  · rename_i hr
    obtain ⟨r, hr', h⟩ := map_some h
    cases h
    obtain ⟨e1, e2⟩ := next_obj hr'
    have hk := ht hr
    refine ⟨Still.rfl' _, next_id hr', Or.inr ⟨?_, ?_, ?_⟩⟩
    · rw [hr]; exact hk.has.time hc
    · rw [e1, hr]; exact hk.has
    · rw [e1, e2]; exact hk.created
  · split at h
    · rename_i hn
      split at h
      · cases h; exact absurd hok (by decide)
      · obtain ⟨r, hr', h⟩ := map_some h
        cases h
        obtain ⟨e1, e2⟩ := root_obj hr'
        exact ⟨Still.rfl' _, root_id hr', Or.inl ⟨hn, e1, e2⟩⟩
    · rename_i hn
      obtain ⟨r, hr, h⟩ := bind_some h
      have q := findOpMeta_still (st := r.1) (m := r.2.1) (c' := r.2.2) hm hc.sorted hr
      split at h
      · cases h; exact absurd hok ‹_›
      · rename_i hok1
        obtain ⟨n, hn', h⟩ := map_some h
        cases h
        obtain ⟨e1, e2⟩ := next_obj hn'
        obtain ⟨k, h2⟩ := findOpMeta_known (st := r.1) (m := r.2.1) (c' := r.2.2) hm hc hr (ok_of_not_not hok1)
        have hv := hv.resolve_left hn
        have e : r.2.1.id = o.ref := h2.resolve_right (hne hv)
        refine ⟨q, next_id hn', Or.inr ⟨hv, ?_, ?_⟩⟩
        · rw [e1, ← e]; exact k.has
        · rw [e1, e2]; exact k.created

/-- The ops collected so far follow the first one. -/
structure Follows (o : AOp) (obj rdt : Uuid) (m : OpMeta) (to : ABuilder) : Prop where
  object : m.object = obj
  rdt : m.rdt = rdt
  time : m.id.version = Uuid.vTIME
  first : o.body ∈ to.bodies
  last : ∃ b ∈ to.bodies, b.1 = m.id
  steps : ∀ b ∈ to.bodies, b = o.body ∨ (b.1.version = Uuid.vTIME ∧ b.2.1.version = Uuid.vTIME ∧
    Uuid.lt b.2.1 b.1 = true ∧ ∃ x ∈ to.bodies, x.1 = b.2.1)

theorem sane_time {o : AOp} (h : (checkEventSanity o).ok = true) : o.id.version = Uuid.vTIME := by
  unfold checkEventSanity at h
  by_cases hv : o.id.version = Uuid.vTIME
  · exact hv
  · rw [if_pos hv] at h; exact absurd h (by decide)

theorem Follows.add {o : AOp} {obj rdt : Uuid} {m m' : OpMeta} {to : ABuilder} {p : AOp} {hs : Hashing}
    (h : Follows o obj rdt m to) (hr : p.ref = m.id) (hsane : (checkEventSanity p).ok = true)
    (hn : m.next hs p m = some m') : Follows o obj rdt m' (to.append p) := by
  obtain ⟨e1, e2⟩ := next_obj hn
  have sub : ∀ b ∈ to.bodies, b ∈ (to.append p).bodies := fun b hb => by
    rw [append_bodies]; exact List.mem_append_left _ hb
  refine ⟨e1.trans h.object, e2.trans h.rdt, ?_, sub _ h.first, ?_, fun b hb => ?_⟩
  · rw [next_id hn]; exact sane_time hsane
  · exact ⟨p.body, by rw [append_bodies]; simp, (next_id hn).symm⟩
  · rw [append_bodies] at hb
    rcases List.mem_append.1 hb with hb | hb
    · rcases h.steps b hb with h1 | ⟨h1, h2, h3, x, hx, e⟩
      · exact Or.inl h1
      · exact Or.inr ⟨h1, h2, h3, x, sub x hx, e⟩
    · rw [List.mem_singleton.1 hb]
      obtain ⟨x, hx, e⟩ := h.last
      rcases sane_ref hsane with ⟨h1, -⟩ | ⟨h1, h2⟩
      · rw [hr, h.time] at h1
        exact absurd h1.symm version_ne
      · exact Or.inr ⟨sane_time hsane, h1, h2, x, sub x hx, by rw [e]; exact hr.symm⟩

theorem chainletLoop_follows {hs : Hashing} {fin : Status} {o : AOp} {obj rdt : Uuid} : ∀ (ops : List AOp)
    {s s' : Chainlet} {st : Status} {rest : List AOp},
    chainletLoop hs fin s ops = some (st, s', rest) → Follows o obj rdt s.m s.to →
      Follows o obj rdt s'.m s'.to := by
  intro ops
  induction ops with
  | nil =>
    intro s s' st rest h hc
    simp only [chainletLoop] at h
    cases h; exact hc
  | cons p os ih =>
    intro s s' st rest h hc
    simp only [chainletLoop] at h
    split at h
    · exact ih h hc
    · split at h
      · rename_i hnext
        have href : p.ref = s.m.id := by
          unfold OpMeta.isNext at hnext
          simp only [Bool.and_eq_true, decide_eq_true_eq] at hnext
          exact hnext.2
        split at h
        · cases h; exact hc
        · rename_i hsane
          obtain ⟨m, hm, h⟩ := bind_some h
          have hc' : Follows o obj rdt m (s.to.append p) := hc.add href (ok_of_not_not hsane) hm
          split at h
          · split at h
            · cases h; exact hc'
            · exact ih h hc'
          · exact ih h hc'
      · split at h
        · split at h
          · cases h; exact hc
          · exact ih h hc
        · cases h; exact hc

theorem meta_name : (formUuid Form.META).version = Uuid.vNAME := by decide

/-- The records of a chain are added to the transaction. -/
theorem Fine.chain {c c' : Commit} (hc : Fine c) {o : AOp} {m m0 : OpMeta} {to : ABuilder} {extra : MemStore}
    {hs : Hashing} {obj rdt : Uuid} (ht : Follows o obj rdt m to)
    (hsane : (checkEventSanity o).ok = true) (href : o.ref ≠ formUuid Form.META)
    (hid : m0.id = o.id) (hobj : m0.object = obj) (hrdt : m0.rdt = rdt) (hh : Headed c.all m0 o)
    (hx : ∀ r ∈ extra, r.1.form = Form.META ∧ r.2 = m0.save hs)
    (hs : MemStore.Sorted c'.mem)
    (hmem : ∀ r, r ∈ c'.all ↔ r ∈ c.all ∨ r ∈ extra ∨ r = (Key.mk' obj Form.LOG, to.release) ∨
      r = (Key.ofUuids obj rdt, to.release)) : Fine c' := by
  subst hobj hrdt
  have mono : ∀ k b, HeldIn k c.all b → HeldIn k c'.all b := by
    rintro k b ⟨f, hf, h⟩
    exact ⟨f, (hmem _).2 (Or.inl hf), h⟩
  have monoL : ∀ k b, k.form = Form.LOG → HeldIn k c.all b → HeldIn k c'.all b := fun k b _ h => mono k b h
  have held : ∀ k b, HeldIn k c'.all b → HeldIn k c.all b ∨ (k.form = Form.META ∧ b = (m0.id,
      formUuid Form.META, [.uuid m0.object, .uuid m0.rdt, .str (‹Hashing›.text m0.hash)])) ∨
      (b ∈ to.bodies ∧ (k = Key.mk' m0.object Form.LOG ∨ k = Key.ofUuids m0.object m0.rdt)) := by
    rintro k b ⟨f, hf, p, hp, rfl⟩
    have mem : ∀ p ∈ to.release, p.body ∈ to.bodies := by
      intro p hp
      rw [← release_bodies]
      exact List.mem_map.2 ⟨p, hp, rfl⟩
    rcases (hmem _).1 hf with h | h | h | h
    · exact Or.inl ⟨f, h, p, hp, rfl⟩
    · obtain ⟨h1, h2⟩ := hx _ h
      refine Or.inr (Or.inl ⟨h1, ?_⟩)
      rw [show f = m0.save _ from h2] at hp
      rw [List.mem_singleton.1 hp]
      rfl
    · cases h; exact Or.inr (Or.inr ⟨mem p hp, Or.inl rfl⟩)
    · cases h; exact Or.inr (Or.inr ⟨mem p hp, Or.inr rfl⟩)
  have new : ∀ k b, (k = Key.mk' m0.object Form.LOG ∨ k = Key.ofUuids m0.object m0.rdt) → b ∈ to.bodies →
      HeldIn k c'.all b := by
    intro k b hk hb
    rw [← release_bodies] at hb
    obtain ⟨p, hp, e⟩ := List.mem_map.1 hb
    refine ⟨to.release, (hmem _).2 (Or.inr (Or.inr ?_)), p, hp, e⟩
    rcases hk with rfl | rfl
    · exact Or.inl rfl
    · exact Or.inr rfl
  have created : Created c'.all m0.object m0.rdt := by
    rcases hh with ⟨h1, h2, h3⟩ | ⟨-, -, h3⟩
    · refine ⟨by rw [h3]; exact h1, o.body, new _ _ (Or.inl rfl) ht.first, h2.symm, h3.symm⟩
    · exact h3.mono monoL
  have log : ∀ k b, (k = Key.mk' m0.object Form.LOG ∨ k = Key.ofUuids m0.object m0.rdt) → k.form = Form.LOG →
      b ∈ to.bodies → Rooted c'.all k b := by
    intro k b hk hf hb
    have hk' : k = Key.mk' m0.object Form.LOG := by
      rcases hk with e | e
      · exact e
      · rw [e]
        rw [e] at hf
        unfold Key.ofUuids at hf ⊢
        rw [form_mk] at hf
        rw [hf]
    rcases ht.steps b hb with rfl | ⟨h1, h2, h3, x, hx, e⟩
    · refine ⟨sane_time hsane, ?_⟩
      rcases sane_ref hsane with ⟨h1, h2⟩ | ⟨h1, h2⟩
      · refine Or.inl ⟨h1, h2, ?_⟩
        rcases hh with ⟨-, h4, -⟩ | ⟨h3, -⟩
        · rw [hk', h4]; rfl
        · exact absurd (h1.symm.trans h3) version_ne
      · refine Or.inr ⟨h1, h2, ?_⟩
        rcases hh with ⟨h3, -⟩ | ⟨-, ⟨x, hx, e⟩, -⟩
        · exact absurd (h3.symm.trans h1) version_ne
        · rw [hk']; exact ⟨x, mono _ _ hx, e⟩
    · exact ⟨h1, Or.inr ⟨h2, h3, x, new _ _ hk hx, e⟩⟩
  refine ⟨hs, fun k b hf hb => ?_, fun k b h1 h2 h3 h4 hb => ?_, fun k b hb e obj rdt rest ev => ?_⟩
  · rcases held k b hb with h | ⟨h, -⟩ | ⟨h, hk⟩
    · exact (hc.filed.logs k b hf h).mono fun x hx => mono k x hx
    · exact absurd (h.symm.trans hf) form_ne
    · exact log k b hk hf h
  · rcases held k b hb with h | ⟨h, -⟩ | ⟨h, hk⟩
    · obtain ⟨obj, rdt, e, hcr, hl⟩ := hc.filed.states k b h1 h2 h3 h4 h
      exact ⟨obj, rdt, e, hcr.mono monoL, mono _ _ hl⟩
    · exact absurd h h3
    · rcases hk with hk | hk
      · rw [hk] at h2; exact absurd (form_log _) h2
      · exact ⟨m0.object, m0.rdt, hk, created, new _ _ (Or.inl rfl) h⟩
  · rcases held k b hb with h | ⟨-, h⟩ | ⟨h, hk⟩
    · obtain ⟨h1, h2⟩ := hc.filed.index k b h e obj rdt rest ev
      exact ⟨h1.mono monoL, h2.mono monoL⟩
    · subst h
      simp only [List.cons.injEq, AVal.uuid.injEq] at ev
      obtain ⟨rfl, rfl, -⟩ := ev
      exact ⟨⟨o.body, new _ _ (Or.inl rfl) ht.first, hid.symm⟩, created⟩
    · rcases ht.steps b h with rfl | ⟨-, h2, -⟩
      · exact absurd e href
      · rw [e, meta_name] at h2
        exact absurd h2 version_ne

theorem storeChain_fine {env : Env} {c c' : Commit} {m : OpMeta} {o : AOp} {os rest : List AOp}
    {fin st : Status} (hc : Fine c) (hm : m.id = o.id) (ho : Headed c.all m o)
    (hsane : (checkEventSanity o).ok = true) (href : o.ref ≠ formUuid Form.META)
    (h : c.storeChain env m o os fin = some (st, c', rest)) (hok : st.ok = true) : Fine c' := by
  unfold storeChain at h
  have hw : ∀ w, (if o.ref ≠ m.id then c.write (Key.mk' o.id Form.META) (m.save env.hs)
      else (Status.OK, c)) = w → w.1.ok = true → ∃ extra : MemStore,
      (∀ r ∈ extra, r.1.form = Form.META ∧ r.2 = m.save env.hs) ∧ w.2.main = c.main ∧
      MemStore.Sorted w.2.mem ∧ ∀ r, r ∈ w.2.mem ↔ r ∈ c.mem ∨ r ∈ extra := by
    intro w hw hok
    split at hw
    · subst hw
      rw [write_ok hok]
      refine ⟨[(Key.mk' o.id Form.META, m.save env.hs)], ?_, rfl, MemStore.insert_sorted hc.sorted _ _, ?_⟩
      · intro r hr
        rw [List.mem_singleton.1 hr]
        exact ⟨form_meta _, rfl⟩
      · intro r
        rw [mem_insert, List.mem_singleton]
        exact or_comm
    · subst hw
      exact ⟨[], by simp, rfl, hc.sorted, by simp⟩
  revert h hw
  generalize (if o.ref ≠ m.id then c.write (Key.mk' o.id Form.META) (m.save env.hs)
      else (Status.OK, c)) = w
  intro h hw
  simp only at h
  split at h
  · cases h; exact absurd hok ‹_›
  · rename_i hwok
    obtain ⟨extra, hx, hmain, hsort, hmem⟩ := hw w rfl (ok_of_not_not hwok)
    obtain ⟨s, hs, h⟩ := map_some h
    obtain ⟨t, y, e⟩ := chainletLoop_keeps os (st := s.1) (s' := s.2.1) (rest := s.2.2) hs
    have hin : o.body ∈ (ABuilder.empty.append o).bodies := by
      rw [append_bodies]; simp [ABuilder.empty, ABuilder.bodies]
    have h0 : Follows o m.object m.rdt m (ABuilder.empty.append o) := by
      refine ⟨rfl, rfl, by rw [hm]; exact sane_time hsane, hin, ⟨_, hin, hm.symm⟩, fun b hb => Or.inl ?_⟩
      rw [append_bodies] at hb
      simpa [ABuilder.empty, ABuilder.bodies] using hb
    have ht := chainletLoop_follows os (st := s.1) (s' := s.2.1) (rest := s.2.2) hs h0
    split at h
    · cases h; exact absurd hok ‹_›
    · split at h
      · cases h; exact absurd hok ‹_›
      · split at h
        · cases h; exact absurd hok ‹_›
        · rename_i hok1
          rw [write_ok (ok_of_not_not hok1)] at h
          split at h
          · cases h; exact absurd hok ‹_›
          · rename_i hok2
            rw [write_ok (ok_of_not_not hok2)] at h
            cases h
            have e1 : s.2.1.c.main = c.main := by rw [e]; exact hmain
            have e2 : s.2.1.c.mem = w.2.mem := by rw [e]
            refine hc.chain (m0 := m) (extra := extra) ht hsane href hm rfl rfl ho hx ?_ ?_
            · show MemStore.Sorted (MemStore.insert _ _ (MemStore.insert _ _ s.2.1.c.mem))
              rw [e2]
              exact MemStore.insert_sorted (MemStore.insert_sorted hsort _ _) _ _
            · intro r
              show r ∈ s.2.1.c.main ++ MemStore.insert _ _ (MemStore.insert _ _ s.2.1.c.mem) ↔ _
              rw [e1, e2, List.mem_append, mem_insert, mem_insert, hmem, ht.object, ht.rdt]
              unfold all
              rw [List.mem_append]
              constructor
              · rintro (h | h | h | h | h)
                · exact Or.inl (Or.inl h)
                · exact Or.inr (Or.inr (Or.inr h))
                · exact Or.inr (Or.inr (Or.inl h))
                · exact Or.inl (Or.inr h)
                · exact Or.inr (Or.inl h)
              · rintro ((h | h) | h | h | h)
                · exact Or.inl h
                · exact Or.inr (Or.inr (Or.inr (Or.inl h)))
                · exact Or.inr (Or.inr (Or.inr (Or.inr h)))
                · exact Or.inr (Or.inr (Or.inl h))
                · exact Or.inr (Or.inl h)

/-- What is assumed of the ops received. -/
def Plain (o : AOp) : Prop :=
  (o.ref.version = Uuid.vTIME → o.ref.value ≠ NEVER) ∧ o.ref ≠ formUuid Form.META

theorem saveChain_fine {env : Env} (hm : Honest env.mg) {c c' : Commit} {cur cur' : ACur} {st : Status}
    (hc : Fine c) (hn : ∀ o ∈ cur.ops, Plain o)
    (h : c.saveChain env cur = some (st, c', cur')) (hok : st.ok = true) : Fine c' := by
  unfold saveChain at h
  match hops : cur.ops with
  | [] => rw [hops] at h; cases h
  | o :: os =>
    rw [hops] at h hn
    simp only at h
    split at h
    · cases h; exact absurd hok ‹_›
    · rename_i hsane
      have hsane := ok_of_not_not hsane
      obtain ⟨t, ht, h⟩ := bind_some h
      split at h
      · cases h; exact absurd hok ‹_›
      · rename_i hok1
        obtain ⟨q1, l1⟩ := yarnTip_known (st := t.1) (m := t.2.1) (c' := t.2.2) hm hc ht (ok_of_not_not hok1)
        obtain ⟨g, hg, h⟩ := bind_some h
        have hc1 := hc.still q1
        split at h
        · cases h; exact absurd hok ‹_›
        · rename_i hok2
          have hid := sane_time hsane
          obtain ⟨q2, e, l2⟩ := headMeta_known (st := g.1) (m := g.2.1) (c' := g.2.2) hm hc1 hg
            (ok_of_not_not hok2) (fun e => by
              rcases l1 with ⟨h1, h2⟩ | ⟨-, h2, -⟩
              · rw [h2, h1] at e
                rw [← e, yarn_name] at hid
                exact absurd hid version_ne
              · exact h2.mono q1.logs)
            ((sane_ref hsane).imp And.left And.left) (hn o List.mem_cons_self).1
          obtain ⟨r, hr, h⟩ := map_some h
          cases h
          refine storeChain_fine (st := r.1) (c' := r.2.1) (rest := r.2.2) (hc1.still q2) e ?_ hsane
            (hn o List.mem_cons_self).2 hr hok
          rcases l2 with l2 | ⟨h1, h2, h3⟩
          · exact Or.inl l2
          · exact Or.inr ⟨h1, h2.mono q2.logs, h3.mono q2.logs⟩

theorem writeNewEvents_fine {env : Env} {c c' : Commit} {cur cur' : ACur} {st : Status} (hc : Fine c)
    (h : c.writeNewEvents env cur = some (st, c', cur')) : Fine c' := by
  rw [writeNewEvents_eq] at h
  cases h
  exact hc.still (Still.of rfl rfl)

theorem txtWrite_fine {env : Env} (hm : Honest env.mg) {c c' : Commit} {cur cur' : ACur} {st : Status} (hc : Fine c)
    (h : c.txtWrite env cur = some (st, c', cur')) : Fine c' := by
  unfold txtWrite at h
  split at h
  · cases h
  · split at h
    · obtain ⟨r, hr, h⟩ := bind_some h
      have hc1 := hc.still (read_still (st := r.1) (f := r.2.1) (c' := r.2.2) hm hc.sorted hr).1
      split at h
      · cases h; exact hc1
      · split at h
        · cases h
        · cases h; exact hc1
        · obtain ⟨w, hw, h⟩ := map_some h
          cases h
          exact writeNewEvents_fine (st := w.1) (c' := w.2.1) (cur' := w.2.2)
            (by exact hc1.still (Still.of rfl rfl)) hw
    · cases h; exact hc

theorem receiveWrites_fine {env : Env} (hm : Honest env.mg) {c c' : Commit} {cur cur' : ACur} {st : Status}
    (hc : Fine c) (h : c.receiveWrites env cur = some (st, c', cur')) : Fine c' := by
  unfold receiveWrites at h
  split at h
  · cases h
  · split at h
    · exact writeNewEvents_fine hc h
    · split at h
      · cases h; exact hc
      · simp only at h
        split at h
        · exact writeNewEvents_fine hc h
        · split at h
          · exact txtWrite_fine hm hc h
          · cases h; exact hc

theorem receiveQuery_fine {env : Env} (hm : Honest env.mg) {c c' : Commit} {cur cur' : ACur} {st : Status}
    (hc : Fine c) (h : c.receiveQuery env cur = some (st, c', cur')) : Fine c' := by
  unfold receiveQuery at h
  split at h
  · cases h
  · simp only at h
    split at h
    · unfold queryObject at h
      obtain ⟨r, hr, h⟩ := map_some h
      have hc1 := hc.still (read_still (st := r.1) (f := r.2.1) (c' := r.2.2) hm hc.sorted hr).1
      split at h <;> (cases h; exact hc1)
    · split at h
      · unfold queryObjectLog at h
        simp only at h
        obtain ⟨m, hm', h⟩ := bind_some h
        have hc1 := hc.still (findOpMeta_still (st := m.1) (m := m.2.1) (c' := m.2.2) hm hc.sorted hm')
        split at h
        · cases h; exact hc1
        · obtain ⟨r, hr, h⟩ := bind_some h
          have hc2 := hc1.still (read_still (st := r.1) (f := r.2.1) (c' := r.2.2) hm hc1.sorted hr).1
          repeat' (split at h)
          all_goals first
            | (cases h; exact hc2)
            | cases h
      · cases h; exact hc

theorem receiveMapQuery_fine {env : Env} (hm : Honest env.mg) {c c' : Commit} {cur cur' : ACur} {st : Status}
    (hc : Fine c) (h : c.receiveMapQuery env cur = some (st, c', cur')) : Fine c' := by
  unfold receiveMapQuery at h
  split at h
  · cases h
  · split at h
    · obtain ⟨r, hr, h⟩ := map_some h
      have hc1 := hc.still (read_still (st := r.1) (f := r.2.1) (c' := r.2.2) hm hc.sorted hr).1
      split at h <;> (cases h; exact hc1)
    · cases h; exact hc

theorem receiveMapWrites_fine {env : Env} (hm : Honest env.mg) {c c' : Commit} {cur cur' : ACur} {st : Status}
    (hc : Fine c) (h : c.receiveMapWrites env cur = some (st, c', cur')) : Fine c' := by
  unfold receiveMapWrites at h
  split at h
  · cases h
  · split at h
    · exact txtWrite_fine hm hc h
    · cases h; exact hc

/-- Adding a record of names or of the tip. -/
theorem _root_.Ron.Spec.Filed.add {s t : MemStore} {r : Key × Frame} (h : Filed (formUuid Form.META) NAMES s)
    (hr : r.1 = NAMES ∨ r.1 = Key.ZERO) (ho : ∀ o ∈ r.2, o.ref ≠ formUuid Form.META)
    (ht : ∀ x, x ∈ t ↔ x = r ∨ x ∈ s) : Filed (formUuid Form.META) NAMES t := by
  have mono : ∀ k b, HeldIn k s b → HeldIn k t b := by
    rintro k b ⟨f, hf, h⟩
    exact ⟨f, (ht _).2 (Or.inr hf), h⟩
  have monoL : ∀ k b, k.form = Form.LOG → HeldIn k s b → HeldIn k t b := fun k b _ h => mono k b h
  have held : ∀ k b, HeldIn k t b → HeldIn k s b ∨ (k = r.1 ∧ b.2.1 ≠ formUuid Form.META) := by
    rintro k b ⟨f, hf, p, hp, rfl⟩
    rcases (ht _).1 hf with rfl | hx
    · exact Or.inr ⟨rfl, ho p hp⟩
    · exact Or.inl ⟨f, hx, p, hp, rfl⟩
  have hl : r.1.form ≠ Form.LOG := by
    rcases hr with e | e
    · rw [e, show NAMES.form = Form.LWW from form_mk _ _]; decide
    · rw [e]; decide
  refine ⟨fun k b hf hb => ?_, fun k b h1 h2 h3 h4 hb => ?_, fun k b hb e obj rdt rest ev => ?_⟩
  · rcases held k b hb with hb | ⟨rfl, -⟩
    · exact (h.logs k b hf hb).mono fun x hx => mono k x hx
    · exact absurd hf hl
  · rcases held k b hb with hb | ⟨rfl, -⟩
    · obtain ⟨obj, rdt, e, hcr, hl⟩ := h.states k b h1 h2 h3 h4 hb
      exact ⟨obj, rdt, e, hcr.mono monoL, mono _ _ hl⟩
    · rcases hr with e | e
      · exact absurd e h4
      · rw [e] at h1; exact absurd (by decide) h1
  · rcases held k b hb with hb | ⟨-, hb⟩
    · obtain ⟨h1, h2⟩ := h.index k b hb e obj rdt rest ev
      exact ⟨h1.mono monoL, h2.mono monoL⟩
    · exact absurd e hb

theorem writeName_fine {env : Env} {c c' : Commit} {cur cur' : ACur} {st : Status}
    (hc : Fine c) (h : c.writeName env cur = some (st, c', cur')) : Fine c' := by
  unfold writeName at h
  split at h
  · cases h
  · split at h
    · split at h
      · cases h; exact hc
      · cases h
        have hne : ¬ (Key.mk' Uuid.NIL Form.LWW = Key.END) := by decide
        simp only [putName, Engine.write, hne, false_and, if_false]
        have hok : Status.OK.ok = true := by decide
        rw [if_pos hok]
        refine ⟨hc.sorted, ?_⟩
        show Filed _ _ (MemStore.insert NAMES _ _ ++ c.mem)
        refine Spec.Filed.add (r := (NAMES, _)) hc.filed
          (Or.inl rfl) ?_
          (fun x => by rw [List.mem_append, mem_insert]; unfold all; rw [List.mem_append]; exact or_assoc)
        intro o ho
        rw [List.mem_singleton.1 ho]
        show Uuid.NIL ≠ _
        decide
    · cases h; exact hc

theorem dispatch_fine {env : Env} (hm : Honest env.mg) {c c' : Commit} {cur cur' : ACur} {st : Status}
    (hc : Fine c) (hn : ∀ o ∈ cur.ops, Plain o)
    (h : c.dispatch env cur = some (st, c', cur')) (hok : st.ok = true) : Fine c' := by
  unfold dispatch at h
  split at h
  · cases h
  · split at h
    · split at h
      · exact receiveQuery_fine hm hc h
      · split at h
        · exact saveChain_fine hm hc hn h hok
        · exact receiveWrites_fine hm hc h
    · split at h
      · split at h
        · exact receiveMapQuery_fine hm hc h
        · exact receiveMapWrites_fine hm hc h
      · split at h
        · split at h
          · cases h; exact hc
          · split at h
            · exact writeName_fine hc h
            · cases h; exact hc
        · cases h; exact hc

theorem receiveLoop_fine {env : Env} (hm : Honest env.mg) : ∀ (fuel : Nat) {c c' : Commit} {cur : ACur}
    {st : Status}, Fine c →
    (∀ o ∈ cur.ops, Plain o) →
    receiveLoop env fuel c cur = some (st, c') → st.ok = true → Fine c' := by
  intro fuel
  induction fuel with
  | zero => intro c c' cur st _ _ h; cases h
  | succ n ih =>
    intro c c' cur st hc hn h hok
    simp only [receiveLoop] at h
    split at h
    · cases h; exact hc
    · rename_i hv
      obtain ⟨r, hr, h⟩ := bind_some h
      split at h
      · cases h; exact absurd hok ‹_›
      · rename_i hok'
        have hc1 := dispatch_fine (st := r.1) (c' := r.2.1) (cur' := r.2.2) hm hc hn hr (ok_of_not_not hok')
        split at h
        · obtain ⟨-, ⟨pre, e⟩, -⟩ := dispatch_named (st := r.1) (c' := r.2.1) (cur' := r.2.2)
            (by simpa using hv) hr
          exact ih hc1 (fun o ho => hn o (by rw [e]; exact List.mem_append_right _ ho)) h hok
        · cases h; exact hc1

/-- The main store alone stays filed whatever happens. -/
theorem dispatch_main_filed {env : Env} {c c' : Commit} {cur cur' : ACur} {st : Status}
    (hc : Filed (formUuid Form.META) NAMES c.main) (hv : cur.valid = true)
    (h : c.dispatch env cur = some (st, c', cur')) : Filed (formUuid Form.META) NAMES c'.main := by
  by_cases hn : ∃ o os, cur.ops = o :: os ∧ o.id = NAME_UUID
  · obtain ⟨o, os, hops, hid⟩ := hn
    have e : c.writeName env cur = some (st, c', cur') := by
      rw [← h]
      unfold dispatch
      rw [hops]
      simp only [hid]
      rw [if_neg (by decide), if_neg (by decide), if_pos (by decide), if_neg (by decide), if_pos trivial]
    have hi : Fine { c with mem := [] } :=
      ⟨List.Pairwise.nil, by unfold all; rw [List.append_nil]; exact hc⟩
    unfold writeName at e
    rw [hops] at e
    simp only at e
    split at e
    · split at e
      · cases e; exact hc
      · have hne : ¬ (Key.mk' Uuid.NIL Form.LWW = Key.END) := by decide
        simp only [putName, Engine.write, hne, false_and, if_false] at e
        have hok : Status.OK.ok = true := by decide
        rw [if_pos hok] at e
        cases e
        refine Spec.Filed.add (r := (NAMES, _)) hc (Or.inl rfl)
          ?_ (fun x => mem_insert)
        intro o ho
        rw [List.mem_singleton.1 ho]
        show Uuid.NIL ≠ _
        decide
    · cases e; exact hc
  · rw [(dispatch_step hv (fun o os e hid => hn ⟨o, os, e, hid⟩) h).keeps.main]
    exact hc

theorem receiveLoop_main_filed {env : Env} : ∀ (fuel : Nat) {c c' : Commit} {cur : ACur}
    {st : Status}, Filed (formUuid Form.META) NAMES c.main →
    receiveLoop env fuel c cur = some (st, c') → Filed (formUuid Form.META) NAMES c'.main := by
  intro fuel
  induction fuel with
  | zero => intro c c' cur st _ h; cases h
  | succ n ih =>
    intro c c' cur st hc h
    simp only [receiveLoop] at h
    split at h
    · cases h; exact hc
    · rename_i hv
      obtain ⟨r, hr, h⟩ := bind_some h
      have hc1 := dispatch_main_filed (st := r.1) (c' := r.2.1) (cur' := r.2.2) hc (by simpa using hv) hr
      split at h
      · cases h; exact hc1
      · split at h
        · exact ih hc1 h
        · cases h; exact hc1

theorem save_filed {c : Commit} (hc : Fine c) (hm : Filed (formUuid Form.META) NAMES c.main) :
    Filed (formUuid Form.META) NAMES (c.save).2.main := by
  rcases save_main c with ⟨-, h | h⟩ | ⟨-, h⟩
  · rw [h]; exact hm
  · rw [h]
    refine Spec.Filed.add (r := (Key.ZERO, [⟨c.tip, formUuid Form.ZERO, [], .raw⟩])) hc.filed (Or.inr rfl) ?_ ?_
    · intro o ho
      rw [List.mem_singleton.1 ho]
      exact zero_ref
    · intro x
      rw [mem_writeAll, mem_insert]
      unfold all
      rw [List.mem_append]
      constructor
      · rintro (h | h | h)
        · exact Or.inr (Or.inl h)
        · exact Or.inl h
        · exact Or.inr (Or.inr h)
      · rintro (h | h | h)
        · exact Or.inr (Or.inl h)
        · exact Or.inl h
        · exact Or.inr (Or.inr h)
  · rw [h]; exact hm

end Commit
end Ron
