import Verif.Lemmas.Lineage
/-!
Seeking and reading in a store that holds a history of chains, and in a transaction over it.
-/
namespace Ron
open Spec
namespace Commit

/-! ### Seeking -/

theorem seek_last {s : MemStore} {k : Key} (hs : KeyOrder s) {x : Key × Frame} (hx : x ∈ s) (hk : Key.lt k x.1 = false) :
    ∃ r ∈ s, (s.filter fun r => !Key.lt k r.1).getLast? = some r ∧ Key.lt k r.1 = false ∧
      ∀ y ∈ s, Key.lt k y.1 = false → Key.lt r.1 y.1 = false := by
  have hp : (s.filter fun r => !Key.lt k r.1).Pairwise fun a b => Key.lt b.1 a.1 = false := List.Pairwise.filter _ hs
  have hm : ∀ y, y ∈ (s.filter fun r => !Key.lt k r.1) ↔ y ∈ s ∧ Key.lt k y.1 = false := by
    intro y
    rw [List.mem_filter]
    simp
  rcases List.eq_nil_or_concat (s.filter fun r => !Key.lt k r.1) with e | ⟨pre, r, e⟩
  · have := (hm x).2 ⟨hx, hk⟩
    rw [e] at this
    cases this
  · rw [List.concat_eq_append] at e
    have hr := (hm r).1 (by rw [e]; simp)
    refine ⟨r, hr.1, by rw [e, List.getLast?_concat], hr.2, fun y hy hy' => ?_⟩
    have hy := (hm y).2 ⟨hy, hy'⟩
    rw [e] at hy hp
    rcases List.mem_append.1 hy with hy | hy
    · exact (List.pairwise_append.1 hp).2.2 y hy r (by simp)
    · rw [List.mem_singleton.1 hy]; exact Key.lt_irrefl _

theorem form_le {a b : Key} (h : Key.lt a b = false) : b.form.toNat ≤ a.form.toNat := by
  rw [Key.form_eq, Key.form_eq]
  have : ¬ Key.lt a b = true := by rw [h]; decide
  rw [Key.lt_iff] at this
  exact Nat.div_le_div_right (by omega)

theorem form_inj {f g : Form} (h : f.toNat = g.toNat) : f = g := UInt8.toNat_inj.1 h

/-- What the seek backwards in the records of the transaction finds. -/
theorem mem_seek {s : MemStore} (hs : KeyOrder s) (k : Key) :
    ((∀ r ∈ s, Key.lt k r.1 = true) ∧ (MemStore.Iter.fresh.seekTo s k true).key s = some Key.END) ∨
    ∃ r ∈ s, Key.lt k r.1 = false ∧ (∀ y ∈ s, Key.lt k y.1 = false → Key.lt r.1 y.1 = false) ∧
      (MemStore.Iter.fresh.seekTo s k true).key s = some r.1 ∧
      ((stored k s).length ≤ 1 → ∀ mg, ∃ it, (MemStore.Iter.fresh.seekTo s k true).value mg s = some (r.2, it)) := by
  open MemStore in
  obtain ⟨L, M, R, c⟩ := cut_exists hs k
  have eq := c.eq
  match M, c, eq with
  | m :: M', c, eq =>
    right
    have hm : m.1 = k := c.same m (by simp)
    have h1 : s[L.length]? = some m := by rw [eq]; simp
    have e : Iter.fresh.seekTo s k true = Iter.pos L (m :: (M' ++ R)) [] := by
      have hsc := Iter.scroll_at L (m :: (M' ++ R)) 0 []
      rw [show L ++ m :: (M' ++ R) = s by rw [eq]; simp] at hsc
      unfold Iter.seekTo
      rw [c.lower]
      simp only [h1]
      rw [if_neg (by simp [hm])]
      exact hsc
    refine ⟨m, by rw [eq]; simp, by rw [hm]; exact Key.lt_irrefl _, fun y _ h => by rw [hm]; exact h, ?_, ?_⟩
    · rw [e, show s = L ++ m :: (M' ++ R) by rw [eq]; simp, Iter.key_at]; rfl
    · intro hl mg
      have hM : M' = [] := by
        have : recs k s = (m :: M').map Prod.snd := c.recs
        rw [show stored k s = _ from this] at hl
        simpa using hl
      subst hM
      have hg : grp (m :: R) = 1 := by
        unfold grp
        cases R with
        | nil => simp [Iter.run]
        | cons x R =>
          have := (Key.lt_ne (c.more x (by simp))).symm
          simp [Iter.run, hm, this]
      rw [e]
      refine ⟨Iter.pos L (m :: ([] ++ R)) [], ?_⟩
      unfold Iter.value
      simp only [List.nil_append, hg, if_neg (show ¬ (1 : Nat) = 0 by omega), if_true, h1, Option.map_some]
  | [], c, eq =>
    simp only [List.nil_append] at eq
    rcases List.eq_nil_or_concat L with rfl | ⟨L', r, rfl⟩
    · left
      simp only [List.nil_append] at eq
      subst eq
      refine ⟨c.more, ?_⟩
      have e : Iter.fresh.seekTo s k true = ⟨s.length, s.length, 0, []⟩ := by
        unfold Iter.seekTo
        rw [c.lower]
        cases s with
        | nil => rfl
        | cons r R =>
          simp only [List.length_nil, List.getElem?_cons_zero]
          rw [if_pos ⟨trivial, (Key.lt_ne (c.more r (by simp))).symm⟩, if_neg (by simp)]
          rfl
      rw [e]
      rfl
    · right
      have hrk := c.less r (by simp)
      have eq' : s = L' ++ r :: R := by rw [eq]; simp
      have hlow : lower k s = L'.length + 1 := by rw [c.lower]; simp
      have hg : grp (r :: R) = 1 := by
        unfold grp
        cases R with
        | nil => simp [Iter.run]
        | cons x R =>
          have := (Key.lt_ne (Key.lt_trans hrk (c.more x (by simp)))).symm
          simp [Iter.run, this]
      have e : Iter.fresh.seekTo s k true = Iter.pos L' (r :: R) [] := by
        have hsc := Iter.scroll_at L' (r :: R) 0 []
        rw [← eq'] at hsc
        unfold Iter.seekTo
        rw [hlow]
        cases hx : s[L'.length + 1]? with
        | none =>
          simp only [hx]
          rw [if_pos ⟨trivial, by rw [eq']; simp⟩]
          exact hsc
        | some x =>
          simp only [hx]
          have hxR : x ∈ R := by
            rw [eq', List.getElem?_append_right (by omega)] at hx
            simp only [Nat.add_sub_cancel_left, List.getElem?_cons_succ] at hx
            exact List.mem_of_getElem? hx
          rw [if_pos ⟨trivial, (Key.lt_ne (c.more x hxR)).symm⟩, if_pos (by omega)]
          exact hsc
      refine ⟨r, by rw [eq']; simp, Key.lt_asymm hrk, fun y hy hky => ?_, ?_, fun _ mg => ?_⟩
      · rw [eq'] at hy hs
        rcases List.mem_append.1 hy with h | h
        · exact (List.pairwise_append.1 hs).2.2 _ h r (by simp)
        · rcases List.mem_cons.1 h with h | h
          · rw [← h]; exact Key.lt_irrefl _
          · have := c.more _ h
            simp only [hky] at this; cases this
      · rw [e, eq', Iter.key_at]; rfl
      · rw [e]
        refine ⟨Iter.pos L' (r :: R) [], ?_⟩
        unfold Iter.value
        have : s[L'.length]? = some r := by rw [eq']; simp
        simp only [hg, if_neg (show ¬ (1 : Nat) = 0 by omega), if_true, this, Option.map_some]

/-! ### Reading -/

variable {wh : Bool} {H F : List Chain} {note : Uuid → List Nat} {s : MemStore} {v : Rdt.View}

theorem _root_.Ron.Spec.Stands.nil {form : Form} : Stands wh form [] [] :=
  ⟨fun _ h => (by cases h), fun h => absurd rfl h, fun _ _ h => (by cases h), fun _ _ h => (by cases h), fun _ => rfl⟩

theorem _root_.Ron.Spec.Stands.weaken {form : Form} {C : List Chain} {fs : List Frame} (h : Stands true form C fs) :
    Stands wh form C fs := ⟨h.part, h.some, h.order, h.all, fun _ => h.exact rfl⟩

theorem _root_.Ron.Spec.Stands.append {form : Form} {C D : List Chain} {fs gs : List Frame} (h : Stands wh form C fs)
    (h' : Stands wh form D gs) : Stands wh form (C ++ D) (fs ++ gs) := by
  refine ⟨fun f hf => ?_, fun hn hf => ?_, fun hi f hf => ?_, fun hi c hc x hx => ?_, fun hw => ?_⟩
  · rcases List.mem_append.1 hf with hf | hf
    · refine ⟨(h.part f hf).1, fun o ho => ?_⟩
      obtain ⟨c, hc, r⟩ := (h.part f hf).2 o ho
      exact ⟨c, List.mem_append_left _ hc, r⟩
    · refine ⟨(h'.part f hf).1, fun o ho => ?_⟩
      obtain ⟨c, hc, r⟩ := (h'.part f hf).2 o ho
      exact ⟨c, List.mem_append_right _ hc, r⟩
  · obtain ⟨hf, hg⟩ := List.append_eq_nil_iff.1 hf
    apply hn
    rw [Classical.byContradiction fun hC => h.some hC hf, Classical.byContradiction fun hD => h'.some hD hg]
    rfl
  · rcases List.mem_append.1 hf with hf | hf
    · exact h.order hi f hf
    · exact h'.order hi f hf
  · rcases List.mem_append.1 hc with hc | hc
    · obtain ⟨f, hf, r⟩ := h.all hi c hc x hx
      exact ⟨f, List.mem_append_left _ hf, r⟩
    · obtain ⟨f, hf, r⟩ := h'.all hi c hc x hx
      exact ⟨f, List.mem_append_right _ hf, r⟩
  · rw [h.exact hw, h'.exact hw, List.map_append]

theorem mem_stored {s : MemStore} {k : Key} {f : Frame} : f ∈ stored k s ↔ (k, f) ∈ s := mem_recs

theorem filter_head (L : Sound H) {c : Chain} (hc : c ∈ H) :
    (H.filter fun d => decide (Key.mk' d.head.id Form.META = Key.mk' c.head.id Form.META)) = [c] := by
  have hall : ∀ d ∈ (H.filter fun d => decide (Key.mk' d.head.id Form.META = Key.mk' c.head.id Form.META)), d = c := by
    intro d hd
    obtain ⟨hd, e⟩ := List.mem_filter.1 hd
    have e := (Props.C08_key_injective _ _ _ _ (L.proper d hd).stamp.event (L.proper c hc).stamp.event
      (of_decide_eq_true e)).1
    exact L.only hd hc (by rw [e]) ⟨c.head, List.mem_cons_self, rfl⟩ (by rw [e]; exact Nat.le_refl _)
      (by rw [e]; exact Nat.le_refl _)
  have hp := List.Pairwise.filter (fun d => decide (Key.mk' d.head.id Form.META = Key.mk' c.head.id Form.META)) L.order
  have hmem : c ∈ (H.filter fun d => decide (Key.mk' d.head.id Form.META = Key.mk' c.head.id Form.META)) :=
    List.mem_filter.2 ⟨hc, by simp⟩
  generalize (H.filter fun d => decide (Key.mk' d.head.id Form.META = Key.mk' c.head.id Form.META)) = l at *
  match l, hall, hp, hmem with
  | [d], hall, _, _ => rw [hall d (by simp)]
  | d :: e :: l, hall, hp, _ =>
    have h1 := hall d (by simp)
    have h2 := hall e (by simp)
    rw [h1, h2] at hp
    have := (List.pairwise_cons.1 hp).1 c (by simp) rfl c.head List.mem_cons_self
    omega

theorem read_index (L : Sound H) (K : Retains wh H note s) {c : Chain} (hc : c ∈ H) :
    ∃ e es, Engine.read (Rdt.mergeCursors v) s (Key.mk' c.head.id Form.META) = some (Status.OK, e :: es) ∧
      e.body = (c.entry note).body := by
  have ho : Engine.operands s (Key.mk' c.head.id Form.META) = [[c.entry note]] := by
    show stored _ s = _
    rw [K.index _ (form_mk _ _), filter_head L hc]
    rfl
  unfold Engine.read
  rw [if_neg (Key.mk_ne_end (by decide)), ho]
  simp only
  rw [form_mk, show withOps [[c.entry note]] = [[c.entry note]] from rfl]
  obtain ⟨out, e, -, h2, h3⟩ := Props.C35_meta_latest v [[c.entry note]]
    (fun i hi => by rw [List.mem_singleton.1 hi]; exact List.pairwise_singleton _ _)
  rw [e]
  obtain ⟨o, ho', -⟩ := (h2 c.head.id).2 ⟨c.entry note, by simp, rfl⟩
  match out, ho', h3 with
  | x :: xs, _, h3 =>
    obtain ⟨⟨y, hy, hb⟩, -⟩ := h3 x List.mem_cons_self
    have : y = c.entry note := by simpa using hy
    subst this
    exact ⟨x, xs, rfl, hb.symm⟩

/-- The events of a record of a log are events of the object. -/
theorem log_ops (K : Retains wh H note s) {r : Key × Frame} (hr : r ∈ s) (hk : r.1.form = Form.LOG) {o : AOp} (ho : o ∈ r.2) :
    ∃ c ∈ H, Key.mk' c.object Form.LOG = r.1 ∧ ∃ x ∈ c.ops, x.body = o.body := by
  obtain ⟨x, hx, e⟩ := Rdt.mem_body (K.log r.1 hk) (List.mem_flatten.2 ⟨r.2, mem_stored.2 hr, ho⟩)
  obtain ⟨c, hc, hx⟩ := List.mem_flatMap.1 hx
  obtain ⟨hc, e'⟩ := List.mem_filter.1 hc
  exact ⟨c, hc, of_decide_eq_true e', x, hx, e⟩

theorem log_full (K : Retains wh H note s) {r : Key × Frame} (hr : r ∈ s) (hk : r.1.form = Form.LOG) : r.2 ≠ [] := by
  intro e
  exact K.full r.1 hk (by rw [← e]; exact mem_stored.2 hr)

theorem log_chain (K : Retains wh H note s) {r : Key × Frame} (hr : r ∈ s) (hk : r.1.form = Form.LOG) :
    ∃ c, c ∈ H.filter fun c => decide (Key.mk' c.object Form.LOG = r.1) := by
  obtain ⟨o, ho⟩ := List.exists_mem_of_ne_nil _ (log_full K hr hk)
  obtain ⟨c, hc, e, -⟩ := log_ops K hr hk ho
  exact ⟨c, List.mem_filter.2 ⟨hc, by simp [e]⟩⟩

theorem log_mem (K : Retains wh H note s) {c : Chain} (hc : c ∈ H) : ∃ f, (Key.mk' c.object Form.LOG, f) ∈ s := by
  have h := K.log (Key.mk' c.object Form.LOG) (form_mk _ _)
  have hm : c.head.body ∈ (stored (Key.mk' c.object Form.LOG) s).flatten.map AOp.body := by
    rw [h]
    exact List.mem_map_of_mem (List.mem_flatMap.2 ⟨c, List.mem_filter.2 ⟨hc, by simp⟩, List.mem_cons_self⟩)
  obtain ⟨o, ho, -⟩ := List.mem_map.1 hm
  obtain ⟨f, hf, -⟩ := List.mem_flatten.1 ho
  exact ⟨f, mem_stored.1 hf⟩

theorem read_log (K : Retains wh H note s) {k : Key} (hk : k.form = Form.LOG) :
    ∃ l, Engine.read (Rdt.mergeCursors v) s k = some (Status.OK, l) ∧
      l.map AOp.body = ((H.filter fun c => decide (Key.mk' c.object Form.LOG = k)).flatMap Chain.ops).map AOp.body := by
  have hb := K.log k hk
  have hne : k ≠ Key.END := by
    intro e
    rw [e] at hk
    exact absurd hk (by decide)
  unfold Engine.read
  rw [if_neg hne, show Engine.operands s k = stored k s from rfl]
  generalize stored k s = fs at hb
  cases fs with
  | nil => exact ⟨[], rfl, hb⟩
  | cons f fs =>
    simp only
    rw [hk, (Props.C36_log_concat v (withOps (f :: fs))).1]
    exact ⟨_, rfl, by rw [Rdt.closeLast_body, Rdt.withOps_flatten]; exact hb⟩

/-- Reading a log in the records of the transaction; the records of the log may become one. -/
theorem mem_read (K : Retains true F note s) {k : Key} (hk : k.form = Form.LOG) :
    ∃ l s', s.read (Rdt.mergeCursors v) k [] = some (Status.OK, l, s') ∧
      l.map AOp.body = ((F.filter fun c => decide (Key.mk' c.object Form.LOG = k)).flatMap Chain.ops).map AOp.body ∧
      Retains true F note s' ∧ ((∀ r ∈ s, r.1.form ≠ Form.ZERO) → ∀ r ∈ s', r.1.form ≠ Form.ZERO) := by
  have hb := K.log k hk
  rcases MemStore.read_eq (Rdt.mergeCursors v) K.sorted k [] with ⟨h, e⟩ | ⟨f, h, e⟩ | ⟨h, hh⟩
  · refine ⟨_, _, e, ?_, K, fun h => h⟩
    rw [← hb, show stored k s = [] from h]
    rfl
  · refine ⟨_, _, e, ?_, K, fun h => h⟩
    rw [← hb, show stored k s = [f] from h]
    simp
  · rw [hk, (Props.C36_log_concat v (withOps (MemStore.recs k s))).1] at hh
    rcases hh with ⟨h', -⟩ | ⟨st, out, s', h', e, hs, hr, ho⟩
    · cases h'
    · cases h'
      rw [if_pos (by decide)] at e hr
      have hbody : (Rdt.closeLast (withOps (MemStore.recs k s)).flatten).map AOp.body =
          ((F.filter fun c => decide (Key.mk' c.object Form.LOG = k)).flatMap Chain.ops).map AOp.body := by
        rw [Rdt.closeLast_body, Rdt.withOps_flatten]
        exact hb
      have hmem : ∀ r : Key × Frame, r.1 ≠ k → (r ∈ s' ↔ r ∈ s) := by
        intro r hrk
        rw [← mem_stored (k := r.1) (f := r.2), ← mem_stored (k := r.1) (f := r.2)]
        rw [show stored r.1 s' = stored r.1 s from ho r.1 hrk]
      have hne : ∀ j : Key, j.form ≠ Form.LOG → j ≠ k := by
        intro j hj e
        rw [e] at hj
        exact hj hk
      refine ⟨_, s', e, hbody, ⟨hs, ?_, ?_, ?_, ?_, ?_⟩, ?_⟩
      · intro j hj
        by_cases hjk : j = k
        · subst hjk
          rw [show stored j s' = _ from hr, ← hbody]
          simp
        · rw [show stored j s' = stored j s from ho j hjk]
          exact K.log j hj
      · intro j hj
        by_cases hjk : j = k
        · subst hjk
          rw [show stored j s' = _ from hr, List.mem_singleton]
          intro e
          rw [← e] at hbody
          rw [← hb] at hbody
          have hz : (stored j s).flatten = [] := by simpa using hbody.symm
          have : ∀ f ∈ stored j s, f = [] := by
            intro f hf
            exact List.eq_nil_iff_forall_not_mem.2 fun x hx => by
              have := List.mem_flatten.2 ⟨f, hf, hx⟩
              rw [hz] at this
              cases this
          match hst : stored j s with
          | [] =>
            rw [show MemStore.recs j s = stored j s from rfl, hst] at h
            simp at h
          | f :: fs => exact K.full j hj (by rw [hst, this f (by rw [hst]; simp)]; simp)
        · rw [show stored j s' = stored j s from ho j hjk]
          exact K.full j hj
      · intro j hj
        rw [show stored j s' = stored j s from ho j (hne j (by rw [hj]; decide))]
        exact K.index j hj
      · intro j h1 h2 h3
        rw [show stored j s' = stored j s from ho j (hne j h1)]
        exact K.state j h1 h2 h3
      · intro r hr hz
        exact K.tips r ((hmem r (hne _ (by rw [hz]; decide))).1 hr) hz
      · intro h r hr hz
        exact h r ((hmem r (hne _ (by rw [hz]; decide))).1 hr) hz

theorem punctuate_ne {o : AOp} {os : List AOp} : punctuate (o :: os) ≠ [] := by
  intro e
  have := congrArg (List.map AOp.id) e
  rw [Rdt.punctuate_id] at this
  cases this

theorem _root_.Ron.Spec.Stands.chain {form : Form} {c : Chain} (P : Proper c.head c.rest) :
    Stands wh form [c] [punctuate c.ops] := by
  refine ⟨fun f hf => ?_, fun _ h => (by cases h), fun _ f hf => ?_, fun _ d hd x hx => ?_, fun _ => rfl⟩
  · rw [List.mem_singleton.1 hf]
    refine ⟨punctuate_ne, fun o ho => ⟨c, List.mem_singleton.2 rfl, ?_⟩⟩
    obtain ⟨x, hx, e⟩ := Rdt.mem_body (Rdt.punctuate_body c.ops) ho
    exact ⟨x, hx, e⟩
  · rw [List.mem_singleton.1 hf]
    exact (Rdt.punctuate_sorted _).2 (chain_sorted P.chained)
  · rw [List.mem_singleton.1 hd] at hx
    obtain ⟨o, ho, e⟩ := Rdt.mem_body (Rdt.punctuate_body c.ops).symm hx
    exact ⟨_, List.mem_singleton.2 rfl, o, ho, e⟩

/-- A record with a key below those of metadata is not a record of the beginning of a chain. -/
theorem read_low (L : Sound H) (K : Retains wh H note s) {r : Key × Frame} (hr : r ∈ s)
    (hl : r.1.form.toNat < Form.META.toNat) :
    ∃ o f, Engine.read (Rdt.mergeCursors v) s r.1 = some (Status.OK, o :: f) ∧ o.ref ≠ formUuid Form.META := by
  have hmem : r.2 ∈ stored r.1 s := mem_stored.2 hr
  have hne : r.1 ≠ Key.END := by
    intro e
    rw [e] at hl
    revert hl
    decide
  by_cases hz : r.1.form = Form.ZERO
  · obtain ⟨x, hx, h1, h2⟩ := read_zero_form v s hz
    obtain ⟨x1, x2⟩ := x
    cases h1
    have : ∃ i, ((Engine.operands s r.1).getLast?.bind fun f => f.head?) = some ⟨i, formUuid Form.ZERO, [], .raw⟩ := by
      have hmem : r.2 ∈ Engine.operands s r.1 := hmem
      rcases List.eq_nil_or_concat (Engine.operands s r.1) with e | ⟨pre, f, e⟩
      · rw [e] at hmem; cases hmem
      · rw [List.concat_eq_append] at e
        have hf : (r.1, f) ∈ s := mem_stored.1 (show f ∈ Engine.operands s r.1 by rw [e]; simp)
        obtain ⟨-, i, hi⟩ := K.tips _ hf hz
        simp only at hi
        exact ⟨i, by rw [e, List.getLast?_concat, hi]; rfl⟩
    obtain ⟨i, hi⟩ := this
    have := h2 _ hi hne
    match x2, this, hx with
    | o :: f, this, hx =>
      refine ⟨o, f, hx, ?_⟩
      have : o.ref = formUuid Form.ZERO := congrArg (fun b : Uuid × Uuid × List AVal => b.2.1) (Option.some.inj this)
      rw [this]
      decide +kernel
  · by_cases hlog : r.1.form = Form.LOG
    · obtain ⟨l, hl, hb⟩ := read_log (v := v) K hlog
      obtain ⟨c, hc⟩ := log_chain K hr hlog
      have hx : ∀ o ∈ l, o.ref ≠ formUuid Form.META := by
        intro o ho
        have : o.body ∈ l.map AOp.body := List.mem_map_of_mem ho
        rw [hb] at this
        obtain ⟨x, hx, e⟩ := List.mem_map.1 this
        obtain ⟨d, hd, hx⟩ := List.mem_flatMap.1 hx
        have := ops_not_meta (L.proper d (List.mem_filter.1 hd).1) x hx
        rwa [show x.ref = o.ref from congrArg (fun b : Uuid × Uuid × List AVal => b.2.1) e] at this
      have hnil : l ≠ [] := by
        rintro rfl
        rw [List.map_nil, eq_comm, List.map_eq_nil_iff] at hb
        have : c.head ∈ (H.filter fun c => decide (Key.mk' c.object Form.LOG = r.1)).flatMap Chain.ops :=
          List.mem_flatMap.2 ⟨c, hc, List.mem_cons_self⟩
        rw [hb] at this
        cases this
      match l, hnil, hx, hl with
      | o :: f, _, hx, hl => exact ⟨o, f, hl, hx o List.mem_cons_self⟩
    · have hmeta : r.1.form ≠ Form.META := by
        intro e
        rw [e] at hl
        omega
      have ho := K.state r.1 hlog hmeta hz
      obtain ⟨hne0, hp⟩ := ho.part _ hmem
      obtain ⟨o0, ho0⟩ := List.exists_mem_of_ne_nil _ hne0
      obtain ⟨c, hc, -⟩ := hp o0 ho0
      obtain ⟨hcH, e⟩ := List.mem_filter.1 hc
      have e := of_decide_eq_true e
      have hform : r.1.form = Form.YARN := by
        have ht := (L.object c hcH).2
        rw [← e] at hl ⊢
        unfold Key.ofUuids at hl ⊢
        rw [form_mk] at hl ⊢
        exact types_low ht hl
      obtain ⟨out, e1, -, h2, h3, -⟩ := Rdt.merge_id v (f := Form.YARN) (by unfold Rdt.ById; decide)
        (withOps (stored r.1 s)) (fun i hi => ho.order (by rw [hform]; decide) i (mem_withOps.1 hi).1)
      have hfrom : ∀ o ∈ out, o.ref ≠ formUuid Form.META := by
        intro o ho'
        obtain ⟨x, hx, hb⟩ := h3 o ho'
        obtain ⟨f, hf, hx⟩ := List.mem_flatten.1 hx
        obtain ⟨d, hd, y, hy, hyb⟩ := (ho.part f (mem_withOps.1 hf).1).2 x hx
        have := ops_not_meta (L.proper d (List.mem_filter.1 hd).1) y hy
        rwa [show y.ref = o.ref from congrArg (fun b : Uuid × Uuid × List AVal => b.2.1) (hyb.trans hb)] at this
      have hread : Engine.read (Rdt.mergeCursors v) s r.1 = some (Status.OK, out) := by
        unfold Engine.read
        rw [if_neg hne, show Engine.operands s r.1 = stored r.1 s from rfl]
        match hst : stored r.1 s, hmem with
        | g :: gs, _ =>
          simp only
          rw [← hst, hform, e1]
          rfl
      have hnil : out ≠ [] := by
        rintro rfl
        obtain ⟨o, ho', -⟩ := (h2 o0.id).2 ⟨o0, List.mem_flatten.2 ⟨_, mem_withOps.2 ⟨hmem, hne0⟩, ho0⟩, rfl⟩
        cases ho'
      match out, hnil, hfrom, hread with
      | o :: f, _, hx, hl => exact ⟨o, f, hl, hx o List.mem_cons_self⟩

/-! ### The beginning of a chain -/

/-- The metadata of the beginning of a chain. -/
def headOf (c : Chain) : OpMeta := ⟨c.head.id, c.rdt, c.object, OpMeta.nil.hash, NEVER, c.head.id.value⟩

theorem index_mem (L : Sound H) (K : Retains wh H note s) {d : Chain} (hd : d ∈ H) :
    ∃ f, (Key.mk' d.head.id Form.META, f) ∈ s := by
  have h := K.index (Key.mk' d.head.id Form.META) (form_mk _ _)
  rw [filter_head L hd] at h
  exact ⟨_, mem_stored.1 (by rw [h]; exact List.mem_cons_self)⟩

/-! ### Transactions -/

/-- In the middle of a frame: `H` is in the store, `F` are the chains of the frame so far. -/
structure Mid (wh : Bool) (H F : List Chain) (note : Uuid → List Nat) (c : Commit) : Prop where
  main : Carries wh H note c.main
  mem : Retains true F note c.mem
  low : ∀ r ∈ c.mem, r.1.form ≠ Form.ZERO

theorem mid_start (K : Carries wh H note s) (tip : Uuid) (now : Word) : Mid wh H [] note (start s tip now) := by
  refine ⟨K, ⟨List.Pairwise.nil, fun _ _ => rfl, fun _ _ h => ?_, fun _ _ => rfl, fun _ _ _ _ => Stands.nil, fun r h => ?_⟩, fun r h => ?_⟩ <;>
    cases h

end Commit
end Ron
