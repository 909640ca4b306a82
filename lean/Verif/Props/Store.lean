import Verif.Lemmas.StoreSeek
import Verif.Props.Merge
/-!
Stores: C38–C42, C55, C56.
-/
namespace Ron.Props
open Ron Rdt Spec MemStore

/-- Test data. -/
private def u (v o : Nat) : Uuid := ⟨BitVec.ofNat 64 v, BitVec.ofNat 64 o⟩
private def op (i r : Nat) (vals : List AVal := []) (t : Term := .reduced) : AOp :=
  ⟨u i 7, u r 7, vals, t⟩
private def noView : View := ⟨fun _ _ => false, fun _ => op 0 0⟩
private def key (v : Nat) (f : Form) : Key := Key.mk' (u v 7) f

/-! ## C38 — a read returns the merge of everything written -/

/-- The full claim: after any sequence of reads and writes, whenever the frames written to a key
can be merged, reading gives the events of this merge. -/
def C38_claim : Prop := ∀ (v : View) (cmds : List Cmd) (k : Key) (res m : Frame) (s : MemStore),
  execAll (mergeCursors v) [] cmds = some s →
  mergeCursors v k.form (withOps (written k cmds)) = some (Status.OK, m) →
  ∃ out s', s.read (mergeCursors v) k res = some (Status.OK, out, s') ∧ SameEvents out m

/-- It fails: a causal tree written out of order. A read in between fails because an op is not
there yet, and what was written until then is gone. -/
theorem C38_violated : ¬ C38_claim := by
  intro h
  obtain ⟨out, s', h1, h2⟩ := h noView
    [.write (key 1 Form.RGA) [op 1 0], .write (key 1 Form.RGA) [op 3 2], .read (key 1 Form.RGA) [],
      .write (key 1 Form.RGA) [op 2 1]] (key 1 Form.RGA) []
    [op 1 0, op 2 1, op 3 2 [] .raw]
    [(key 1 Form.RGA, []), (key 1 Form.RGA, [op 2 1])]
    (by decide +kernel) (by decide +kernel)
  have e : MemStore.read (mergeCursors noView) [(key 1 Form.RGA, []), (key 1 Form.RGA, [op 2 1])]
      (key 1 Form.RGA) [] =
      some (Status.OK, [op 2 1 [] .raw], [(key 1 Form.RGA, [op 2 1 [] .raw])]) := by decide +kernel
  rw [e] at h1
  cases h1
  obtain ⟨o, ho, e⟩ := (h2 (op 1 0).body).2 ⟨op 1 0, by simp, rfl⟩
  rw [List.mem_singleton.1 ho] at e
  revert e; decide

/-- Forms merged by id, from any store, with any interleaving of reads and writes of this and of
other keys: reading succeeds and gives all the events there were and all that were written, in
order; that is, up to punctuation, their merge. -/
theorem C38_read_partial (v : View) (s : MemStore) (cmds : List Cmd) (k : Key) (res : Frame)
    (hf : k.form = Form.LWW ∨ k.form = Form.MX ∨ k.form = Form.YARN) (hs : KeyOrder s)
    (hsort : ∀ f ∈ stored k s ++ written k cmds, IdSorted f)
    (hc : Consistent (stored k s ++ written k cmds).flatten) :
    ∃ t out t' m, execAll (mergeCursors v) s cmds = some t ∧
      t.read (mergeCursors v) k res = some (Status.OK, out, t') ∧ IdSorted out ∧
      SameEvents out (stored k s ++ written k cmds).flatten ∧
      mergeCursors v k.form (stored k s ++ written k cmds) = some (Status.OK, m) ∧
      out.map AOp.body = m.map AOp.body := by
  have hmerge : ∀ r W : List Frame, ((∀ f ∈ r, IdSorted f) ∧ SameEvents r.flatten W.flatten) →
      Consistent W.flatten → ∃ out, mergeCursors v k.form (withOps r) = some (Status.OK, out) ∧
        (∀ f ∈ [out], IdSorted f) ∧ SameEvents [out].flatten W.flatten := by
    intro r W hi hc
    obtain ⟨out, e, h1, h2, _⟩ := merge_id_same v hf r hi.1 (Rdt.Consistent.of_same hi.2 hc)
    refine ⟨out, by rw [mergeCursors_withOps v hf]; exact e, by simpa using h1, ?_⟩
    simpa using Rdt.SameEvents.trans h2 hi.2
  obtain ⟨t, e1, ht, hi⟩ := exec_inv (mergeCursors v) (mergeCursors_some v) k
    (fun W => (∀ f ∈ W, IdSorted f) ∧ Consistent W.flatten)
    (fun r W => (∀ f ∈ r, IdSorted f) ∧ SameEvents r.flatten W.flatten)
    (fun a b h => ⟨fun f hf => h.1 f (List.mem_append_left _ hf), fun x hx y hy =>
      h.2 x (by rw [List.flatten_append]; exact List.mem_append_left _ hx) y
        (by rw [List.flatten_append]; exact List.mem_append_left _ hy)⟩)
    (fun r W f hi hok => ⟨fun g hg => by
        rcases List.mem_append.1 hg with hg | hg
        · exact hi.1 g hg
        · exact hok.1 g (List.mem_append_right _ hg),
      by
        rw [List.flatten_append, List.flatten_append]
        exact Rdt.SameEvents.append hi.2 fun _ => .rfl⟩)
    (fun r W hi hok _ => hmerge r W hi hok.2)
    cmds s (stored k s) hs
    ⟨fun f hf => hsort f (List.mem_append_left _ hf), fun _ => .rfl⟩ ⟨hsort, hc⟩
  obtain ⟨out, t', e2, h⟩ := read_inv (mergeCursors v) k
    (fun r W => (∀ f ∈ r, IdSorted f) ∧ SameEvents r.flatten W.flatten) ht hi
    (fun _ => hmerge _ _ hi hc) res
  obtain ⟨m, e3, m1, m2, _⟩ := merge_id_same v hf _ hsort hc
  have ho : IdSorted out ∧ SameEvents out (stored k s ++ written k cmds).flatten := by
    rcases h with h | ⟨rfl, h⟩
    · exact ⟨by simpa using h.1, by simpa using h.2⟩
    · exact ⟨List.Pairwise.nil, by simpa using h.2⟩
  exact ⟨t, out, t', m, e1, e2, ho.1, ho.2, e3,
    sorted_unique out m ho.1 m1 (Rdt.SameEvents.trans ho.2 (Rdt.SameEvents.symm m2))⟩

/-- Logs: reading gives everything written in the order of writing. -/
theorem C38_log_partial (v : View) (s : MemStore) (cmds : List Cmd) (k : Key) (res : Frame)
    (hf : k.form = Form.LOG) (hs : KeyOrder s) :
    ∃ t out t', execAll (mergeCursors v) s cmds = some t ∧
      t.read (mergeCursors v) k res = some (Status.OK, out, t') ∧
      out.map AOp.body = (stored k s ++ written k cmds).flatten.map AOp.body := by
  have hmerge : ∀ r W : List Frame, r.flatten.map AOp.body = W.flatten.map AOp.body →
      ∃ out, mergeCursors v k.form (withOps r) = some (Status.OK, out) ∧
        [out].flatten.map AOp.body = W.flatten.map AOp.body := by
    intro r W hi
    rw [hf]
    obtain ⟨e, _⟩ := C36_log_concat v (withOps r)
    refine ⟨_, e, ?_⟩
    rw [List.flatten_cons, List.flatten_nil, List.append_nil, closeLast_body, withOps_flatten]
    exact hi
  obtain ⟨t, e1, ht, hi⟩ := exec_inv (mergeCursors v) (mergeCursors_some v) k (fun _ => True)
    (fun r W => r.flatten.map AOp.body = W.flatten.map AOp.body) (fun _ _ _ => trivial)
    (fun r W f hi _ => by simp only [List.flatten_append, List.map_append, hi])
    (fun r W hi _ _ => hmerge r W hi) cmds s (stored k s) hs rfl trivial
  obtain ⟨out, t', e2, h⟩ := read_inv (mergeCursors v) k
    (fun r W => r.flatten.map AOp.body = W.flatten.map AOp.body) ht hi (fun _ => hmerge _ _ hi) res
  refine ⟨t, out, t', e1, e2, ?_⟩
  rcases h with h | ⟨rfl, h⟩
  · simpa using h
  · simpa using h

/-- Metadata: for every id ever written there is one record, with the greatest reference. -/
theorem C38_meta_partial (v : View) (s : MemStore) (cmds : List Cmd) (k : Key) (res : Frame)
    (hf : k.form = Form.META) (hs : KeyOrder s)
    (hsort : ∀ f ∈ stored k s ++ written k cmds, IdSorted f) :
    ∃ t out t', execAll (mergeCursors v) s cmds = some t ∧
      t.read (mergeCursors v) k res = some (Status.OK, out, t') ∧ IdSorted out ∧
      (∀ o ∈ out, ∃ x ∈ (stored k s ++ written k cmds).flatten, x.body = o.body) ∧
      ∀ x ∈ (stored k s ++ written k cmds).flatten, ∃ o ∈ out, o.id = x.id ∧ Uuid.lt o.ref x.ref = false := by
  let Inv : List Frame → List Frame → Prop := fun r W => (∀ f ∈ r, IdSorted f) ∧
    (∀ o ∈ r.flatten, ∃ x ∈ W.flatten, x.body = o.body) ∧
    ∀ x ∈ W.flatten, ∃ o ∈ r.flatten, o.id = x.id ∧ Uuid.lt o.ref x.ref = false
  have hmerge : ∀ r W : List Frame, Inv r W →
      ∃ out, mergeCursors v k.form (withOps r) = some (Status.OK, out) ∧ Inv [out] W := by
    rintro r W ⟨h1, h2, h3⟩
    rw [hf, mergeMeta_withOps]
    obtain ⟨out, e, g1, g2, g3⟩ := C35_meta_latest v r h1
    refine ⟨out, e, by simpa using g1, ?_, ?_⟩
    · intro o ho
      simp only [List.flatten_cons, List.flatten_nil, List.append_nil] at ho
      obtain ⟨⟨x, hx, ex⟩, _⟩ := g3 o ho
      obtain ⟨y, hy, ey⟩ := h2 x hx
      exact ⟨y, hy, ey.trans ex⟩
    · intro x hx
      obtain ⟨o, ho, hid, hlt⟩ := h3 x hx
      obtain ⟨p, hp, hpid⟩ := (g2 o.id).2 ⟨o, ho, rfl⟩
      refine ⟨p, by simpa using hp, hpid.trans hid, ?_⟩
      have := (g3 p hp).2 o ho hpid.symm
      cases hl : Uuid.lt p.ref x.ref
      · rfl
      · by_cases e : o.ref = p.ref
        · rw [← e, hlt] at hl; cases hl
        · have h := uuid_lin.trans _ _ _ (uuid_lin.of_not this (Ne.symm e)) hl
          rw [hlt] at h; cases h
  obtain ⟨t, e1, ht, hi⟩ := exec_inv (mergeCursors v) (mergeCursors_some v) k
    (fun W => ∀ f ∈ W, IdSorted f) Inv (fun a b h f hf => h f (List.mem_append_left _ hf))
    (by
      rintro r W f ⟨h1, h2, h3⟩ hok
      refine ⟨fun g hg => ?_, ?_, ?_⟩
      · rcases List.mem_append.1 hg with hg | hg
        · exact h1 g hg
        · exact hok g (List.mem_append_right _ hg)
      · intro o ho
        rw [List.flatten_append] at ho ⊢
        rcases List.mem_append.1 ho with ho | ho
        · obtain ⟨x, hx, e⟩ := h2 o ho
          exact ⟨x, List.mem_append_left _ hx, e⟩
        · exact ⟨o, List.mem_append_right _ ho, rfl⟩
      · intro x hx
        rw [List.flatten_append] at hx ⊢
        rcases List.mem_append.1 hx with hx | hx
        · obtain ⟨o, ho, e⟩ := h3 x hx
          exact ⟨o, List.mem_append_left _ ho, e⟩
        · exact ⟨x, List.mem_append_right _ hx, rfl, uuid_lin.irrefl _⟩)
    (fun r W hi _ _ => hmerge r W hi) cmds s (stored k s) hs
    ⟨fun f hf => hsort f (List.mem_append_left _ hf), fun o ho => ⟨o, ho, rfl⟩,
      fun x hx => ⟨x, hx, rfl, uuid_lin.irrefl _⟩⟩ hsort
  obtain ⟨out, t', e2, h⟩ := read_inv (mergeCursors v) k Inv ht hi (fun _ => hmerge _ _ hi) res
  refine ⟨t, out, t', e1, e2, ?_⟩
  rcases h with ⟨h1, h2, h3⟩ | ⟨rfl, h1, h2, h3⟩
  · exact ⟨by simpa using h1, by simpa using h2, by simpa using h3⟩
  · exact ⟨List.Pairwise.nil, by simp, by simpa using h3⟩

/-- Commands for other keys do not matter, whatever they do (all forms). -/
theorem C38_other_keys_partial (v : View) (s s' : MemStore) (c : Cmd) (k : Key) (hs : KeyOrder s)
    (h : exec (mergeCursors v) s c = some s') (hk : c.key ≠ k) :
    KeyOrder s' ∧ stored k s' = stored k s :=
  ⟨(exec_other _ hs c h).1, (exec_other _ hs c h).2 k hk.symm⟩

example : (execAll (mergeCursors noView) (opened (u 9 9))
    [.write (key 1 Form.LWW) [op 1 0, op 3 1], .read (key 1 Form.LWW) [],
     .write (key 1 Form.LWW) [op 2 1], .write (key 2 Form.LWW) [op 5 5], .read (key 1 Form.LWW) [],
     .write (key 1 Form.LWW) [op 2 1, op 4 1]]).bind (fun s =>
      (s.read (mergeCursors noView) (key 1 Form.LWW) []).map fun r =>
        (r.1.ok, r.2.1.map fun o => o.id.value.toNat)) = some (true, [1, 2, 3, 4]) := by
  decide +kernel

/-! ## C39 — a failed read loses nothing -/

/-- The full claim. -/
def C39_claim : Prop := ∀ (v : View) (s s' : MemStore) (k j : Key) (res : Frame) (st : Status) (f : Frame),
  KeyOrder s → s.read (mergeCursors v) k res = some (st, f, s') → st.ok = false →
  stored j s' = stored j s

/-- It fails: the records are erased before the status is looked at, and what the caller's frame
held before is stored instead. -/
theorem C39_violated : ¬ C39_claim := by
  intro h
  have := h noView [(key 1 Form.RGA, [op 1 0]), (key 1 Form.RGA, [op 3 2])]
    [(key 1 Form.RGA, [op 8 8])] (key 1 Form.RGA) (key 1 Form.RGA) [op 8 8] Status.CAUSEBREAK [op 8 8]
    (by unfold KeyOrder; decide) (by decide +kernel) (by decide)
  revert this
  decide +kernel

/-- What holds: the other keys keep their data, and for all forms but causal trees and those
without a reducer no read fails. -/
theorem C39_no_failure_partial (v : View) (s : MemStore) (k : Key) (res : Frame) (hs : KeyOrder s) :
    ∃ st f s', s.read (mergeCursors v) k res = some (st, f, s') ∧
      (∀ j, j ≠ k → stored j s' = stored j s) ∧
      (NeverFails k.form → st = Status.OK) ∧
      ((stored k s).length ≤ 1 → st = Status.OK ∧ s' = s) := by
  rcases read_eq (mergeCursors v) hs k res with ⟨e, h⟩ | ⟨g, e, h⟩ | ⟨hl, ⟨e, h⟩ | ⟨st, out, s', e, h, _, _, h3⟩⟩
  · exact ⟨_, _, _, h, fun _ _ => rfl, fun _ => rfl, fun _ => ⟨rfl, rfl⟩⟩
  · exact ⟨_, _, _, h, fun _ _ => rfl, fun _ => rfl, fun _ => ⟨rfl, rfl⟩⟩
  · exact absurd e (mergeCursors_some v _ _)
  · refine ⟨_, _, _, h, h3, fun hn => ?_, fun hl' => ?_⟩
    · obtain ⟨st', out', e', h'⟩ := mergeCursors_total v k.form (withOps (stored k s))
      rw [e] at e'; cases e'
      exact h' hn
    · exact absurd hl (by
        have : (stored k s).length ≤ 1 := hl'
        show ¬ 2 ≤ (stored k s).length
        omega)

example : NeverFails (key 1 Form.LWW).form ∧ NeverFails (key 1 Form.MAX).form := by
  unfold NeverFails; decide +kernel

/-! ## C40 — iteration -/

private theorem seek_zero (s : MemStore) :
    Iter.fresh.seekTo s Key.ZERO = ⟨0, grp s, grp s, []⟩ := by
  have hl : lower Key.ZERO s = 0 := by
    cases s with
    | nil => rfl
    | cons r s => simp [lower, Key.zero_le]
  unfold Iter.seekTo
  rw [hl]
  cases s with
  | nil => simp [Iter.fresh, grp]
  | cons r s =>
    have := Iter.scroll_at [] (r :: s) 0 []
    simp only [List.nil_append, List.length_nil, Nat.zero_add] at this
    simpa [Iter.fresh] using this

/-- From the first key: every key with a record is visited once, in order, until the end is
reported; a value asked for is the one a read would have returned; and afterwards every read
gives what it gave before. It does not matter for which keys the value is asked for. -/
theorem C40_iteration (v : View) (look : Key → Bool) (s : MemStore) (hs : KeyOrder s) :
    ∃ out s' it, visit (mergeCursors v) look (s.length + 1) s (Iter.fresh.seekTo s Key.ZERO) =
        some (out, s', it) ∧ it.key s' = some Key.END ∧
      out.Pairwise (fun a b => Key.lt a.1 b.1 = true) ∧
      (∀ k, (∃ x, (k, x) ∈ out) ↔ k ≠ Key.END ∧ stored k s ≠ []) ∧
      (∀ k x, (k, x) ∈ out → (x.isSome ↔ look k = true)) ∧
      (∀ k x res st f t, (k, some x) ∈ out →
        s.read (mergeCursors v) k res = some (st, f, t) → st.ok = true → x = f) ∧
      (∀ k res st f t, s.read (mergeCursors v) k res = some (st, f, t) → st.ok = true →
        ∃ st' t', s'.read (mergeCursors v) k res = some (st', f, t') ∧ st'.ok = true) := by
  obtain ⟨out, s', it, e, hk, vis⟩ := Iter.visit_spec (mergeCursors v) look (mergeCursors_some v)
    (s.length + 1) [] s (by omega) (by simpa using hs) (by simp)
  simp only [List.nil_append, List.length_nil, Nat.zero_add] at e vis
  rw [← seek_zero] at e
  have val : ∀ k res st f t, s.read (mergeCursors v) k res = some (st, f, t) → st.ok = true →
      readVal (mergeCursors v) k (recs k s) = some (st, f) := by
    intro k res st f t h hok
    rcases read_eq (mergeCursors v) hs k res with ⟨e, h'⟩ | ⟨g, e, h'⟩ | ⟨hl, ⟨e, h'⟩ | ⟨st', out, s', e, h', _⟩⟩
    · rw [h'] at h; cases h; rw [e]; rfl
    · rw [h'] at h; cases h; rw [e]; rfl
    · rw [h'] at h; cases h
    · rw [h'] at h; cases h
      rw [if_pos hok]
      match hr : recs k s, hl with
      | a :: b :: l, _ => rw [hr] at e; simp only [readVal]; exact e
  refine ⟨out, s', it, e, hk, vis.sorted, fun k => ?_, fun k x h => ?_, ?_, ?_⟩
  · rw [vis.keys k]
    have : (∃ f, (k, f) ∈ s) ↔ stored k s ≠ [] := by
      unfold stored
      rw [Ne, List.map_eq_nil_iff, List.filter_eq_nil_iff]
      constructor
      · rintro ⟨f, hf⟩ h
        exact h (k, f) hf (by simp)
      · intro h
        apply Classical.byContradiction
        intro hn
        apply h
        intro r hr
        simp only [decide_eq_true_eq]
        intro e
        exact hn ⟨r.2, by rw [← e]; exact hr⟩
    rw [this]
  · have := vis.looked k x h
    cases x <;> cases hl : look k <;> simp [hl] at this ⊢
  · intro k x res st f t h hr hok
    exact vis.vals k x st f h (val k res st f t hr hok) hok
  · intro k res st f t hr hok
    obtain ⟨st', h1, h2⟩ := (vis.store.2 k st f (val k res st f t hr hok)).1 hok
    obtain ⟨t', ht⟩ := read_val (mergeCursors v) vis.store.1 k res st' f h2
    rw [if_pos h1] at ht
    exact ⟨st', t', ht, h1⟩

example : KeyOrder [(key 1 Form.LWW, [op 1 0, op 3 1]), (key 1 Form.LWW, [op 2 1]),
      (key 2 Form.LWW, [op 5 5]), (Key.END, [])] ∧
    (visit (mergeCursors noView) (fun _ => true) 5 [(key 1 Form.LWW, [op 1 0, op 3 1]),
      (key 1 Form.LWW, [op 2 1]), (key 2 Form.LWW, [op 5 5]), (Key.END, [])]
      (Iter.fresh.seekTo [(key 1 Form.LWW, [op 1 0, op 3 1]),
      (key 1 Form.LWW, [op 2 1]), (key 2 Form.LWW, [op 5 5]), (Key.END, [])] Key.ZERO)).map
      (fun r => r.1.map fun x => (x.1.lo.toNat % 16, x.2.map fun f => f.map fun o => o.id.value.toNat)) =
    some [(1, some [1, 2, 3]), (2, some [5])] := by
  refine ⟨by unfold KeyOrder; decide, by decide +kernel⟩

/-! ## C55 — iterators do not change data -/

/-- How an iterator is used. -/
inductive Move where
  | seek (k : Key) (prev : Bool)
  | value
  | next

/-- The effect of a move. -/
def move (mg : Reducer) (s : MemStore) (it : Iter) : Move → Option (MemStore × Iter)
  | .seek k prev => some (s, it.seekTo s k prev)
  | .value => (it.value mg s).map fun r => (s, r.2)
  | .next => (it.next s).map fun r => r.2

/-- The effect of a sequence of moves. -/
def moves (mg : Reducer) : MemStore → Iter → List Move → Option (MemStore × Iter)
  | s, it, [] => some (s, it)
  | s, it, m :: ms => (move mg s it m).bind fun r => moves mg r.1 r.2 ms

/-- The full claim: whatever is done with an iterator, successful reads stay the same. -/
def C55_claim : Prop := ∀ (v : View) (s s' : MemStore) (it : Iter) (ms : List Move) (k : Key)
  (st : Status) (f : Frame) (t : MemStore), KeyOrder s →
  moves (mergeCursors v) s Iter.fresh ms = some (s', it) →
  s.read (mergeCursors v) k [] = some (st, f, t) → st.ok = true →
  ∃ st' f' t', s'.read (mergeCursors v) k [] = some (st', f', t') ∧ SameEvents f' f

/-- It fails: `SeekTo` keeps the merged value of the place it leaves, and `Next` writes it over
the records of the place it has moved to. -/
theorem C55_violated : ¬ C55_claim := by
  intro h
  obtain ⟨st', f', t', h1, h2⟩ := h noView
    [(key 1 Form.LWW, [op 1 0]), (key 1 Form.LWW, [op 2 1]), (key 2 Form.LWW, [op 5 0]), (key 2 Form.LWW, [op 6 5])]
    [(key 1 Form.LWW, [op 1 0]), (key 1 Form.LWW, [op 2 1]), (key 2 Form.LWW, [op 1 0, op 2 1 [] .raw])]
    ⟨3, 3, 0, []⟩ [.seek (key 1 Form.LWW) false, .value, .seek (key 2 Form.LWW) false, .next]
    (key 2 Form.LWW) Status.OK [op 5 0, op 6 5 [] .raw]
    [(key 1 Form.LWW, [op 1 0]), (key 1 Form.LWW, [op 2 1]), (key 2 Form.LWW, [op 5 0, op 6 5 [] .raw])]
    (by unfold KeyOrder; decide) (by decide +kernel) (by decide +kernel) (by decide)
  have e : MemStore.read (mergeCursors noView)
      [(key 1 Form.LWW, [op 1 0]), (key 1 Form.LWW, [op 2 1]), (key 2 Form.LWW, [op 1 0, op 2 1 [] .raw])]
      (key 2 Form.LWW) [] = some (Status.OK, [op 1 0, op 2 1 [] .raw],
      [(key 1 Form.LWW, [op 1 0]), (key 1 Form.LWW, [op 2 1]), (key 2 Form.LWW, [op 1 0, op 2 1 [] .raw])]) := by
    decide +kernel
  rw [e] at h1
  cases h1
  obtain ⟨o, ho, e⟩ := (h2 (op 5 0).body).2 ⟨op 5 0, by simp, rfl⟩
  simp only [List.mem_cons, List.not_mem_nil, or_false] at ho
  rcases ho with rfl | rfl <;> revert e <;> decide

/-- A fresh iterator that goes through the store once, in whatever way the values are asked for,
leaves all reads as they are. -/
theorem C55_walk_partial (v : View) (look : Key → Bool) (s : MemStore) (hs : KeyOrder s) :
    ∃ out s' it, visit (mergeCursors v) look (s.length + 1) s (Iter.fresh.seekTo s Key.ZERO) =
        some (out, s', it) ∧
      ∀ k res st f t, s.read (mergeCursors v) k res = some (st, f, t) → st.ok = true →
        ∃ st' t', s'.read (mergeCursors v) k res = some (st', f, t') ∧ st'.ok = true := by
  obtain ⟨out, s', it, e, _, _, _, _, _, h⟩ := C40_iteration v look s hs
  exact ⟨out, s', it, e, h⟩

/-! ## C56 — seeking -/

/-- The full claim, for a new iterator. -/
def C56_claim : Prop := ∀ (v : View) (s : MemStore) (k : Key) (prev : Bool), KeyOrder s →
  ∃ q, (Iter.fresh.seekTo s k prev).key s = some q ∧ Sought s k prev q ∧
    ∀ res st f t, q ≠ Key.END → s.read (mergeCursors v) q res = some (st, f, t) → st.ok = true →
      ∃ it, (Iter.fresh.seekTo s k prev).value (mergeCursors v) s = some (f, it)

/-- It fails: backwards the iterator only takes the last one of the records of the key. -/
theorem C56_violated : ¬ C56_claim := by
  intro h
  obtain ⟨q, h1, _, h2⟩ := h noView [(key 1 Form.LWW, [op 1 0]), (key 1 Form.LWW, [op 2 1])]
    (key 2 Form.LWW) true (by unfold KeyOrder; decide)
  have e : (Iter.fresh.seekTo [(key 1 Form.LWW, [op 1 0]), (key 1 Form.LWW, [op 2 1])]
    (key 2 Form.LWW) true).key [(key 1 Form.LWW, [op 1 0]), (key 1 Form.LWW, [op 2 1])] =
    some (key 1 Form.LWW) := by decide +kernel
  rw [e] at h1; cases h1
  obtain ⟨it, h3⟩ := h2 [] Status.OK [op 1 0, op 2 1 [] .raw]
    [(key 1 Form.LWW, [op 1 0, op 2 1 [] .raw])] (by decide +kernel) (by decide +kernel) (by decide)
  have e : ((Iter.fresh.seekTo [(key 1 Form.LWW, [op 1 0]), (key 1 Form.LWW, [op 2 1])]
    (key 2 Form.LWW) true).value (mergeCursors noView)
    [(key 1 Form.LWW, [op 1 0]), (key 1 Form.LWW, [op 2 1])]).map Prod.fst = some [op 2 1] := by decide +kernel
  rw [h3] at e
  simp only [Option.map_some, Option.some.injEq] at e
  revert e; decide

/-- Forwards a new iterator lands where it should, and has the value a read would return. -/
theorem C56_forward_partial (v : View) (s : MemStore) (k : Key) (hs : KeyOrder s) :
    ∃ q, (Iter.fresh.seekTo s k).key s = some q ∧ Sought s k false q ∧
      ∀ res st f t, q ≠ Key.END → s.read (mergeCursors v) q res = some (st, f, t) → st.ok = true →
        ∃ it, (Iter.fresh.seekTo s k).value (mergeCursors v) s = some (f, it) := by
  obtain ⟨A, B, rfl, e, hAB, hA, hB⟩ := Iter.seek_at hs k
  refine ⟨headKey B, by rw [e, Iter.key_at], ?_, ?_⟩
  · unfold Sought
    rw [if_neg (by decide)]
    cases B with
    | nil =>
      refine .inr ⟨rfl, fun j hj => ?_⟩
      obtain ⟨f, hf⟩ := mem_recs.2 hj
      simp only [List.append_nil] at hf
      exact hA _ hf
    | cons r B =>
      refine .inl ⟨mem_recs.1 ⟨r.2, by simp [headKey]⟩, hB r (by simp), fun j hj hk => ?_⟩
      obtain ⟨f, hf⟩ := mem_recs.2 hj
      rcases List.mem_append.1 hf with h | h
      · have := hA _ h; simp only at this; rw [hk] at this; cases this
      · rcases List.mem_cons.1 h with h | h
        · rw [← h]; exact Key.lt_irrefl _
        · exact (List.pairwise_cons.1 (List.pairwise_append.1 hs).2.1).1 _ h
  · intro res st f t hq hr hok
    cases B with
    | nil =>
      exact absurd rfl hq
    | cons r B =>
      obtain ⟨x, m, ev, hx, _⟩ := Iter.value_at (mergeCursors v) (mergeCursors_some v) hs hAB
      rw [e]
      exact ⟨_, by rw [ev, hx st f (read_readVal _ hs hr hok) hok]⟩

/-- Backwards a new iterator lands on the right key; if that is the key asked for, or has a
single record, the value is also right. -/
theorem C56_backward_partial (v : View) (s : MemStore) (k : Key) (hs : KeyOrder s) :
    ∃ q, (Iter.fresh.seekTo s k true).key s = some q ∧ Sought s k true q ∧
      ∀ res st f t, q ≠ Key.END → (q = k ∨ (stored q s).length = 1) →
        s.read (mergeCursors v) q res = some (st, f, t) → st.ok = true →
        ∃ it, (Iter.fresh.seekTo s k true).value (mergeCursors v) s = some (f, it) := by
  by_cases hk : stored k s ≠ []
  · -- the key itself: as forwards
    have e : Iter.fresh.seekTo s k true = Iter.fresh.seekTo s k := by
      obtain ⟨L, M, R, c⟩ := cut_exists hs k
      have hM : M ≠ [] := by
        rintro rfl; exact hk c.recs
      obtain ⟨r, M', rfl⟩ := List.exists_cons_of_ne_nil hM
      unfold Iter.seekTo
      rw [c.lower]
      have h1 : s[L.length]? = some r := by rw [c.eq]; simp
      simp only [h1]
      rw [if_neg (by simp [c.same r (by simp)]), if_neg (by simp)]
    obtain ⟨q, h1, h2, h3⟩ := C56_forward_partial v s k hs
    have hq : q = k := by
      unfold Sought at h2
      rw [if_neg (by decide)] at h2
      rcases h2 with ⟨_, h4, h5⟩ | ⟨_, h4⟩
      · rcases Key.lt_tri q k with h | h | h
        · rw [h4] at h; cases h
        · exact h
        · have := h5 k hk (Key.lt_irrefl k); rw [this] at h; cases h
      · have := h4 k hk; rw [Key.lt_irrefl] at this; cases this
    subst hq
    rw [e]
    refine ⟨q, h1, ?_, fun res st f t hq _ => h3 res st f t hq⟩
    unfold Sought
    rw [if_pos rfl]
    exact .inl ⟨hk, Key.lt_irrefl _, fun j _ h => h⟩
  · simp only [ne_eq, Decidable.not_not] at hk
    obtain ⟨L, M, R, c⟩ := cut_exists hs k
    have hM : M = [] := by
      have := c.recs
      unfold recs at this
      rw [hk] at this
      exact (List.map_eq_nil_iff.1 this.symm)
    subst hM
    have eq := c.eq
    simp only [List.nil_append] at eq
    rcases List.eq_nil_or_concat L with rfl | ⟨L', r, rfl⟩
    · -- everything is after it
      have e : Iter.fresh.seekTo s k true = ⟨s.length, s.length, 0, []⟩ := by
        unfold Iter.seekTo
        rw [c.lower]
        simp only [List.nil_append] at eq
        subst eq
        cases s with
        | nil => rfl
        | cons r R =>
          simp only [List.length_nil, List.getElem?_cons_zero]
          rw [if_pos ⟨trivial, (Key.lt_ne (c.more r (by simp))).symm⟩, if_neg (by simp)]
          rfl
      refine ⟨Key.END, by rw [e]; rfl, ?_, fun _ _ _ _ hq => absurd rfl hq⟩
      unfold Sought
      rw [if_pos rfl]
      refine .inr ⟨rfl, fun j hj => ?_⟩
      obtain ⟨f, hf⟩ := mem_recs.2 hj
      rw [eq] at hf
      exact c.more _ (by simpa using hf)
    · have hrk := c.less r (by simp)
      have eq' : s = L' ++ r :: R := by rw [eq]; simp
      have hlow : lower k s = L'.length + 1 := by rw [c.lower]; simp
      have hg : grp (r :: R) = 1 := by
        unfold grp
        cases R with
        | nil => simp [Iter.run]
        | cons x R =>
          have := (Key.lt_ne (Key.lt_trans hrk (c.more x (by simp)))).symm
          simp [Iter.run, this]
      have e : Iter.fresh.seekTo s k true = Iter.pos L' (r :: R) [] := by
        have hsc := Iter.scroll_at L' (r :: R) 0 []
        rw [← eq'] at hsc
        unfold Iter.seekTo
        rw [hlow]
        cases hx : s[L'.length + 1]? with
        | none =>
          simp only [hx]
          rw [if_pos ⟨trivial, by rw [eq']; simp⟩]
          exact hsc
        | some x =>
          simp only [hx]
          have hxR : x ∈ R := by
            rw [eq', List.getElem?_append_right (by omega)] at hx
            simp only [Nat.add_sub_cancel_left, List.getElem?_cons_succ] at hx
            exact List.mem_of_getElem? hx
          rw [if_pos ⟨trivial, (Key.lt_ne (c.more x hxR)).symm⟩, if_pos (by omega)]
          exact hsc
      have hkey : (Iter.fresh.seekTo s k true).key s = some r.1 := by
        rw [e, eq', Iter.key_at]; rfl
      refine ⟨r.1, hkey, ?_, ?_⟩
      · unfold Sought
        rw [if_pos rfl]
        refine .inl ⟨mem_recs.1 ⟨r.2, by rw [eq']; simp⟩, Key.lt_asymm hrk, fun j hj hkj => ?_⟩
        obtain ⟨f, hf⟩ := mem_recs.2 hj
        rw [eq'] at hf hs
        rcases List.mem_append.1 hf with h | h
        · exact (List.pairwise_append.1 hs).2.2 _ h r (by simp)
        · rcases List.mem_cons.1 h with h | h
          · rw [← h]; exact Key.lt_irrefl _
          · have := c.more _ h
            simp only [hkj] at this; cases this
      · intro res st f t _ hor hr hok
        rcases hor with h | h
        · rw [h, Key.lt_irrefl] at hrk; cases hrk
        · have hv : (Iter.fresh.seekTo s k true).value (mergeCursors v) s = some (r.2, Iter.pos L' (r :: R) []) := by
            rw [e]
            unfold Iter.value
            have : s[L'.length]? = some r := by rw [eq']; simp
            simp only [hg, if_neg (show ¬ (1 : Nat) = 0 by omega), if_true, this, Option.map_some]
          have hrv := read_readVal _ hs hr hok
          obtain ⟨g, hg1⟩ := List.length_eq_one_iff.1 h
          have hrm : r.2 ∈ stored r.1 s := by
            unfold stored
            rw [eq']
            exact List.mem_map.2 ⟨r, by simp, rfl⟩
          rw [hg1, List.mem_singleton] at hrm
          unfold recs at hrv
          rw [hg1] at hrv
          simp only [readVal] at hrv
          cases hrv
          exact ⟨_, by rw [hv, hrm]⟩

example : Sought [(key 1 Form.LWW, [op 1 0]), (key 1 Form.LWW, [op 2 1]), (key 4 Form.LWW, [op 5 0])]
    (key 3 Form.LWW) true (key 1 Form.LWW) ∧
    (Iter.fresh.seekTo [(key 1 Form.LWW, [op 1 0]), (key 1 Form.LWW, [op 2 1]), (key 4 Form.LWW, [op 5 0])]
      (key 3 Form.LWW) true).b = 1 := by
  refine ⟨?_, by decide +kernel⟩
  unfold Sought
  rw [if_pos rfl]
  refine .inl ⟨by decide +kernel, by decide +kernel, fun j hj h => ?_⟩
  obtain ⟨f, hf⟩ := mem_recs.2 hj
  simp only [List.mem_cons, Prod.mk.injEq, List.not_mem_nil, or_false] at hf
  rcases hf with ⟨rfl, _⟩ | ⟨rfl, _⟩ | ⟨rfl, _⟩
  · decide +kernel
  · decide +kernel
  · revert h; decide +kernel

/-! ## C42 — partial merges -/

/-- The full claim: two ways to group the same operands give the same value. -/
def C42_claim : Prop := ∀ (v : View) (f : Form) (s t : List MergeTree),
  MergeTree.leavesAll s = MergeTree.leavesAll t →
  (MergeTree.merge s).eval (engineMerge (mergeCursors v) f) =
    (MergeTree.merge t).eval (engineMerge (mergeCursors v) f)

/-- It fails: causal trees merge up to three at a time; more at once is an error. -/
theorem C42_violated : ¬ C42_claim := by
  intro h
  have := h noView Form.RGA
    [.frame [op 1 0], .frame [op 2 1], .frame [op 3 2], .frame [op 4 3]]
    [.merge [.frame [op 1 0], .frame [op 2 1]], .merge [.frame [op 3 2], .frame [op 4 3]]] (by decide)
  revert this
  decide +kernel

private theorem leaves_ops : ∀ t : MergeTree, t.leaves.flatten = t.ops := by
  intro t
  exact MergeTree.rec (motive_1 := fun t => t.leaves.flatten = t.ops)
    (motive_2 := fun ts => (MergeTree.leavesAll ts).flatten = MergeTree.opsAll ts)
    (fun ops => by simp [MergeTree.leaves, MergeTree.ops])
    (fun ts ih => by simpa [MergeTree.leaves, MergeTree.ops] using ih)
    (by simp [MergeTree.leavesAll, MergeTree.opsAll])
    (fun t ts ih1 ih2 => by
      simp only [MergeTree.leavesAll, MergeTree.opsAll, List.flatten_append, ih1, ih2]) t

private theorem leavesAll_ops (ts : List MergeTree) :
    (MergeTree.leavesAll ts).flatten = MergeTree.opsAll ts := by
  have := leaves_ops (.merge ts)
  simpa only [MergeTree.leaves, MergeTree.ops] using this

private theorem sorted_leaves : ∀ ts : List MergeTree,
    (∀ f ∈ MergeTree.leavesAll ts, IdSorted f) → MergeTree.SortedAll ts := by
  intro ts
  exact MergeTree.rec_1 (motive_1 := fun t => (∀ f ∈ t.leaves, IdSorted f) → t.Sorted)
    (motive_2 := fun ts => (∀ f ∈ MergeTree.leavesAll ts, IdSorted f) → MergeTree.SortedAll ts)
    (fun ops h => by simpa [MergeTree.leaves, MergeTree.Sorted] using h)
    (fun ts ih h => by
      simp only [MergeTree.leaves] at h; simp only [MergeTree.Sorted]; exact ih h)
    (fun _ => by simp [MergeTree.SortedAll])
    (fun t ts ih1 ih2 h => by
      simp only [MergeTree.leavesAll] at h
      simp only [MergeTree.SortedAll]
      exact ⟨ih1 fun f hf => h f (List.mem_append_left _ hf), ih2 fun f hf => h f (List.mem_append_right _ hf)⟩) ts

/-- Forms merged by id: any grouping, in any order and with repetitions, of operands with the
same events gives the same value. -/
theorem C42_by_id_partial (v : View) (f : Form)
    (hf : f = Form.LWW ∨ f = Form.MX ∨ f = Form.YARN) (s t : List MergeTree)
    (hs : ∀ i ∈ MergeTree.leavesAll s, IdSorted i) (ht : ∀ i ∈ MergeTree.leavesAll t, IdSorted i)
    (hc : Consistent (MergeTree.leavesAll t).flatten)
    (he : SameEvents (MergeTree.leavesAll s).flatten (MergeTree.leavesAll t).flatten) :
    ∃ out, (MergeTree.merge s).eval (engineMerge (mergeCursors v) f) = some out ∧
      (MergeTree.merge t).eval (engineMerge (mergeCursors v) f) = some out ∧
      SameEvents out (MergeTree.leavesAll t).flatten := by
  have e : engineMerge (mergeCursors v) f = mergeFn v f := by
    funext ins
    unfold engineMerge mergeFn
    rw [mergeCursors_withOps v hf]
    cases mergeCursors v f ins with
    | none => rfl
    | some r => rfl
  rw [e]
  rw [leavesAll_ops] at hc
  rw [leavesAll_ops, leavesAll_ops] at he
  obtain ⟨out, h1, h2, h3⟩ := C28_merge_confluent v f hf s t
    (by simp only [MergeTree.Sorted]; exact sorted_leaves s hs)
    (by simp only [MergeTree.Sorted]; exact sorted_leaves t ht)
    (by simp only [MergeTree.ops]; exact hc) (by simp only [MergeTree.ops]; exact he)
  refine ⟨out, h1, h2, ?_⟩
  rw [leavesAll_ops]
  simpa only [MergeTree.ops] using h3

/-- Logs: any grouping gives the operands one after the other (punctuation aside). -/
theorem C42_log_partial (v : View) (t : MergeTree) :
    ∃ out, t.eval (engineMerge (mergeCursors v) Form.LOG) = some out ∧
      out.map AOp.body = t.leaves.flatten.map AOp.body := by
  refine MergeTree.rec
    (motive_1 := fun t => ∃ out, t.eval (engineMerge (mergeCursors v) Form.LOG) = some out ∧
      out.map AOp.body = t.leaves.flatten.map AOp.body)
    (motive_2 := fun ts => ∃ outs, MergeTree.evalAll (engineMerge (mergeCursors v) Form.LOG) ts = some outs ∧
      outs.flatten.map AOp.body = (MergeTree.leavesAll ts).flatten.map AOp.body)
    ?_ ?_ ?_ ?_ t
  · intro ops; exact ⟨ops, by simp [MergeTree.eval], by simp [MergeTree.leaves]⟩
  · rintro ts ⟨outs, e, h⟩
    obtain ⟨e2, _⟩ := C36_log_concat v (withOps outs)
    refine ⟨closeLast (withOps outs).flatten, ?_, ?_⟩
    · simp only [MergeTree.eval, e, Option.bind_some, engineMerge, e2]; rfl
    · rw [closeLast_body, withOps_flatten, h]; simp only [MergeTree.leaves]
  · exact ⟨[], by simp [MergeTree.evalAll], rfl⟩
  · rintro t ts ⟨out, e1, h1⟩ ⟨outs, e2, h2⟩
    refine ⟨out :: outs, by simp [MergeTree.evalAll, e1, e2], ?_⟩
    simp only [List.flatten_cons, List.map_append, h1, h2, MergeTree.leavesAll, List.flatten_append]

example : (MergeTree.merge [.merge [.frame [op 1 0], .frame [op 3 1]], .frame [op 2 1]]).eval
      (engineMerge (mergeCursors noView) Form.LWW) =
    (MergeTree.merge [.frame [op 1 0], .merge [.frame [op 3 1], .frame [op 2 1]]]).eval
      (engineMerge (mergeCursors noView) Form.LWW) := by decide +kernel

end Ron.Props
