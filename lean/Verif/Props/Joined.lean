import Verif.Lemmas.Joined
import Verif.Props.Store
/-!
C41: an overlay of two stores.
-/
namespace Ron.Props
open Ron Rdt Spec MemStore

private def u (v o : Nat) : Uuid := ⟨BitVec.ofNat 64 v, BitVec.ofNat 64 o⟩
private def op (i r : Nat) (vals : List AVal := []) (t : Term := .reduced) : AOp :=
  ⟨u i (2 ^ 61 + 7), u r (2 ^ 61 + 7), vals, t⟩
private def noView : View := ⟨fun _ _ => false, fun _ => op 0 0⟩
private def key (v : Nat) (f : Form) : Key := Key.mk' (u v (2 ^ 61 + 7)) f

/-- The full claim: reading through the overlay is reading a store `c` with the records of both
layers, and neither kind of write touches the lower layer. -/
def C41_claim : Prop :=
  (∀ (v : View) (s : Joined) (c : MemStore) (k : Key) (st st' : Status) (f f' : Frame) (t : Joined) (d : MemStore),
    KeyOrder s.a → KeyOrder s.b → KeyOrder c → (∀ k, stored k c = stored k s.a ++ stored k s.b) →
    s.read (mergeCursors v) k [] = some (st, f, t) → c.read (mergeCursors v) k [] = some (st', f', d) →
    st'.ok = true → st.ok = true ∧ SameEvents f f') ∧
  (∀ (s : Joined) (k : Key) (f : Frame), (s.write k f).2.a = s.a) ∧
  ∀ (s : Joined) (rs : List (Key × Frame)), (s.writeAll rs).2.a = s.a

/-- Reads fail it: the form is guessed from the frames; without a header in sight only the last
op of the upper layer is returned. -/
theorem C41_reads_violated : ¬ C41_claim := by
  intro h
  have := (h.1 noView ⟨[(key 1 Form.LWW, [op 1 0])], [(key 1 Form.LWW, [op 2 1])]⟩
    [(key 1 Form.LWW, [op 1 0]), (key 1 Form.LWW, [op 2 1])] (key 1 Form.LWW) Status.OK Status.OK
    [op 2 1 [] .raw] [op 1 0, op 2 1 [] .raw]
    ⟨[(key 1 Form.LWW, [op 1 0])], [(key 1 Form.LWW, [op 2 1])]⟩
    [(key 1 Form.LWW, [op 1 0, op 2 1 [] .raw])]
    (by unfold KeyOrder; decide) (by unfold KeyOrder; decide) (by unfold KeyOrder; decide)
    (by intro k; unfold stored; by_cases hk : key 1 Form.LWW = k <;> simp [hk])
    (by decide +kernel) (by decide +kernel) (by decide)).2
  obtain ⟨o, ho, e⟩ := (this (op 1 0).body).2 ⟨op 1 0, by simp, rfl⟩
  rw [List.mem_singleton.1 ho] at e
  revert e; decide

/-- Writes fail it: a batch goes to the lower layer. -/
theorem C41_writes_violated : ¬ C41_claim := by
  intro h
  have := h.2.2 ⟨[], []⟩ [(key 1 Form.LWW, [op 1 0])]
  revert this; decide +kernel

/-- Single writes do not touch the lower layer, and reads of the upper one see them. -/
theorem C41_write_partial (s : Joined) (k : Key) (f : Frame) (hs : KeyOrder s.b) :
    (s.write k f).2.a = s.a ∧ ∀ j, stored j (s.write k f).2.b =
      stored j s.b ++ if j = k ∧ k ≠ Key.END then [f] else [] := by
  refine ⟨rfl, fun j => ?_⟩
  unfold Joined.write MemStore.write
  by_cases h : k = Key.END
  · rw [if_pos h, if_neg (by simp [h])]; simp
  · rw [if_neg h]
    have := insert_recs hs k j f
    simp only [recs] at this
    simp only [this]
    by_cases e : j = k <;> simp [e, h]

/-- Reads, for forms merged by id, of an object whose least id `root` is that of its header, the
op that refers to the name `h` of its type: the events of both layers, in order; the same as from
one store with all the records. -/
theorem C41_read_partial (v : View) (s : Joined) (k : Key) (into : Frame) (root h : Uuid)
    (hf : k.form = Form.LWW ∨ k.form = Form.MX ∨ k.form = Form.YARN)
    (ha : KeyOrder s.a) (hb : KeyOrder s.b)
    (hsort : ∀ f ∈ stored k s.a ++ stored k s.b, IdSorted f)
    (hc : Consistent (stored k s.a ++ stored k s.b).flatten)
    (hname : h.version = Uuid.vNAME) (hz : h.zero = false) (hform : uuid2form h = k.form)
    (hroot : ∃ o ∈ (stored k s.a ++ stored k s.b).flatten, o.id = root ∧ o.ref = h)
    (hleast : ∀ o ∈ (stored k s.a ++ stored k s.b).flatten, o.id ≠ root → Uuid.lt root o.id = true)
    (honly : ∀ o ∈ (stored k s.a ++ stored k s.b).flatten, o.ref.version = Uuid.vNAME → o.ref = h) :
    ∃ f t, s.read (mergeCursors v) k into = some (Status.OK, f, t) ∧ IdSorted f ∧
      SameEvents f (stored k s.a ++ stored k s.b).flatten ∧
      ∀ c : MemStore, KeyOrder c → stored k c = stored k s.a ++ stored k s.b →
        ∃ f' d, c.read (mergeCursors v) k into = some (Status.OK, f', d) ∧
          f'.map AOp.body = f.map AOp.body := by
  have one : ∀ (c : MemStore) (res : Frame), KeyOrder c → (∀ f ∈ stored k c, IdSorted f) → Consistent (stored k c).flatten →
      ∃ f d, c.read (mergeCursors v) k res = some (Status.OK, f, d) ∧ IdSorted f ∧
        SameEvents f (stored k c).flatten := by
    intro c res hco h1 h2
    obtain ⟨t, out, t', m, e1, e2, h3, h4, _⟩ := C38_read_partial v c [] k res hf hco
      (by simpa [written] using h1) (by simpa [written] using h2)
    simp only [execAll, Option.some.injEq] at e1
    subst e1
    exact ⟨out, t', e2, h3, by simpa [written] using h4⟩
  have sub : ∀ f, f ∈ stored k s.a ∨ f ∈ stored k s.b → f ∈ stored k s.a ++ stored k s.b :=
    fun f h => List.mem_append.2 h
  have inA : ∀ o ∈ (stored k s.a).flatten, o ∈ (stored k s.a ++ stored k s.b).flatten := by
    intro o ho; rw [List.flatten_append]; exact List.mem_append_left _ ho
  have inB : ∀ o ∈ (stored k s.b).flatten, o ∈ (stored k s.a ++ stored k s.b).flatten := by
    intro o ho; rw [List.flatten_append]; exact List.mem_append_right _ ho
  obtain ⟨fa, ta, ea, sa, va⟩ := one s.a [] ha (fun f hf => hsort f (sub f (.inl hf)))
    (fun x hx y hy => hc x (inA x hx) y (inA y hy))
  obtain ⟨fb, tb, eb, sb, vb⟩ := one s.b [] hb (fun f hf => hsort f (sub f (.inr hf)))
    (fun x hx y hy => hc x (inB x hx) y (inB y hy))
  have vab : SameEvents (fa ++ fb) (stored k s.a ++ stored k s.b).flatten := by
    rw [List.flatten_append]; exact Rdt.SameEvents.append va vb
  -- the one store
  have all : ∀ f : Frame, IdSorted f → SameEvents f (stored k s.a ++ stored k s.b).flatten →
      ∀ c : MemStore, KeyOrder c → stored k c = stored k s.a ++ stored k s.b →
        ∃ f' d, c.read (mergeCursors v) k into = some (Status.OK, f', d) ∧
          f'.map AOp.body = f.map AOp.body := by
    intro f h1 h2 c hco he
    obtain ⟨f', d, e, h3, h4⟩ := one c into hco (by rw [he]; exact hsort) (by rw [he]; exact hc)
    rw [he] at h4
    exact ⟨f', d, e, sorted_unique f' f h3 h1 (Rdt.SameEvents.trans h4 (Rdt.SameEvents.symm h2))⟩
  -- the heads of the values of the layers
  have headref : ∀ (o : AOp) (x : Frame), (o :: x = fa ∨ o :: x = fb) →
      (o.ref.version = Uuid.vNAME → o.ref = h) ∧
      (∀ p ∈ o :: x, p.id = root → o.ref = h) := by
    intro o x hx
    have hmem : ∀ p ∈ o :: x, ∃ q ∈ (stored k s.a ++ stored k s.b).flatten, q.body = p.body := by
      intro p hp
      refine (vab p.body).1 ⟨p, ?_, rfl⟩
      rcases hx with rfl | rfl
      · exact List.mem_append_left _ hp
      · exact List.mem_append_right _ hp
    have hsorted : IdSorted (o :: x) := by rcases hx with rfl | rfl <;> assumption
    obtain ⟨q, hq, eq⟩ := hmem o (by simp)
    have eref : q.ref = o.ref := congrArg (·.2.1) eq
    have eid : q.id = o.id := congrArg (·.1) eq
    refine ⟨fun hv => ?_, fun p hp hpr => ?_⟩
    · rw [← eref] at hv ⊢; exact honly q hq hv
    · have hor : o.id = root := by
        apply Classical.byContradiction
        intro hne
        have h1 := hleast q hq (by rw [eid]; exact hne)
        rw [eid] at h1
        rcases List.mem_cons.1 hp with rfl | hp
        · exact hne hpr
        · have h2 := (List.pairwise_cons.1 hsorted).1 p hp
          rw [hpr] at h2
          have := uuid_lin.trans _ _ _ h1 h2
          rw [uuid_lin.irrefl] at this; cases this
      obtain ⟨r, hr, er1, er2⟩ := hroot
      have := hc q hq r hr (by rw [eid, er1, hor])
      rw [← eref, show q.ref = r.ref from congrArg (·.2.1) this, er2]
  have hguess : fa ≠ [] → fb ≠ [] → getForm Uuid.NIL (withOps [fa, fb]) = some k.form := by
    intro h1 h2
    obtain ⟨r, hr, er1, er2⟩ := hroot
    obtain ⟨p, hp, ep⟩ := (vab r.body).2 ⟨r, hr, rfl⟩
    have epid : p.id = root := by rw [← er1]; exact congrArg (·.1) ep
    match fa, fb, h1, h2 with
    | oa :: xa, ob :: xb, _, _ =>
      have ha' := headref oa xa (.inl rfl)
      have hb' := headref ob xb (.inr rfl)
      have hnil : Uuid.NIL.zero = true := by decide
      show getForm Uuid.NIL [oa :: xa, ob :: xb] = _
      rcases List.mem_append.1 hp with hp | hp
      · have e1 := ha'.2 p hp epid
        simp only [getForm, e1, hname, ne_eq, not_true_eq_false, if_false, hnil, if_true, hz]
        by_cases hv : ob.ref.version = Uuid.vNAME
        · simp [hb'.1 hv, hname, hform]
        · simp [hv, hform]
      · have e1 := hb'.2 p hp epid
        simp only [getForm, e1, hname, ne_eq, not_true_eq_false, if_false, hnil, if_true]
        by_cases hv : oa.ref.version = Uuid.vNAME
        · simp [ha'.1 hv, hname, hform, hz]
        · simp [hv, hform]
  unfold Joined.read
  simp only [ea, eb, Option.bind_some]
  rw [if_neg (by decide), if_neg (by decide)]
  by_cases h1 : fa = []
  · rw [if_pos h1]
    have hv : SameEvents fb (stored k s.a ++ stored k s.b).flatten := by
      rw [h1] at vab; exact vab
    exact ⟨_, _, rfl, sb, hv, all fb sb hv⟩
  · rw [if_neg h1]
    by_cases h2 : fb = []
    · rw [if_pos h2]
      have hv : SameEvents fa (stored k s.a ++ stored k s.b).flatten := by
        rw [h2, List.append_nil] at vab; exact vab
      exact ⟨_, _, rfl, sa, hv, all fa sa hv⟩
    · rw [if_neg h2]
      obtain ⟨m, em, m1, m2, _⟩ := merge_id_same v hf [fa, fb]
        (by intro i hi; simp only [List.mem_cons, List.not_mem_nil, or_false] at hi
            rcases hi with rfl | rfl <;> assumption)
        (by
          have e : [fa, fb].flatten = fa ++ fb := by simp
          rw [e]; exact Rdt.Consistent.of_same vab hc)
      have e : [fa, fb].flatten = fa ++ fb := by simp
      rw [e] at m2
      unfold Joined.mergeGuess
      rw [hguess h1 h2]
      simp only [mergeCursors_withOps v hf, em, Option.map_some]
      rw [if_pos (by decide)]
      have hv := Rdt.SameEvents.trans m2 vab
      exact ⟨_, _, rfl, m1, hv, all m m1 hv⟩

/-- Iteration from the first key: the keys of both layers, each once and in order; no read of
either layer changes; and the values asked for are those of the layer that has the key, or their
merge. (If the value of a layer is an empty frame, `value` and `Read` differ: see DESIGN.md.) -/
theorem C41_iteration_partial (v : View) (look : Key → Bool) (s : Joined)
    (ha : KeyOrder s.a) (hb : KeyOrder s.b) :
    ∃ it0 out s' it, Joined.JIter.fresh.seekTo s Key.ZERO = some it0 ∧
      jvisit (mergeCursors v) look (s.a.length + s.b.length + 1) s it0 = some (out, s', it) ∧
      it.at_ = Key.END ∧ out.Pairwise (fun a b => Key.lt a.1 b.1 = true) ∧
      (∀ k, (∃ x, (k, x) ∈ out) ↔ k ≠ Key.END ∧ (stored k s.a ≠ [] ∨ stored k s.b ≠ [])) ∧
      (∀ k x, (k, x) ∈ out → (x.isSome ↔ look k = true)) ∧
      (∀ k x into f t, (k, some x) ∈ out → s.read (mergeCursors v) k into = some (Status.OK, f, t) →
        (∀ st fa ta, stored k s.a ≠ [] → s.a.read (mergeCursors v) k [] = some (st, fa, ta) → fa ≠ []) →
        (∀ st fb tb, stored k s.b ≠ [] → s.b.read (mergeCursors v) k [] = some (st, fb, tb) → fb ≠ []) →
        x = some f) ∧
      (∀ k res st f t, s.a.read (mergeCursors v) k res = some (st, f, t) → st.ok = true →
        ∃ st' t', s'.a.read (mergeCursors v) k res = some (st', f, t') ∧ st'.ok = true) ∧
      (∀ k res st f t, s.b.read (mergeCursors v) k res = some (st, f, t) → st.ok = true →
        ∃ st' t', s'.b.read (mergeCursors v) k res = some (st', f, t') ∧ st'.ok = true) := by
  have seek : ∀ c : MemStore, KeyOrder c →
      Iter.fresh.seekTo c Key.ZERO = Iter.pos [] c [] := by
    intro c hco
    obtain ⟨A, B, e1, e2, _, h, _⟩ := Iter.seek_at hco Key.ZERO
    have hA : A = [] := by
      cases A with
      | nil => rfl
      | cons a A =>
        have := h a (by simp)
        rw [Key.zero_le] at this; cases this
    subst hA
    simp only [List.nil_append] at e1
    subst e1
    exact e2
  obtain ⟨out, s', it, e, hend, vis⟩ := Joined.JIter.jvisit_spec (mergeCursors v) look
    (mergeCursors_some v) (s.a.length + s.b.length + 1) [] s.a [] s.b (by omega)
    (by simpa using ha) (by simpa using hb) (by simp [Iter.Below]) (by simp [Iter.Below])
    (by simp [Iter.Below]) (by simp [Iter.Below]) (by simp) (by simp)
  simp only [List.nil_append] at e vis
  refine ⟨_, out, s', it, ?_, e, hend, vis.sorted, ?_, ?_, ?_, ?_, ?_⟩
  · unfold Joined.JIter.seekTo
    simp only [show Joined.JIter.fresh.ai = Iter.fresh from rfl, show Joined.JIter.fresh.bi = Iter.fresh from rfl,
      seek _ ha, seek _ hb]
    have h1 := Iter.key_at [] s.a []
    have h2 := Iter.key_at [] s.b []
    simp only [List.nil_append] at h1 h2
    simp only [h1, h2, Option.bind_some, Option.map_some, Bool.false_eq_true, if_false]
  · intro k
    rw [vis.keys k, ← mem_recs, ← mem_recs, exists_or]
  · intro k x h
    have := vis.looked k x h
    cases x <;> cases hl : look k <;> simp [hl] at this ⊢
  · intro k x into f t hx hr hna hnb
    unfold Joined.read at hr
    cases ea : s.a.read (mergeCursors v) k [] with
    | none => rw [ea] at hr; cases hr
    | some ra =>
      obtain ⟨sa, fa, ta⟩ := ra
      simp only [ea, Option.bind_some] at hr
      by_cases ha1 : sa.ok = true
      · rw [if_neg (by simpa using ha1)] at hr
        cases eb : s.b.read (mergeCursors v) k [] with
        | none => rw [eb] at hr; cases hr
        | some rb =>
          obtain ⟨sb, fb, tb⟩ := rb
          simp only [eb, Option.bind_some] at hr
          by_cases hb1 : sb.ok = true
          · rw [if_neg (by simpa using hb1)] at hr
            obtain ⟨v1, v2, v3⟩ := vis.vals k x sa fa sb fb hx (read_readVal _ ha ea ha1) ha1
              (read_readVal _ hb eb hb1) hb1
            by_cases h1 : fa = []
            · rw [if_pos h1] at hr
              simp only [Option.some.injEq, Prod.mk.injEq] at hr
              rw [← hr.2.1]
              refine v1 ?_
              apply Classical.byContradiction
              intro hne
              exact hna sa fa ta hne ea h1
            · rw [if_neg h1] at hr
              by_cases h2 : fb = []
              · rw [if_pos h2] at hr
                simp only [Option.some.injEq, Prod.mk.injEq] at hr
                rw [← hr.2.1]
                refine v2 ?_
                apply Classical.byContradiction
                intro hne
                exact hnb sb fb tb hne eb h2
              · rw [if_neg h2] at hr
                cases em : Joined.mergeGuess (mergeCursors v) [fa, fb] with
                | none => rw [em] at hr; cases hr
                | some w =>
                  rw [em] at hr
                  simp only [Option.map_some, Option.some.injEq] at hr
                  by_cases hw : w.1.ok = true
                  · rw [if_pos hw] at hr
                    simp only [Prod.mk.injEq] at hr
                    rw [← hr.2.1]
                    have nea : stored k s.a ≠ [] := by
                      intro e0
                      have := read_readVal _ ha ea ha1
                      unfold recs at this
                      rw [e0] at this
                      simp only [readVal, Option.some.injEq, Prod.mk.injEq] at this
                      exact h1 this.2.symm
                    have neb : stored k s.b ≠ [] := by
                      intro e0
                      have := read_readVal _ hb eb hb1
                      unfold recs at this
                      rw [e0] at this
                      simp only [readVal, Option.some.injEq, Prod.mk.injEq] at this
                      exact h2 this.2.symm
                    exact v3 nea neb w.1 w.2 em hw
                  · rw [if_neg hw] at hr
                    simp only [Prod.mk.injEq] at hr
                    rw [hr.1] at hw
                    exact absurd (by decide) hw
          · rw [if_pos (by simpa using hb1)] at hr
            simp only [Option.some.injEq, Prod.mk.injEq] at hr
            rw [hr.1] at hb1
            exact absurd (by decide) hb1
      · rw [if_pos (by simpa using ha1)] at hr
        simp only [Option.some.injEq, Prod.mk.injEq] at hr
        rw [hr.1] at ha1
        exact absurd (by decide) ha1
  · intro k res st f t h hok
    exact vis.keptA.read ha vis.sortedA h hok
  · intro k res st f t h hok
    exact vis.keptB.read hb vis.sortedB h hok

/-- A header op for the type `lww`, and an object in two layers. -/
private def hdr : AOp := ⟨u 1 (2 ^ 61 + 7), ⟨BitVec.ofNat 64 (FORMS.getD Form.LWW.toNat 0), 0#64⟩, [], .reduced⟩

example : uuid2form hdr.ref = Form.LWW ∧ hdr.ref.version = Uuid.vNAME ∧ hdr.ref.zero = false := by
  decide +kernel

example : (Joined.read (mergeCursors noView) ⟨[(key 1 Form.LWW, [hdr, op 3 1])], [(key 1 Form.LWW, [op 2 1])]⟩
      (key 1 Form.LWW) []).map (fun r => r.2.1.map fun o => o.id.value.toNat) = some [1, 2, 3] ∧
    ((Joined.JIter.fresh.seekTo ⟨[(key 1 Form.LWW, [hdr, op 3 1]), (key 9 Form.LWW, [])], [(key 1 Form.LWW, [op 2 1]), (key 4 Form.LWW, [])]⟩ Key.ZERO).bind
      fun it => (jvisit (mergeCursors noView) (fun _ => true) 5
        ⟨[(key 1 Form.LWW, [hdr, op 3 1]), (key 9 Form.LWW, [])], [(key 1 Form.LWW, [op 2 1]), (key 4 Form.LWW, [])]⟩ it).map
        fun r => r.1.map fun x => x.1.lo.toNat % 16) = some [1, 4, 9] := by
  decide +kernel

end Ron.Props
