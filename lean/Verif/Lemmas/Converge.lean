import Verif.Lemmas.Filing
import Verif.Spec.Converge
import Verif.Props.Key
import Verif.Lemmas.RgaGroups
/-!
Transactions lose no op from the states of objects.
-/
namespace Ron
open Spec

namespace Commit

/-! ## What a turn of the loop does to the store -/

/-- Reads that succeed (if there are any), reads of logs, and changes of other things. -/
inductive Reads (env : Env) (Q : Prop) : Commit → Commit → Prop where
  | same {c c' : Commit} : c'.main = c.main → c'.mem = c.mem → Reads env Q c c'
  | read {c c' : Commit} {k : Key} {st : Status} {f : Frame} : c.read env k [] = some (st, f, c') →
    ((Q ∧ st.ok = true) ∨ k.form = Form.LOG) → Reads env Q c c'
  | trans {a b c : Commit} : Reads env Q a b → Reads env Q b c → Reads env Q a c

theorem Reads.rfl' {env : Env} {Q : Prop} (c : Commit) : Reads env Q c c := .same rfl rfl

theorem findOpMeta_reads {env : Env} {Q : Prop} {c c' : Commit} {id : Uuid} {st : Status} {m : OpMeta}
    (h : c.findOpMeta env id = some (st, m, c')) : Reads env Q c c' := by
  unfold findOpMeta at h
  obtain ⟨a, ha, h⟩ := bind_some h
  split at h
  · cases h; exact .rfl' _
  · split at h
    · cases h; exact .rfl' _
    · obtain ⟨l, hl, h⟩ := bind_some h
      have q : Reads env Q c l.2.2 := .read (st := l.1) (f := l.2.1) hl (Or.inr (form_log _))
      split at h
      · cases h; exact q
      · split at h
        · cases h; exact q
        · obtain ⟨r, hr, h⟩ := map_some h
          cases h; exact q

theorem yarnTip_reads {env : Env} {Q : Prop} {c c' : Commit} {o : AOp} {st : Status} {m : OpMeta}
    (h : c.yarnTip env o = some (st, m, c')) : Reads env Q c c' := by
  unfold yarnTip at h
  obtain ⟨t, ht, h⟩ := bind_some h
  have q := findOpMeta_reads (Q := Q) (st := t.1) (m := t.2.1) (c' := t.2.2) ht
  split at h
  · split at h
    · obtain ⟨r, hr, h⟩ := map_some h
      cases h; exact q
    · split at h
      · cases h; exact q
      · split at h <;> (cases h; exact q)
  · split at h
    · cases h; exact q
    · split at h <;> (cases h; exact q)

theorem headMeta_reads {env : Env} {Q : Prop} {c c' : Commit} {tip m : OpMeta} {o : AOp} {st : Status}
    (h : c.headMeta env tip o = some (st, m, c')) : Reads env Q c c' := by
  unfold headMeta at h
  split at h
  · obtain ⟨r, hr', h⟩ := map_some h
    cases h; exact .rfl' _
  · split at h
    · split at h
      · cases h; exact .rfl' _
      · obtain ⟨r, hr', h⟩ := map_some h
        cases h; exact .rfl' _
    · obtain ⟨r, hr, h⟩ := bind_some h
      have q := findOpMeta_reads (Q := Q) (st := r.1) (m := r.2.1) (c' := r.2.2) hr
      split at h
      · cases h; exact q
      · obtain ⟨n, hn', h⟩ := map_some h
        cases h; exact q

/-- A chain that is stored, after reads. -/
structure ChainStored (env : Env) (c c' : Commit) : Prop where
  stored : ∃ c1 m o os fin st rest, Reads env False c c1 ∧ c1.storeChain env m o os fin = some (st, c', rest) ∧
    st.ok = true ∧ m.id = o.id ∧ Headed c1.all m o ∧ (checkEventSanity o).ok = true ∧
    o.ref ≠ formUuid Form.META

theorem saveChain_stored {env : Env} (hm : Honest env.mg) {c c' : Commit} {cur cur' : ACur} {st : Status}
    (hc : Fine c) (hn : ∀ o ∈ cur.ops, Plain o)
    (h : c.saveChain env cur = some (st, c', cur')) (hok : st.ok = true) : ChainStored env c c' := by
  unfold saveChain at h
  match hops : cur.ops with
  | [] => rw [hops] at h; cases h
  | o :: os =>
    rw [hops] at h hn
    simp only at h
    split at h
    · cases h; exact absurd hok ‹_›
    · rename_i hsane
      have hsane := ok_of_not_not hsane
      obtain ⟨t, ht, h⟩ := bind_some h
      split at h
      · cases h; exact absurd hok ‹_›
      · rename_i hok1
        obtain ⟨q1, l1⟩ := yarnTip_known (st := t.1) (m := t.2.1) (c' := t.2.2) hm hc ht (ok_of_not_not hok1)
        have p1 := yarnTip_reads (Q := False) (st := t.1) (m := t.2.1) (c' := t.2.2) ht
        obtain ⟨g, hg, h⟩ := bind_some h
        have hc1 := hc.still q1
        split at h
        · cases h; exact absurd hok ‹_›
        · rename_i hok2
          have hid := sane_time hsane
          have p2 := headMeta_reads (Q := False) (st := g.1) (m := g.2.1) (c' := g.2.2) hg
          obtain ⟨q2, e, l2⟩ := headMeta_known (st := g.1) (m := g.2.1) (c' := g.2.2) hm hc1 hg
            (ok_of_not_not hok2) (fun e => by
              rcases l1 with ⟨h1, h2⟩ | ⟨-, h2, -⟩
              · rw [h2, h1] at e
                rw [← e, yarn_name] at hid
                exact absurd hid version_ne
              · exact h2.mono q1.logs)
            ((sane_ref hsane).imp And.left And.left) (hn o List.mem_cons_self).1
          obtain ⟨r, hr, h⟩ := map_some h
          cases h
          refine ⟨g.2.2, g.2.1, o, os, cur.fin, r.1, r.2.2, p1.trans p2, hr, hok, e, ?_, hsane,
            (hn o List.mem_cons_self).2⟩
          rcases l2 with l2 | ⟨h1, h2, h3⟩
          · exact Or.inl l2
          · exact Or.inr ⟨h1, h2.mono q2.logs, h3.mono q2.logs⟩

theorem writeNewEvents_reads {env : Env} {Q : Prop} {c c' : Commit} {cur cur' : ACur} {st : Status}
    (h : c.writeNewEvents env cur = some (st, c', cur')) : Reads env Q c c' := by
  rw [writeNewEvents_eq] at h
  cases h
  exact .same rfl rfl

theorem txtWrite_reads {env : Env} {Q : Prop} (hq : Q) {c c' : Commit} {cur cur' : ACur} {st : Status} (hok : st.ok = true)
    (h : c.txtWrite env cur = some (st, c', cur')) : Reads env Q c c' := by
  unfold txtWrite at h
  split at h
  · cases h
  · split at h
    · obtain ⟨r, hr, h⟩ := bind_some h
      split at h
      · cases h; exact absurd hok ‹_›
      · rename_i hr1
        have q : Reads env Q c r.2.2 := .read (st := r.1) (f := r.2.1) hr (Or.inl ⟨hq, ok_of_not_not hr1⟩)
        split at h
        · cases h
        · cases h; exact q
        · obtain ⟨w, hw, h⟩ := map_some h
          cases h
          have p := writeNewEvents_reads (Q := Q) (st := w.1) (c' := w.2.1) (cur' := w.2.2) hw
          exact q.trans (.trans (.same (by rfl) (by rfl)) p)
    · cases h; exact .rfl' _

theorem receiveWrites_reads {env : Env} {Q : Prop} {c c' : Commit} {cur cur' : ACur} {st : Status} (hok : st.ok = true)
    (hq : ¬ Q → ∀ o ∈ cur.ops, uuid2form o.ref ≠ Form.TXT)
    (h : c.receiveWrites env cur = some (st, c', cur')) : Reads env Q c c' := by
  unfold receiveWrites at h
  split at h
  · cases h
  · rename_i o os hops
    split at h
    · exact writeNewEvents_reads h
    · split at h
      · cases h; exact .rfl' _
      · simp only at h
        split at h
        · exact writeNewEvents_reads h
        · split at h
          · rename_i hf
            refine txtWrite_reads (Classical.byContradiction fun hn => ?_) hok h
            exact hq hn o (by rw [hops]; exact List.mem_cons_self) hf
          · cases h; exact .rfl' _

theorem receiveQuery_reads {env : Env} {Q : Prop} (hq : Q) {c c' : Commit} {cur cur' : ACur} {st : Status} (hok : st.ok = true)
    (h : c.receiveQuery env cur = some (st, c', cur')) : Reads env Q c c' := by
  unfold receiveQuery at h
  split at h
  · cases h
  · simp only at h
    split at h
    · unfold queryObject at h
      obtain ⟨r, hr, h⟩ := map_some h
      split at h
      · cases h; exact absurd hok ‹_›
      · rename_i hr1
        cases h
        exact .read (st := r.1) (f := r.2.1) hr (Or.inl ⟨hq, ok_of_not_not hr1⟩)
    · split at h
      · unfold queryObjectLog at h
        simp only at h
        obtain ⟨m, hm', h⟩ := bind_some h
        have q := findOpMeta_reads (Q := Q) (st := m.1) (m := m.2.1) (c' := m.2.2) hm'
        split at h
        · cases h; exact q
        · obtain ⟨r, hr, h⟩ := bind_some h
          split at h
          · cases h; exact absurd hok ‹_›
          · rename_i hr1
            have q2 : Reads env Q c r.2.2 := q.trans (.read (st := r.1) (f := r.2.1) hr (Or.inl ⟨hq, ok_of_not_not hr1⟩))
            repeat' (split at h)
            all_goals first
              | (cases h; exact q2)
              | cases h
      · cases h; exact .rfl' _

theorem receiveMapQuery_reads {env : Env} {Q : Prop} (hq : Q) {c c' : Commit} {cur cur' : ACur} {st : Status} (hok : st.ok = true)
    (h : c.receiveMapQuery env cur = some (st, c', cur')) : Reads env Q c c' := by
  unfold receiveMapQuery at h
  split at h
  · cases h
  · split at h
    · obtain ⟨r, hr, h⟩ := map_some h
      split at h
      · cases h; exact absurd hok ‹_›
      · rename_i hr1
        cases h
        exact .read (st := r.1) (f := r.2.1) hr (Or.inl ⟨hq, ok_of_not_not hr1⟩)
    · cases h; exact .rfl' _

theorem receiveMapWrites_reads {env : Env} {Q : Prop} (hq : Q) {c c' : Commit} {cur cur' : ACur} {st : Status} (hok : st.ok = true)
    (h : c.receiveMapWrites env cur = some (st, c', cur')) : Reads env Q c c' := by
  unfold receiveMapWrites at h
  split at h
  · cases h
  · split at h
    · exact txtWrite_reads hq hok h
    · cases h; exact .rfl' _

/-- A name is written. -/
def Renamed (c c' : Commit) : Prop :=
  ∃ o : AOp, (∀ r, r ∈ c'.main ↔ r = (NAMES, [o]) ∨ r ∈ c.main) ∧ c'.mem = c.mem

theorem writeName_renamed {env : Env} {c c' : Commit} {cur cur' : ACur} {st : Status}
    (h : c.writeName env cur = some (st, c', cur')) : c' = c ∨ Renamed c c' := by
  unfold writeName at h
  split at h
  · cases h
  · split at h
    · split at h
      · cases h; exact Or.inl rfl
      · cases h
        have hne : ¬ (Key.mk' Uuid.NIL Form.LWW = Key.END) := by decide
        simp only [putName, Engine.write, hne, false_and, if_false]
        have hok : Status.OK.ok = true := by decide
        rw [if_pos hok]
        exact Or.inr ⟨_, fun r => mem_insert, rfl⟩
    · cases h; exact Or.inl rfl

/-- An op that writes, and not by a map. -/
def Update (o : AOp) : Prop :=
  o.term ≠ .query ∧ o.id.version ≠ Uuid.vDERIVED ∧ uuid2form o.ref ≠ Form.TXT

/-- A turn that succeeds. -/
theorem dispatch_does {env : Env} {Q : Prop} (hm : Honest env.mg) {c c' : Commit} {cur cur' : ACur} {st : Status}
    (hc : Fine c) (hn : ∀ o ∈ cur.ops, Plain o) (hq : ¬ Q → ∀ o ∈ cur.ops, Update o)
    (h : c.dispatch env cur = some (st, c', cur')) (hok : st.ok = true) :
    Reads env Q c c' ∨ ChainStored env c c' ∨ Renamed c c' := by
  unfold dispatch at h
  split at h
  · cases h
  · rename_i o os hops
    have hq0 : ¬ Q → Update o := fun hn => hq hn o (by rw [hops]; exact List.mem_cons_self)
    split at h
    · split at h
      · rename_i ht
        exact Or.inl (receiveQuery_reads (Classical.byContradiction fun hn => (hq0 hn).1 ht) hok h)
      · split at h
        · exact Or.inr (Or.inl (saveChain_stored hm hc hn h hok))
        · exact Or.inl (receiveWrites_reads hok (fun hn o ho => (hq hn o ho).2.2) h)
    · split at h
      · rename_i hd
        have hQ : Q := Classical.byContradiction fun hn => (hq0 hn).2.1 hd
        split at h
        · exact Or.inl (receiveMapQuery_reads hQ hok h)
        · exact Or.inl (receiveMapWrites_reads hQ hok h)
      · split at h
        · split at h
          · cases h; exact Or.inl (.rfl' _)
          · split at h
            · rcases writeName_renamed h with rfl | h
              · exact Or.inl (.rfl' _)
              · exact Or.inr (Or.inr h)
            · cases h; exact Or.inl (.rfl' _)
        · cases h; exact Or.inl (.rfl' _)

/-! ## Records of a chain -/

theorem _root_.Ron.Uuid.lt_trans' {a b c : Uuid} (h : Uuid.lt a b = true) (g : Uuid.lt b c = true) :
    Uuid.lt a c = true := by
  unfold Uuid.lt at *
  simp only [Bool.or_eq_true, Bool.and_eq_true, decide_eq_true_eq] at *
  rcases h with h | ⟨e, h⟩
  · rcases g with g | ⟨e', g⟩
    · left; omega
    · rw [← e']; left; exact h
  · rcases g with g | ⟨e', g⟩
    · rw [e]; left; exact g
    · right; exact ⟨e.trans e', by omega⟩

/-- The ops collected so far are in the order of ids. -/
structure Rising (m : OpMeta) (to : ABuilder) : Prop where
  sorted : to.bodies.Pairwise fun a b => Uuid.lt a.1 b.1 = true
  last : ∀ b ∈ to.bodies, b.1 = m.id ∨ Uuid.lt b.1 m.id = true
  links : ∀ pre a b post, to.bodies = pre ++ a :: b :: post → b.2.1 = a.1
  tail : ∃ pre b, to.bodies = pre ++ [b] ∧ b.1 = m.id

theorem Rising.add {m m' : OpMeta} {to : ABuilder} {p : AOp} {hs : Hashing}
    (h : Rising m to) (hr : p.ref = m.id) (hn : m.next hs p m = some m') : Rising m' (to.append p) := by
  have hlt : Uuid.lt m.id p.id = true := by
    unfold OpMeta.next at hn
    split at hn
    · rename_i hc; exact hc.2
    · cases hn
  have e := next_id hn
  have all : ∀ b ∈ to.bodies, Uuid.lt b.1 p.id = true := fun b hb => by
    rcases h.last b hb with e | e
    · rw [e]; exact hlt
    · exact Uuid.lt_trans' e hlt
  constructor
  · rw [append_bodies, List.pairwise_append]
    refine ⟨h.sorted, List.pairwise_singleton _ _, fun a ha b hb => ?_⟩
    rw [List.mem_singleton.1 hb]
    exact all a ha
  · intro b hb
    rw [append_bodies] at hb
    rw [e]
    rcases List.mem_append.1 hb with hb | hb
    · exact Or.inr (all b hb)
    · rw [List.mem_singleton.1 hb]; exact Or.inl rfl
  · intro pre a b post he
    rw [append_bodies] at he
    rcases List.eq_nil_or_concat post with rfl | ⟨post', x, rfl⟩
    · have e1 : to.bodies ++ [p.body] = (pre ++ [a]) ++ [b] := by rw [he]; simp
      obtain ⟨e2, e3⟩ := List.append_inj' e1 rfl
      obtain ⟨pre', b', e4, e5⟩ := h.tail
      rw [e4] at e2
      obtain ⟨-, e6⟩ := List.append_inj' e2 rfl
      cases e3
      cases e6
      rw [e5]; exact hr
    · have e1 : to.bodies ++ [p.body] = (pre ++ a :: b :: post') ++ [x] := by rw [he]; simp
      exact h.links pre a b post' (List.append_inj' e1 rfl).1
  · exact ⟨to.bodies, p.body, append_bodies _ _, e.symm⟩

theorem chainletLoop_rising {hs : Hashing} {fin : Status} : ∀ (ops : List AOp)
    {s s' : Chainlet} {st : Status} {rest : List AOp},
    chainletLoop hs fin s ops = some (st, s', rest) → Rising s.m s.to → Rising s'.m s'.to := by
  intro ops
  induction ops with
  | nil =>
    intro s s' st rest h hc
    simp only [chainletLoop] at h
    cases h; exact hc
  | cons p os ih =>
    intro s s' st rest h hc
    simp only [chainletLoop] at h
    split at h
    · exact ih h hc
    · split at h
      · rename_i hnext
        have href : p.ref = s.m.id := by
          unfold OpMeta.isNext at hnext
          simp only [Bool.and_eq_true, decide_eq_true_eq] at hnext
          exact hnext.2
        split at h
        · cases h; exact hc
        · obtain ⟨m, hm, h⟩ := bind_some h
          have hc' : Rising m (s.to.append p) := hc.add href hm
          split at h
          · split at h
            · cases h; exact hc'
            · exact ih h hc'
          · exact ih h hc'
      · split at h
        · split at h
          · cases h; exact hc
          · exact ih h hc
        · cases h; exact hc

/-- Every op of the frame refers to the one before. -/
def ChainFrame (f : Frame) : Prop := ∀ pre a b post, f = pre ++ a :: b :: post → b.ref = a.id

theorem Rising.chain {m : OpMeta} {to : ABuilder} (h : Rising m to) : ChainFrame to.release := by
  intro pre a b post e
  refine h.links (pre.map AOp.body) a.body b.body (post.map AOp.body) ?_
  rw [← release_bodies, e]
  simp

theorem Rising.release {m : OpMeta} {to : ABuilder} (h : Rising m to) : IdSorted to.release := by
  have := h.sorted
  rw [← release_bodies, List.pairwise_map] at this
  exact this

/-- What storing a chain adds. -/
theorem storeChain_records {env : Env} {c c' : Commit} {m : OpMeta} {o : AOp} {os rest : List AOp}
    {fin st : Status} (hm : m.id = o.id) (hsane : (checkEventSanity o).ok = true)
    (h : c.storeChain env m o os fin = some (st, c', rest)) (hok : st.ok = true) :
    ∃ (extra : MemStore) (m' : OpMeta) (to : ABuilder), Follows o m.object m.rdt m' to ∧ IdSorted to.release ∧ ChainFrame to.release ∧
      (∀ r ∈ extra, r.1.form = Form.META) ∧
      ∀ r, r ∈ c'.all ↔ r ∈ c.all ∨ r ∈ extra ∨ r = (Key.mk' m.object Form.LOG, to.release) ∨
        r = (Key.ofUuids m.object m.rdt, to.release) := by
  unfold storeChain at h
  have hw : ∀ w, (if o.ref ≠ m.id then c.write (Key.mk' o.id Form.META) (m.save env.hs)
      else (Status.OK, c)) = w → w.1.ok = true → ∃ extra : MemStore,
      (∀ r ∈ extra, r.1.form = Form.META) ∧ w.2.main = c.main ∧
      ∀ r, r ∈ w.2.mem ↔ r ∈ c.mem ∨ r ∈ extra := by
    intro w hw hok
    split at hw
    · subst hw
      rw [write_ok hok]
      refine ⟨[(Key.mk' o.id Form.META, m.save env.hs)], ?_, rfl, ?_⟩
      · intro r hr
        rw [List.mem_singleton.1 hr]
        exact form_meta _
      · intro r
        rw [mem_insert, List.mem_singleton]
        exact or_comm
    · subst hw
      exact ⟨[], by simp, rfl, by simp⟩
  revert h hw
  generalize (if o.ref ≠ m.id then c.write (Key.mk' o.id Form.META) (m.save env.hs)
      else (Status.OK, c)) = w
  intro h hw
  simp only at h
  split at h
  · cases h; exact absurd hok ‹_›
  · rename_i hwok
    obtain ⟨extra, hx, hmain, hmem⟩ := hw w rfl (ok_of_not_not hwok)
    obtain ⟨s, hs, h⟩ := map_some h
    obtain ⟨t, y, e⟩ := chainletLoop_keeps os (st := s.1) (s' := s.2.1) (rest := s.2.2) hs
    have hin : o.body ∈ (ABuilder.empty.append o).bodies := by
      rw [append_bodies]; simp [ABuilder.empty, ABuilder.bodies]
    have hone : ∀ b ∈ (ABuilder.empty.append o).bodies, b = o.body := fun b hb => by
      rw [append_bodies] at hb
      simpa [ABuilder.empty, ABuilder.bodies] using hb
    have h0 : Follows o m.object m.rdt m (ABuilder.empty.append o) :=
      ⟨rfl, rfl, by rw [hm]; exact sane_time hsane, hin, ⟨_, hin, hm.symm⟩, fun b hb => Or.inl (hone b hb)⟩
    have r0 : Rising m (ABuilder.empty.append o) := by
      have he : (ABuilder.empty.append o).bodies = [o.body] := by
        rw [append_bodies]
        simp [ABuilder.empty, ABuilder.bodies]
      refine ⟨?_, fun b hb => Or.inl (by rw [hone b hb, hm]; rfl), ?_, ⟨[], o.body, he, hm.symm⟩⟩
      · rw [he]; exact List.pairwise_singleton _ _
      · intro pre a b post e
        rw [he] at e
        have := congrArg List.length e
        simp at this
        omega
    have ht := chainletLoop_follows os (st := s.1) (s' := s.2.1) (rest := s.2.2) hs h0
    have hr := chainletLoop_rising os (st := s.1) (s' := s.2.1) (rest := s.2.2) hs r0
    split at h
    · cases h; exact absurd hok ‹_›
    · split at h
      · cases h; exact absurd hok ‹_›
      · split at h
        · cases h; exact absurd hok ‹_›
        · rename_i hok1
          rw [write_ok (ok_of_not_not hok1)] at h
          split at h
          · cases h; exact absurd hok ‹_›
          · rename_i hok2
            rw [write_ok (ok_of_not_not hok2)] at h
            cases h
            have e1 : s.2.1.c.main = c.main := by rw [e]; exact hmain
            have e2 : s.2.1.c.mem = w.2.mem := by rw [e]
            refine ⟨extra, _, _, ht, hr.release, hr.chain, hx, fun r => ?_⟩
            show r ∈ s.2.1.c.main ++ MemStore.insert _ _ (MemStore.insert _ _ s.2.1.c.mem) ↔ _
            rw [e1, e2, List.mem_append, mem_insert, mem_insert, hmem, ht.object, ht.rdt]
            unfold all
            rw [List.mem_append]
            grind

/-! ## The states stay whole -/

/-- The state of things. -/
structure Whole (s : MemStore) : Prop where
  order : RecordsSorted s
  states : Tidy s → StatesWhole s

theorem _root_.Ron.Spec.Tidy.back {s t : MemStore} (h : Tidy t)
    (hst : ∀ k b, k.form = Form.LOG → HeldIn k s b → HeldIn k t b) : Tidy s :=
  ⟨fun k b hk hb => h.plain k b hk (hst k b hk hb),
   fun k k' b b' hk hk' hb hb' => h.one k k' b b' hk hk' (hst k b hk hb) (hst k' b' hk' hb')⟩

theorem _root_.Ron.Spec.Tidy.event {s : MemStore} (h : Tidy s) {k : Key} {b : Body} (hk : k.form = Form.LOG)
    (hb : HeldIn k s b) : Props.IsEvent b.1 :=
  ⟨(h.plain k b hk hb).1, (h.plain k b hk hb).2.1⟩

/-- The key of an event is not that of the names. -/
theorem not_names {id : Uuid} {f : Form} (h : Props.IsEvent id) (h0 : id.value ≠ 0#64) :
    Key.mk' id f ≠ NAMES := by
  intro e
  have e1 := (Props.C08_key_round_trip id f h).1
  rw [e] at e1
  apply h0
  rw [← e1]
  decide

/-- A read that succeeds loses nothing from the states. -/
theorem memRead_whole {mg : Reducer} (hm : Honest mg) (hv : Saves mg) {a s s' : MemStore}
    (hs : MemStore.Sorted s) {k : Key} {st : Status} {f : Frame} (h : s.read mg k [] = some (st, f, s'))
    (hok : st.ok = true ∨ k.form = Form.LOG) (hf : Filed (formUuid Form.META) NAMES (a ++ s))
    (hw : Whole (a ++ s)) : Whole (a ++ s') := by
  obtain ⟨g1, g2⟩ := memRead_at hm hs h
  have back : ∀ j b, HeldIn j (a ++ s') b → HeldIn j (a ++ s) b := fun j b hb => by
    rw [heldAt_append] at hb ⊢
    exact hb.imp (fun h => h) (g1 j b)
  have logs : ∀ j b, j.form = Form.LOG → HeldIn j (a ++ s) b → HeldIn j (a ++ s') b := fun j b hj hb => by
    rw [heldAt_append] at hb ⊢
    exact hb.imp (fun h => h) (g2 j b hj)
  have cback : ∀ obj rdt, Created (a ++ s') obj rdt → Created (a ++ s) obj rdt := by
    rintro obj rdt ⟨h0, b, hb, e⟩
    exact ⟨h0, b, back _ _ hb, e⟩
  rcases MemStore.read_eq mg hs k [] with ⟨e, hr⟩ | ⟨g, e, hr⟩ | ⟨-, ⟨-, hr⟩ | ⟨st', out, s'', em, hr, hs'', er, ho⟩⟩
  · rw [hr] at h; cases h; exact hw
  · rw [hr] at h; cases h; exact hw
  · rw [hr] at h; cases h
  · rw [hr] at h
    cases h
    have hst : st.ok = true := by
      rcases hok with h | h
      · exact h
      · rw [h] at em; exact (hm.log em).1
    rw [hst, if_pos rfl] at er
    have sorted : IdForm k.form → ∀ i ∈ withOps (MemStore.recs k s), IdSorted i := fun hi i hi' =>
      hw.order k i (List.mem_append_right _ (mem_recs.1 (mem_withOps.1 hi').1)) hi
    constructor
    · intro j g hg hj
      rcases List.mem_append.1 hg with hg | hg
      · exact hw.order j g (List.mem_append_left _ hg) hj
      · have hg' := mem_recs.2 hg
        by_cases hk : j = k
        · subst hk
          rw [er] at hg'
          rw [List.mem_singleton.1 hg']
          obtain ⟨out', e', h'⟩ := hv.order hj (sorted hj)
          rw [em] at e'
          cases e'; exact h'
        · rw [ho j hk] at hg'
          exact hw.order j g (List.mem_append_right _ (mem_recs.1 hg')) hj
    · intro ht obj rdt hcr hsf b hb
      have ht' := ht.back logs
      have hold := hw.states ht' obj rdt (cback _ _ hcr) hsf b (back _ _ hb)
      obtain ⟨h0, b0, hb0, e0, -⟩ := hcr
      have hev := ht.event (form_log _) hb0
      have hz := (ht.plain _ _ (form_log _) hb0).2.2
      rw [e0] at hev hz
      have hnn : Key.ofUuids obj rdt ≠ NAMES := not_names hev hz
      rw [heldAt_append] at hold ⊢
      rcases hold with hold | hold
      · exact Or.inl hold
      · refine Or.inr ?_
        by_cases hk : Key.ofUuids obj rdt = k
        · subst hk
          have hform : (Key.ofUuids obj rdt).form = uuid2form rdt := form_mk _ _
          rw [heldIn_recs] at hold ⊢
          obtain ⟨g, hg, o, hog, rfl⟩ := hold
          have hgw : g ∈ withOps (MemStore.recs (Key.ofUuids obj rdt) s) :=
            mem_withOps.2 ⟨hg, by intro e; rw [e] at hog; cases hog⟩
          obtain ⟨x, hx, ex⟩ := hv.ids (by rw [hform]; exact hsf) em hst (fun i hi => (mem_withOps.1 hi).2)
            sorted g hgw o hog
          obtain ⟨i, hi, y, hy, ey⟩ := hm.noNew em hst x hx
          have inS : ∀ z : AOp, (∃ i ∈ MemStore.recs (Key.ofUuids obj rdt) s, z ∈ i) →
              ∃ obj', HeldIn (Key.mk' obj' Form.LOG) (a ++ s) z.body := by
            rintro z ⟨i, hi, hz⟩
            have hh : HeldIn (Key.ofUuids obj rdt) (a ++ s) z.body :=
              ⟨i, List.mem_append_right _ (mem_recs.1 hi), z, hz, rfl⟩
            have nf : StateForm (Key.ofUuids obj rdt).form := by rw [hform]; exact hsf
            have n0 : (Key.ofUuids obj rdt).form ≠ Form.ZERO ∧ (Key.ofUuids obj rdt).form ≠ Form.LOG ∧
                (Key.ofUuids obj rdt).form ≠ Form.META := by
              rcases nf with (h | h | h) | h <;> rw [h] <;> decide
            obtain ⟨obj', rdt', -, -, hl⟩ := hf.states _ _ n0.1 n0.2.1 n0.2.2 hnn hh
            exact ⟨obj', hl⟩
          obtain ⟨oy, hoy⟩ := inS y ⟨i, (mem_withOps.1 hi).1, hy⟩
          obtain ⟨oo, hoo⟩ := inS o ⟨g, hg, hog⟩
          have eb : y.body = o.body := ht'.one _ _ _ _ (form_log _) (form_log _) hoy hoo (by
            rw [ey]; exact ex)
          rw [er]
          exact ⟨out, List.mem_singleton.2 rfl, x, hx, by rw [← ey, eb]⟩
        · rw [heldIn_recs] at hold ⊢
          rw [ho _ hk]; exact hold

theorem read_whole {env : Env} (hm : Honest env.mg) (hv : Saves env.mg) {c c' : Commit} (hc : Fine c)
    (hw : Whole c.all) {k : Key} {st : Status} {f : Frame} (h : c.read env k [] = some (st, f, c'))
    (hok : st.ok = true ∨ k.form = Form.LOG) : Whole c'.all := by
  unfold read at h
  obtain ⟨a, ha, h⟩ := bind_some h
  split at h
  · cases h; exact hw
  · obtain ⟨b, hb, h⟩ := bind_some h
    have q : (b.1.ok = true ∨ k.form = Form.LOG) → Whole ({ c with mem := b.2.2 } : Commit).all := fun hb' =>
      memRead_whole (st := b.1) (f := b.2.1) hm hv hc.sorted hb hb' hc.filed hw
    simp only at h
    split at h
    · cases h; exact q hok
    · rename_i hb'
      have q := q (Or.inl (ok_of_not_not hb'))
      split at h
      · cases h; exact q
      · split at h
        · cases h; exact q
        · obtain ⟨r, hr, h⟩ := map_some h
          split at h <;> (cases h; exact q)

theorem Reads.still {env : Env} {Q : Prop} (hm : Honest env.mg) {c c' : Commit} (p : Reads env Q c c') :
    Fine c → Still c c' := by
  induction p with
  | same h1 h2 => exact fun _ => Still.of h1 h2
  | read h _ => exact fun hc => (read_still hm hc.sorted h).1
  | trans _ _ ih1 ih2 => exact fun hc => (ih1 hc).trans (ih2 (hc.still (ih1 hc)))

theorem Reads.whole {env : Env} {Q : Prop} (hm : Honest env.mg) (hv : Saves env.mg) {c c' : Commit} (p : Reads env Q c c') :
    Fine c → Whole c.all → Whole c'.all := by
  induction p with
  | same h1 h2 => intro _ hw; unfold all; rw [h1, h2]; exact hw
  | read h hok => exact fun hc hw => read_whole hm hv hc hw h (hok.imp And.right id)
  | trans p1 _ ih1 ih2 => exact fun hc hw => ih2 (hc.still (p1.still hm hc)) (ih1 hc hw)

/-- Ids are numbers. -/
def _root_.Ron.Uuid.rank (u : Uuid) : Nat := u.value.toNat * 2 ^ 64 + u.origin.toNat

theorem _root_.Ron.Uuid.rank_lt {a b : Uuid} (h : Uuid.lt a b = true) : a.rank < b.rank := by
  unfold Uuid.rank
  unfold Uuid.lt at h
  simp only [Bool.or_eq_true, Bool.and_eq_true, decide_eq_true_eq] at h
  have h1 := a.origin.isLt
  have h2 := b.origin.isLt
  rcases h with h | ⟨e, h⟩
  · omega
  · rw [e]; omega

/-- Every log has the op that created its object. -/
theorem _root_.Ron.Spec.SelfContained.rootN {s : MemStore} (h : SelfContained s) {k : Key} (hk : k.form = Form.LOG) :
    ∀ (n : Nat) {b : Body}, b.1.rank < n → HeldIn k s b →
    ∃ r, HeldIn k s r ∧ r.2.1.version = Uuid.vNAME ∧ Key.mk' r.1 Form.LOG = k := by
  intro n
  induction n with
  | zero => intro b hb; exact absurd hb (Nat.not_lt_zero _)
  | succ n ih =>
    intro b hb hh
    obtain ⟨-, ⟨h1, -, h3⟩ | ⟨-, hlt, x, hx, e⟩⟩ := h k b hk hh
    · exact ⟨b, hh, h1, h3⟩
    · refine ih (b := x) ?_ hx
      rw [e]
      have := Uuid.rank_lt hlt
      omega

theorem _root_.Ron.Spec.SelfContained.root {s : MemStore} (h : SelfContained s) {k : Key} (hk : k.form = Form.LOG)
    {b : Body} (hb : HeldIn k s b) :
    ∃ r, HeldIn k s r ∧ r.2.1.version = Uuid.vNAME ∧ Key.mk' r.1 Form.LOG = k := by
  obtain ⟨n, hn⟩ : ∃ n, b.1.rank < n := ⟨_, Nat.lt_succ_self _⟩
  exact h.rootN hk n hn hb

/-- A chain goes to the log and to the state. -/
theorem storeChain_whole {env : Env} {c c' : Commit} {m : OpMeta} {o : AOp} {os rest : List AOp}
    {fin st : Status} (hc : Fine c) (hw : Whole c.all) (hm : m.id = o.id) (hh : Headed c.all m o)
    (hsane : (checkEventSanity o).ok = true)
    (h : c.storeChain env m o os fin = some (st, c', rest)) (hok : st.ok = true) : Whole c'.all := by
  obtain ⟨extra, m', to, ht, hso, -, hx, hmem⟩ := storeChain_records hm hsane h hok
  have mono : ∀ k b, HeldIn k c.all b → HeldIn k c'.all b := by
    rintro k b ⟨f, hf, h⟩
    exact ⟨f, (hmem _).2 (Or.inl hf), h⟩
  have held : ∀ k b, k.form = Form.LOG → HeldIn k c'.all b → HeldIn k c.all b ∨
      (b ∈ to.bodies ∧ k = Key.mk' m.object Form.LOG) := by
    rintro k b hk ⟨f, hf, p, hp, rfl⟩
    have mem : p ∈ f → f = to.release → p.body ∈ to.bodies := by
      intro hp e
      rw [← release_bodies, ← e]
      exact List.mem_map.2 ⟨p, hp, rfl⟩
    rcases (hmem _).1 hf with h | h | h | h
    · exact Or.inl ⟨f, h, p, hp, rfl⟩
    · have := hx _ h
      exact absurd (this.symm.trans hk) (by decide)
    · cases h; exact Or.inr ⟨mem hp rfl, rfl⟩
    · cases h
      refine Or.inr ⟨mem hp rfl, ?_⟩
      unfold Key.ofUuids at hk ⊢
      rw [form_mk] at hk
      rw [hk]
  have new : ∀ k b, (k = Key.mk' m.object Form.LOG ∨ k = Key.ofUuids m.object m.rdt) → b ∈ to.bodies →
      HeldIn k c'.all b := by
    intro k b hk hb
    rw [← release_bodies] at hb
    obtain ⟨p, hp, e⟩ := List.mem_map.1 hb
    refine ⟨to.release, (hmem _).2 (Or.inr (Or.inr ?_)), p, hp, e⟩
    rcases hk with rfl | rfl
    · exact Or.inl rfl
    · exact Or.inr rfl
  have created : Created c'.all m.object m.rdt := by
    rcases hh with ⟨h1, h2, h3⟩ | ⟨-, -, h0, b, hb, e⟩
    · exact ⟨by rw [h3]; exact h1, o.body, new _ _ (Or.inl rfl) ht.first, h2.symm, h3.symm⟩
    · exact ⟨h0, b, mono _ _ hb, e⟩
  constructor
  · intro k f hf hi
    rcases (hmem _).1 hf with h | h | h | h
    · exact hw.order k f h hi
    · have := hx _ h
      simp only at this
      rw [this] at hi
      rcases hi with h | h | h <;> exact absurd h (by decide)
    · cases h; exact hso
    · cases h; exact hso
  · intro htd obj rdt hcr hsf b hb
    have htd' := htd.back fun k b _ h => mono k b h
    have hev : ∀ obj rdt, Created c'.all obj rdt → Props.IsEvent obj := by
      rintro obj rdt ⟨-, b, hb, e, -⟩
      rw [← e]; exact htd.event (form_log _) hb
    have hkey : ∀ obj, Props.IsEvent obj → Key.mk' obj Form.LOG = Key.mk' m.object Form.LOG → obj = m.object :=
      fun obj h1 h2 => (Props.C08_key_injective _ _ _ _ h1 (hev _ _ created) h2).1
    obtain ⟨h0, b0, hb0, e0, e0'⟩ := hcr
    have hobj : Props.IsEvent obj := hev obj rdt ⟨h0, b0, hb0, e0, e0'⟩
    rcases held _ _ (form_log _) hb with hb1 | ⟨hb1, hk⟩
    · -- an old op; the creation is old too
      obtain ⟨r, hr, hr1, hr2⟩ := hc.filed.logs.root (form_log obj) hb1
      have er : r.1 = obj := (Props.C08_key_injective _ _ _ _ (htd'.event (form_log _) hr) hobj hr2).1
      have e : r = b0 := htd.one _ _ _ _ (form_log _) (form_log _) (mono _ _ hr) hb0 (er.trans e0.symm)
      exact mono _ _ (hw.states htd' obj rdt ⟨h0, r, hr, er, by rw [e]; exact e0'⟩ hsf b hb1)
    · have eo := hkey obj hobj hk
      subst eo
      obtain ⟨-, b1, hb1', e1, e1'⟩ := created
      have e : b0 = b1 := htd.one _ _ _ _ (form_log _) (form_log _) hb0 hb1' (e0.trans e1.symm)
      have erdt : rdt = m.rdt := by rw [← e0', ← e1', e]
      rw [erdt]
      exact new _ _ (Or.inr rfl) hb1

/-- Adding a record of names or of the tip. -/
theorem Whole.add {s t : MemStore} {r : Key × Frame} (h : Whole s) (hr : r.1 = NAMES ∨ r.1 = Key.ZERO)
    (ho : ∃ o, r.2 = [o]) (ht : ∀ x, x ∈ t ↔ x = r ∨ x ∈ s) : Whole t := by
  have mono : ∀ k b, HeldIn k s b → HeldIn k t b := by
    rintro k b ⟨f, hf, h⟩
    exact ⟨f, (ht _).2 (Or.inr hf), h⟩
  have hl : r.1.form ≠ Form.LOG := by
    rcases hr with e | e
    · rw [e, show NAMES.form = Form.LWW from form_mk _ _]; decide
    · rw [e]; decide
  have back : ∀ k b, k.form = Form.LOG → HeldIn k t b → HeldIn k s b := by
    rintro k b hk ⟨f, hf, p, hp, rfl⟩
    rcases (ht _).1 hf with rfl | hx
    · exact absurd hk hl
    · exact ⟨f, hx, p, hp, rfl⟩
  constructor
  · intro k f hf hi
    rcases (ht _).1 hf with rfl | hx
    · obtain ⟨o, e⟩ := ho
      simp only at e
      rw [e]
      exact List.pairwise_singleton _ _
    · exact h.order k f hx hi
  · intro htd obj rdt hcr hsf b hb
    obtain ⟨h0, b0, hb0, e0, e0'⟩ := hcr
    exact mono _ _ (h.states (htd.back fun k b _ h => mono k b h) obj rdt
      ⟨h0, b0, back _ _ (form_log _) hb0, e0, e0'⟩ hsf b (back _ _ (form_log _) hb))

theorem dispatch_whole {env : Env} (hm : Honest env.mg) (hv : Saves env.mg) {c c' : Commit} {cur cur' : ACur}
    {st : Status} (hc : Fine c) (hw : Whole c.all) (hn : ∀ o ∈ cur.ops, Plain o)
    (h : c.dispatch env cur = some (st, c', cur')) (hok : st.ok = true) : Whole c'.all := by
  rcases dispatch_does (Q := True) hm hc hn (fun h => absurd trivial h) h hok with p | ⟨c1, m, o, os, fin, st', rest, p, hs, hok', e, hh, hsane, -⟩ |
    ⟨o, hmain, hmem⟩
  · exact p.whole hm hv hc hw
  · exact storeChain_whole (hc.still (p.still hm hc)) (p.whole hm hv hc hw) e hh hsane hs hok'
  · refine hw.add (r := (NAMES, [o])) (Or.inl rfl) ⟨o, rfl⟩ fun x => ?_
    unfold all
    rw [List.mem_append, List.mem_append, hmain, hmem]
    exact or_assoc

theorem dispatch_main_whole {env : Env} {c c' : Commit} {cur cur' : ACur} {st : Status}
    (hc : Whole c.main) (hv : cur.valid = true)
    (h : c.dispatch env cur = some (st, c', cur')) : Whole c'.main := by
  by_cases hn : ∃ o os, cur.ops = o :: os ∧ o.id = NAME_UUID
  · obtain ⟨o, os, hops, hid⟩ := hn
    have e : c.writeName env cur = some (st, c', cur') := by
      rw [← h]
      unfold dispatch
      rw [hops]
      simp only [hid]
      rw [if_neg (by decide), if_neg (by decide), if_pos (by decide), if_neg (by decide), if_pos trivial]
    rcases writeName_renamed e with rfl | ⟨o, hmain, -⟩
    · exact hc
    · exact hc.add (r := (NAMES, [o])) (Or.inl rfl) ⟨o, rfl⟩ hmain
  · rw [(dispatch_step hv (fun o os e hid => hn ⟨o, os, e, hid⟩) h).keeps.main]
    exact hc

theorem receiveLoop_whole {env : Env} (hm : Honest env.mg) (hv : Saves env.mg) : ∀ (fuel : Nat) {c c' : Commit}
    {cur : ACur} {st : Status}, Fine c → Whole c.all → (∀ o ∈ cur.ops, Plain o) →
    receiveLoop env fuel c cur = some (st, c') → st.ok = true → Whole c'.all := by
  intro fuel
  induction fuel with
  | zero => intro c c' cur st _ _ _ h; cases h
  | succ n ih =>
    intro c c' cur st hc hw hn h hok
    simp only [receiveLoop] at h
    split at h
    · cases h; exact hw
    · rename_i hval
      obtain ⟨r, hr, h⟩ := bind_some h
      split at h
      · cases h; exact absurd hok ‹_›
      · rename_i hok'
        have hc1 := dispatch_fine (st := r.1) (c' := r.2.1) (cur' := r.2.2) hm hc hn hr (ok_of_not_not hok')
        have hw1 := dispatch_whole (st := r.1) (c' := r.2.1) (cur' := r.2.2) hm hv hc hw hn hr (ok_of_not_not hok')
        split at h
        · obtain ⟨-, ⟨pre, e⟩, -⟩ := dispatch_named (st := r.1) (c' := r.2.1) (cur' := r.2.2)
            (by simpa using hval) hr
          exact ih hc1 hw1 (fun o ho => hn o (by rw [e]; exact List.mem_append_right _ ho)) h hok
        · cases h; exact hw1

theorem receiveLoop_main_whole {env : Env} : ∀ (fuel : Nat) {c c' : Commit} {cur : ACur}
    {st : Status}, Whole c.main → receiveLoop env fuel c cur = some (st, c') → Whole c'.main := by
  intro fuel
  induction fuel with
  | zero => intro c c' cur st _ h; cases h
  | succ n ih =>
    intro c c' cur st hc h
    simp only [receiveLoop] at h
    split at h
    · cases h; exact hc
    · rename_i hv
      obtain ⟨r, hr, h⟩ := bind_some h
      have hc1 := dispatch_main_whole (st := r.1) (c' := r.2.1) (cur' := r.2.2) hc (by simpa using hv) hr
      split at h
      · cases h; exact hc1
      · split at h
        · exact ih hc1 h
        · cases h; exact hc1

theorem save_whole {c : Commit} (hc : Whole c.all) (hm : Whole c.main) : Whole (c.save).2.main := by
  rcases save_main c with ⟨-, h | h⟩ | ⟨-, h⟩
  · rw [h]; exact hm
  · rw [h]
    refine hc.add (r := (Key.ZERO, [⟨c.tip, formUuid Form.ZERO, [], .raw⟩])) (Or.inr rfl) ⟨_, rfl⟩ fun x => ?_
    rw [mem_writeAll, mem_insert]
    unfold all
    rw [List.mem_append]
    grind
  · rw [h]; exact hm

/-- Whatever is received, states that were whole still are. -/
theorem receive_whole {env : Env} (hm : Honest env.mg) (hv : Saves env.mg) {main main' : MemStore} {tip : Uuid}
    {now now' : Word} {cur : ACur} {st : Status} (hid : ∀ o ∈ cur.ops, Plain o)
    (hf : Filed (formUuid Form.META) NAMES main) (hc : Whole main)
    (h : receive env main tip now cur = some (st, main', now')) : Whole main' := by
  unfold receive at h
  obtain ⟨r, hr, h⟩ := map_some h
  have h1 : Whole r.2.main := receiveLoop_main_whole (st := r.1) (c' := r.2) _ (c := start main tip now) hc hr
  split at h
  · cases h; exact h1
  · rename_i hok
    cases h
    have e : (start main tip now).all = main := by
      show main ++ [] = main
      exact List.append_nil _
    refine save_whole (receiveLoop_whole (st := r.1) (c' := r.2) hm hv _ (c := start main tip now) ?_ ?_ hid hr
      (Decidable.not_not.1 hok)) h1
    · exact ⟨List.Pairwise.nil, by rw [e]; exact hf⟩
    · rw [e]; exact hc

theorem key_ne_end {id : Uuid} {f : Form} (h : f ≠ Form.ERROR) : Key.mk' id f ≠ Key.END := by
  intro e
  have := form_mk id f
  rw [e] at this
  exact h (this.symm.trans (by decide))

theorem stateForm_ne {f : Form} (h : StateForm f) : f ≠ Form.ZERO ∧ f ≠ Form.LOG ∧ f ≠ Form.META ∧ f ≠ Form.ERROR := by
  rcases h with (h | h | h) | h <;> rw [h] <;> decide

theorem logged_at {s : MemStore} {b : Body} : Logged s b ↔ ∃ k, k.form = Form.LOG ∧ HeldIn k s b := by
  constructor
  · rintro ⟨r, hr, hk, h⟩; exact ⟨r.1, hk, r.2, hr, h⟩
  · rintro ⟨k, hk, f, hf, h⟩; exact ⟨(k, f), hf, hk, h⟩

/-- An op is in one log only. -/
theorem log_unique {s : MemStore} (hs : SelfContained s) (ht : Tidy s) : ∀ (n : Nat) {b : Body} {k k' : Key},
    b.1.rank < n → k.form = Form.LOG → k'.form = Form.LOG → HeldIn k s b → HeldIn k' s b → k = k' := by
  intro n
  induction n with
  | zero => intro b k k' hn; exact absurd hn (Nat.not_lt_zero _)
  | succ n ih =>
    intro b k k' hn hk hk' hb hb'
    obtain ⟨-, ⟨h1, -, h3⟩ | ⟨h1, hlt, x, hx, e⟩⟩ := hs k b hk hb
    · obtain ⟨-, ⟨-, -, h3'⟩ | ⟨h1', -⟩⟩ := hs k' b hk' hb'
      · rw [← h3, ← h3']
      · exact absurd (h1.symm.trans h1') version_ne
    · obtain ⟨-, ⟨h1', -⟩ | ⟨-, -, x', hx', e'⟩⟩ := hs k' b hk' hb'
      · exact absurd (h1'.symm.trans h1) version_ne
      · have ex : x = x' := ht.one _ _ _ _ hk hk' hx hx' (e.trans e'.symm)
        rw [← ex] at hx'
        have := Uuid.rank_lt hlt
        exact ih (b := x) (by rw [e]; omega) hk hk' hx hx'

/-- The events are in the same logs. -/
theorem logs_agree {s t : MemStore} (hs : SelfContained s) (ht : SelfContained t) (hts : Tidy s) (htt : Tidy t)
    (h : ∀ b, Logged s b ↔ Logged t b) : ∀ (n : Nat) {b : Body} {k : Key},
    b.1.rank < n → k.form = Form.LOG → HeldIn k s b → HeldIn k t b := by
  intro n
  induction n with
  | zero => intro b k hn; exact absurd hn (Nat.not_lt_zero _)
  | succ n ih =>
    intro b k hn hk hb
    obtain ⟨k', hk', hb'⟩ := logged_at.1 ((h b).1 (logged_at.2 ⟨k, hk, hb⟩))
    have ek : k' = k := by
      obtain ⟨-, ⟨h1, -, h3⟩ | ⟨h1, hlt, x, hx, e⟩⟩ := hs k b hk hb
      · obtain ⟨-, ⟨-, -, h3'⟩ | ⟨h1', -⟩⟩ := ht k' b hk' hb'
        · rw [← h3, ← h3']
        · exact absurd (h1.symm.trans h1') version_ne
      · obtain ⟨-, ⟨h1', -⟩ | ⟨-, -, x', hx', e'⟩⟩ := ht k' b hk' hb'
        · exact absurd (h1'.symm.trans h1) version_ne
        · obtain ⟨k'', hk'', hx''⟩ := logged_at.1 ((h x').2 (logged_at.2 ⟨k', hk', hx'⟩))
          have ex : x = x' := hts.one _ _ _ _ hk hk'' hx hx'' (e.trans e'.symm)
          have := Uuid.rank_lt hlt
          have hxt : HeldIn k t x := ih (by rw [e]; omega) hk hx
          rw [← ex] at hx'
          exact log_unique ht htt _ (Nat.lt_succ_self _) hk' hk hx' hxt
    rw [← ek]; exact hb'

theorem _root_.Ron.Spec.Tidy.of_same {s t : MemStore} (ht : Tidy s) (h : ∀ b, Logged s b ↔ Logged t b) : Tidy t := by
  constructor
  · intro k b hk hb
    obtain ⟨k', hk', hb'⟩ := logged_at.1 ((h b).2 (logged_at.2 ⟨k, hk, hb⟩))
    exact ht.plain k' b hk' hb'
  · intro k k' b b' hk hk' hb hb' e
    obtain ⟨j, hj, hbj⟩ := logged_at.1 ((h b).2 (logged_at.2 ⟨k, hk, hb⟩))
    obtain ⟨j', hj', hbj'⟩ := logged_at.1 ((h b').2 (logged_at.2 ⟨k', hk', hb'⟩))
    exact ht.one j j' b b' hj hj' hbj hbj' e

/-! ## Arrays are kept as they came, if nothing is queried -/

/-- The records of arrays are chains. -/
def ArrayChains (s : MemStore) : Prop := ∀ k f, (k, f) ∈ s → k.form = Form.RGA → ChainFrame f ∧ IdSorted f

theorem read_others {env : Env} {c c' : Commit} (hs : MemStore.Sorted c.mem) {k : Key} {st : Status} {f : Frame}
    (h : c.read env k [] = some (st, f, c')) (j : Key) (hj : j ≠ k) (g : Frame) :
    (j, g) ∈ c'.all → (j, g) ∈ c.all := by
  unfold read at h
  obtain ⟨a, ha, h⟩ := bind_some h
  split at h
  · cases h; exact id
  · obtain ⟨b, hb, h⟩ := bind_some h
    have q : (j, g) ∈ ({ c with mem := b.2.2 } : Commit).all → (j, g) ∈ c.all := by
      unfold all
      rw [List.mem_append, List.mem_append]
      refine Or.imp id fun hg => ?_
      rw [← mem_recs] at hg ⊢
      rcases MemStore.read_eq env.mg hs k [] with ⟨e, hr⟩ | ⟨g, e, hr⟩ | ⟨-, ⟨-, hr⟩ | ⟨st', out, s'', em, hr, hs'', er, ho⟩⟩
      · rw [hr] at hb; cases hb; exact hg
      · rw [hr] at hb; cases hb; exact hg
      · rw [hr] at hb; cases hb
      · rw [hr] at hb
        cases hb
        rw [ho j hj] at hg; exact hg
    simp only at h
    split at h
    · cases h; exact q
    · split at h
      · cases h; exact q
      · split at h
        · cases h; exact q
        · obtain ⟨r, hr, h⟩ := map_some h
          split at h <;> (cases h; exact q)

theorem Reads.chained {env : Env} (hm : Honest env.mg) {c c' : Commit} (p : Reads env False c c') :
    Fine c → ArrayChains c.all → ArrayChains c'.all := by
  induction p with
  | same h1 h2 => intro _ hw; unfold all; rw [h1, h2]; exact hw
  | read h hok =>
    intro hc hw k f hf hk
    have hl := hok.resolve_left fun h => h.1
    refine hw k f (read_others hc.sorted h k ?_ f hf) hk
    rintro rfl
    rw [hk] at hl
    exact absurd hl (by decide)
  | trans p1 _ ih1 ih2 => exact fun hc hw => ih2 (hc.still (p1.still hm hc)) (ih1 hc hw)

theorem ArrayChains.add {s t : MemStore} {r : Key × Frame} (h : ArrayChains s) (hr : r.1 = NAMES ∨ r.1 = Key.ZERO)
    (ht : ∀ x, x ∈ t ↔ x = r ∨ x ∈ s) : ArrayChains t := by
  intro k f hf hk
  rcases (ht _).1 hf with rfl | hx
  · rcases hr with e | e <;> (simp only at e; rw [e] at hk; exact absurd hk (by decide))
  · exact h k f hx hk

theorem dispatch_chained {env : Env} (hm : Honest env.mg) {c c' : Commit} {cur cur' : ACur}
    {st : Status} (hc : Fine c) (hw : ArrayChains c.all) (hn : ∀ o ∈ cur.ops, Plain o) (hu : ∀ o ∈ cur.ops, Update o)
    (h : c.dispatch env cur = some (st, c', cur')) (hok : st.ok = true) : ArrayChains c'.all := by
  rcases dispatch_does (Q := False) hm hc hn (fun _ => hu) h hok with p |
    ⟨c1, m, o, os, fin, st', rest, p, hs, hok', e, hh, hsane, -⟩ | ⟨o, hmain, hmem⟩
  · exact p.chained hm hc hw
  · have hw1 := p.chained hm hc hw
    obtain ⟨extra, m', to, ht, hso, hch, hx, hmem⟩ := storeChain_records e hsane hs hok'
    intro k f hf hk
    rcases (hmem _).1 hf with h | h | h | h
    · exact hw1 k f h hk
    · have := hx _ h
      exact absurd (this.symm.trans hk) (by decide)
    · cases h; exact ⟨hch, hso⟩
    · cases h; exact ⟨hch, hso⟩
  · refine hw.add (r := (NAMES, [o])) (Or.inl rfl) fun x => ?_
    unfold all
    rw [List.mem_append, List.mem_append, hmain, hmem]
    exact or_assoc

theorem dispatch_main_chained {env : Env} {c c' : Commit} {cur cur' : ACur} {st : Status}
    (hc : ArrayChains c.main) (hv : cur.valid = true)
    (h : c.dispatch env cur = some (st, c', cur')) : ArrayChains c'.main := by
  by_cases hn : ∃ o os, cur.ops = o :: os ∧ o.id = NAME_UUID
  · obtain ⟨o, os, hops, hid⟩ := hn
    have e : c.writeName env cur = some (st, c', cur') := by
      rw [← h]
      unfold dispatch
      rw [hops]
      simp only [hid]
      rw [if_neg (by decide), if_neg (by decide), if_pos (by decide), if_neg (by decide), if_pos trivial]
    rcases writeName_renamed e with rfl | ⟨o, hmain, -⟩
    · exact hc
    · exact hc.add (r := (NAMES, [o])) (Or.inl rfl) hmain
  · rw [(dispatch_step hv (fun o os e hid => hn ⟨o, os, e, hid⟩) h).keeps.main]
    exact hc

theorem receiveLoop_chained {env : Env} (hm : Honest env.mg) : ∀ (fuel : Nat) {c c' : Commit}
    {cur : ACur} {st : Status}, Fine c → ArrayChains c.all → (∀ o ∈ cur.ops, Plain o) → (∀ o ∈ cur.ops, Update o) →
    receiveLoop env fuel c cur = some (st, c') → st.ok = true → ArrayChains c'.all := by
  intro fuel
  induction fuel with
  | zero => intro c c' cur st _ _ _ _ h; cases h
  | succ n ih =>
    intro c c' cur st hc hw hn hu h hok
    simp only [receiveLoop] at h
    split at h
    · cases h; exact hw
    · rename_i hval
      obtain ⟨r, hr, h⟩ := bind_some h
      split at h
      · cases h; exact absurd hok ‹_›
      · rename_i hok'
        have hc1 := dispatch_fine (st := r.1) (c' := r.2.1) (cur' := r.2.2) hm hc hn hr (ok_of_not_not hok')
        have hw1 := dispatch_chained (st := r.1) (c' := r.2.1) (cur' := r.2.2) hm hc hw hn hu hr (ok_of_not_not hok')
        split at h
        · obtain ⟨-, ⟨pre, e⟩, -⟩ := dispatch_named (st := r.1) (c' := r.2.1) (cur' := r.2.2)
            (by simpa using hval) hr
          exact ih hc1 hw1 (fun o ho => hn o (by rw [e]; exact List.mem_append_right _ ho))
            (fun o ho => hu o (by rw [e]; exact List.mem_append_right _ ho)) h hok
        · cases h; exact hw1

theorem receiveLoop_main_chained {env : Env} : ∀ (fuel : Nat) {c c' : Commit} {cur : ACur}
    {st : Status}, ArrayChains c.main → receiveLoop env fuel c cur = some (st, c') → ArrayChains c'.main := by
  intro fuel
  induction fuel with
  | zero => intro c c' cur st _ h; cases h
  | succ n ih =>
    intro c c' cur st hc h
    simp only [receiveLoop] at h
    split at h
    · cases h; exact hc
    · rename_i hv
      obtain ⟨r, hr, h⟩ := bind_some h
      have hc1 := dispatch_main_chained (st := r.1) (c' := r.2.1) (cur' := r.2.2) hc (by simpa using hv) hr
      split at h
      · cases h; exact hc1
      · split at h
        · exact ih hc1 h
        · cases h; exact hc1

theorem receive_chained {env : Env} (hm : Honest env.mg) {main main' : MemStore} {tip : Uuid}
    {now now' : Word} {cur : ACur} {st : Status} (hid : ∀ o ∈ cur.ops, Plain o) (hu : ∀ o ∈ cur.ops, Update o)
    (hf : Filed (formUuid Form.META) NAMES main) (hc : ArrayChains main)
    (h : receive env main tip now cur = some (st, main', now')) : ArrayChains main' := by
  unfold receive at h
  obtain ⟨r, hr, h⟩ := map_some h
  have h1 : ArrayChains r.2.main := receiveLoop_main_chained (st := r.1) (c' := r.2) _ (c := start main tip now) hc hr
  split at h
  · cases h; exact h1
  · rename_i hok
    cases h
    have e : (start main tip now).all = main := by
      show main ++ [] = main
      exact List.append_nil _
    have h2 : ArrayChains r.2.all := receiveLoop_chained (st := r.1) (c' := r.2) hm _ (c := start main tip now)
      ⟨List.Pairwise.nil, by rw [e]; exact hf⟩ (by rw [e]; exact hc) hid hu hr (Decidable.not_not.1 hok)
    rcases save_main r.2 with ⟨-, h | h⟩ | ⟨-, h⟩
    · rw [h]; exact h1
    · rw [h]
      refine h2.add (r := (Key.ZERO, [⟨r.2.tip, formUuid Form.ZERO, [], .raw⟩])) (Or.inr rfl) fun x => ?_
      rw [mem_writeAll, mem_insert]
      unfold all
      rw [List.mem_append]
      grind
    · rw [h]; exact h1

/-! ## Chains are pieces of the tree -/

theorem chain_piece {ops : List AOp} {root : Uuid} (ht : Tree ops root) {f : Frame} (hsub : ∀ o ∈ f, o ∈ ops)
    (hc : ChainFrame f) (hs : IdSorted f) : Piece ops root f := by
  obtain ⟨path, P, hiff⟩ := ht.paths
  have ext : ∀ pre a b post, f = pre ++ a :: b :: post → path b = path a ++ [b.id] := by
    intro pre a b post e
    have ha : a ∈ ops := hsub a (by rw [e]; simp)
    have hb : b ∈ ops := hsub b (by rw [e]; simp)
    have hlt : Uuid.lt a.id b.id = true := by
      unfold IdSorted at hs
      rw [e, List.pairwise_append] at hs
      exact (List.pairwise_cons.1 hs.2.1).1 b (by simp)
    exact (hiff b hb _).1 (.child a b _ ((hiff a ha _).2 rfl) hb (hc pre a b post e) hlt)
  have far : ∀ (mid : List AOp) pre a b post, f = pre ++ a :: (mid ++ b :: post) →
      ∃ r, r ≠ [] ∧ path b = path a ++ r := by
    intro mid
    induction mid with
    | nil => intro pre a b post e; exact ⟨[b.id], by simp, ext pre a b post e⟩
    | cons m ms ih =>
      intro pre a b post e
      obtain ⟨r, -, er⟩ := ih (pre ++ [a]) m b post (by rw [e]; simp)
      refine ⟨m.id :: r, by simp, ?_⟩
      rw [er, ext pre a m (ms ++ b :: post) (by rw [e]; simp)]
      simp
  constructor
  · unfold InOrder
    have : ∀ pre l, f = pre ++ l → l.Pairwise fun x y => ∀ p q, Spec.Path ops root x p → Spec.Path ops root y q →
        before p q = true := by
      intro pre l
      induction l generalizing pre with
      | nil => intro _; exact List.Pairwise.nil
      | cons a l ih =>
        intro e
        refine List.pairwise_cons.2 ⟨fun b hb p q hp hq => ?_, ih (pre ++ [a]) (by rw [e]; simp)⟩
        obtain ⟨mid, post, el⟩ := List.append_of_mem hb
        obtain ⟨r, hr, er⟩ := far mid pre a b post (by rw [e, el])
        rw [← (hiff a hp.mem p).1 hp, ← (hiff b hq.mem q).1 hq, er]
        exact before_append _ _ hr
    exact this [] f rfl
  · intro pre o post e hne
    obtain ⟨pre', a, rfl⟩ := (List.eq_nil_or_concat pre).resolve_left hne
    refine ⟨a, by simp, ?_⟩
    exact (hc pre' a o post (by rw [e]; simp)).symm

end Commit
end Ron
