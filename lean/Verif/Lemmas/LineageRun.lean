import Verif.Lemmas.LineageFind
import Verif.Props.Annotations
/-!
What chains do to a store that holds a history of chains.
-/
namespace Ron
open Spec

namespace Spec
variable {H F : List Chain}

theorem Joint.nil (obj : Uuid) : Joint H [] obj := Or.inr (Or.inl fun _ h => by cases h)

/-- If every object is joint, everything may be looked for. -/
theorem Clear.of_joint (h : ∀ obj, Joint H F obj) (i : Uuid) : Clear H F i := by
  by_cases hd : ∃ d, At (H ++ F) i d
  · obtain ⟨d, hd⟩ := hd
    exact Or.inl ⟨d, hd, Or.inr (h _)⟩
  · exact Or.inr ⟨fun d h => hd ⟨d, h⟩, h⟩

theorem Clear.nil (i : Uuid) : Clear H [] i := Clear.of_joint Joint.nil i
end Spec

namespace Commit

variable {wh : Bool} {H F : List Chain} {note : Uuid → List Nat} {s : MemStore} {v : Rdt.View} {env : Env} {tip : Uuid} {now : Word}
  {c : Commit}

theorem mid_nil (M : Mid wh H [] note c) : c.mem = [] := by
  match hm : c.mem with
  | [] => rfl
  | r :: t =>
    exfalso
    have hr : r ∈ c.mem := by rw [hm]; exact List.mem_cons_self
    have hs : r.2 ∈ stored r.1 c.mem := mem_stored.2 hr
    by_cases h1 : r.1.form = Form.LOG
    · have := M.mem.log r.1 h1
      match hl : stored r.1 c.mem, hs, M.mem.full r.1 h1, this with
      | f :: fs, _, hne, this =>
        simp only [List.filter_nil, List.flatMap_nil, List.map_nil, List.map_eq_nil_iff, List.flatten_cons,
          List.append_eq_nil_iff] at this
        exact hne (by rw [this.1]; exact List.mem_cons_self)
    · by_cases h2 : r.1.form = Form.META
      · rw [M.mem.index r.1 h2] at hs; cases hs
      · rw [(M.mem.state r.1 h1 h2 (M.low r hr)).exact rfl] at hs; cases hs

theorem MemOnly.trans {c1 c2 : Commit} (h : MemOnly c c1) (h' : MemOnly c1 c2) : MemOnly c c2 := by
  obtain ⟨m, rfl, h1⟩ := h
  obtain ⟨m', rfl, h2⟩ := h'
  exact ⟨m', rfl, fun h => h2 (h1 h)⟩

/-- A fresh transaction stays as it was. -/
theorem start_same (h : MemOnly (start s tip now) c) (M : Mid wh H [] note c) : c = start s tip now := by
  obtain ⟨m, rfl, -⟩ := h
  have : m = [] := mid_nil M
  subst this
  rfl

/-- A chain that goes on from the history finds its yarn and its object. -/
theorem meta_follows (L : Lineage (H ++ F)) (M : Mid wh H F note c) (hv : env.mg = Rdt.mergeCursors v) {d : Chain}
    (P : Proper d.head d.rest) (hf : Spec.Follows (H ++ F) d) (hcy : Clear H F ⟨NEVER, d.head.id.origin⟩)
    (hcr : d.head.ref.version = Uuid.vTIME → Clear H F d.head.ref) :
    (checkEventSanity d.head).ok = true ∧ ∃ t m c1 c2, c.yarnTip env d.head = some (Status.OK, t, c1) ∧
      c1.headMeta env t d.head = some (Status.OK, m, c2) ∧ Mid wh H F note c2 ∧ m.object = d.object ∧ m.rdt = d.rdt := by
  have hi := P.stamp.time
  have hok : Status.OK.ok = true := by decide
  refine ⟨?_, ?_⟩
  · unfold checkEventSanity
    rw [if_neg (by rw [hi]; decide)]
    rcases hf.cause with ⟨h1, h2, -⟩ | ⟨h1, h2, -⟩
    · rw [if_neg (by rw [h1]; decide), if_neg (by rw [h1]; decide), if_neg h2]; decide
    · rw [if_pos h1, if_neg (by unfold Uuid.ge; rw [h2]; decide)]; decide
  · rcases hf.yarn with ⟨h1, h2⟩ | ⟨h1, ⟨i, hk, ho⟩, h2⟩
    · have hn : d.head.ref.version = Uuid.vNAME := by rw [h1]; decide +kernel
      obtain ⟨h3, h4⟩ : d.object = d.head.id ∧ d.rdt = d.head.ref := by
        rcases hf.cause with ⟨-, -, h3, h4⟩ | ⟨h3, -⟩
        · exact ⟨h3, h4⟩
        · rw [hn] at h3; exact absurd h3 (by decide)
      have hy : ∃ t, c.yarnTip env d.head = some (Status.OK, t, c) ∧ t.id = d.head.id := by
        unfold yarnTip
        rw [yarn_unknown L M hv P.stamp.2 h2 hcy, Option.bind_some, if_pos h1]
        simp only
        rw [if_pos (by decide), root_some hi hn]
        exact ⟨_, rfl, rfl⟩
      obtain ⟨t, hy, ht⟩ := hy
      have hh : ∃ m, c.headMeta env t d.head = some (Status.OK, m, c) ∧ m.object = d.object ∧ m.rdt = d.rdt := by
        unfold headMeta
        rw [if_neg (by
          rw [ht]
          intro e
          rw [e, hi] at hn
          exact absurd hn (by decide)), if_pos hn, if_neg (by rw [h1]; decide +kernel), root_some hi hn]
        exact ⟨_, rfl, h3.symm, h4.symm⟩
      obtain ⟨m, hh, g1, g2⟩ := hh
      exact ⟨t, m, c, c, hy, hh, M, g1, g2⟩
    · obtain ⟨t, e0, c1, he0, e, M1, hhas, hto, -, tobj, trdt⟩ := yarn_known L M hv hk ho hcy
      have hlt : Uuid.lt t.id d.head.id = true := h2 _ ⟨e0, he0, hhas⟩ hto
      have hy : c.yarnTip env d.head = some (Status.OK, t, c1) := by
        unfold yarnTip
        rw [e, Option.bind_some, if_neg h1]
        simp only [hok, not_true_eq_false, if_false]
        rw [if_neg]
        unfold Uuid.ge
        rw [hlt]
        decide
      have hnext : ∀ x : OpMeta, ∃ m, t.next env.hs d.head x = some m ∧ m.rdt = x.rdt ∧ m.object = x.object := by
        intro x
        unfold OpMeta.next
        rw [if_pos ⟨hto.symm, hlt⟩]
        exact ⟨_, rfl, rfl, rfl⟩
      have htime : t.id.version = Uuid.vTIME := (L.known ⟨e0, he0, hhas⟩).time
      rcases hf.cause with ⟨h3, h4, h5, h6⟩ | ⟨h3, h4, b, hb, h5, h6, h7⟩
      · have : ∃ m, c1.headMeta env t d.head = some (Status.OK, m, c1) ∧
            m.object = d.head.id ∧ m.rdt = d.head.ref := by
          unfold headMeta
          rw [if_neg (by
            intro e
            rw [e, htime] at h3
            exact absurd h3 (by decide)), if_pos h3, if_neg (types_form ((P.type h3).resolve_left h4)).2.2.2, root_some hi h3]
          exact ⟨_, rfl, rfl, rfl⟩
        obtain ⟨m, e1, e2, e3⟩ := this
        exact ⟨t, m, c1, c1, hy, e1, M1, e2.trans h5.symm, e3.trans h6.symm⟩
      · by_cases hrt : d.head.ref = t.id
        · obtain ⟨m, e1, e2, e3⟩ := hnext t
          have : b = e0 := L.unique hb he0 h5 (by rw [hrt]; exact hhas)
          subst this
          refine ⟨t, m, c1, c1, hy, ?_, M1, by rw [e3, tobj, h6], by rw [e2, trdt, h7]⟩
          unfold headMeta
          rw [if_pos hrt, e1]
          rfl
        · obtain ⟨r, c2, e0, M2, -, r1, r2⟩ := findOpMeta_has L M1 hv hb h5 (hcr h3)
          obtain ⟨m, e1, e2, e3⟩ := hnext r
          refine ⟨t, m, c1, c2, hy, ?_, M2, by rw [e3, r1, h6], by rw [e2, r2, h7]⟩
          unfold headMeta
          rw [if_neg hrt, if_neg (by rw [h3]; decide), e0, Option.bind_some]
          simp only [hok, not_true_eq_false, if_false]
          rw [e1]
          rfl

/-- A chain that does not go on from the history is refused. -/
theorem save_refuses (L : Lineage (H ++ F)) (M : Mid wh H F note c) (hv : env.mg = Rdt.mergeCursors v) {o : AOp} {os : List AOp}
    (P : Proper o os) (hf : ∀ d : Chain, d.head = o → d.rest = os → ¬ Spec.Follows (H ++ F) d)
    (hcy : Clear H F ⟨NEVER, o.id.origin⟩) (hcr : o.ref.version = Uuid.vTIME → Clear H F o.ref)
    (rest : List AOp) (fin : Status) (b : Bool) :
    ∃ st c', c.saveChain env ⟨o :: rest, fin, b⟩ = some (st, c', ⟨o :: rest, fin, b⟩) ∧ st.ok = false ∧ MemOnly c c' := by
  have hi := P.stamp.time
  unfold saveChain
  simp only
  by_cases hs : (checkEventSanity o).ok = true
  · rw [if_neg (by rw [hs]; simp)]
    have hsr := sane_ref hs
    by_cases hky : ∃ i, Spec.Known (H ++ F) i ∧ i.origin = o.id.origin
    · obtain ⟨i, hk, ho⟩ := hky
      obtain ⟨t, d, c1, hd, e, M1, hhas, hto, hgr, -, -⟩ := yarn_known L M hv hk ho hcy
      have k1 : MemOnly c c1 := findOpMeta_keeps e
      by_cases hy : o.ref = formUuid Form.YARN
      · have : ∃ st, st.ok = false ∧ c.yarnTip env o = some (st, t, c1) := by
          unfold yarnTip
          rw [e, Option.bind_some, if_pos hy]
          simp only
          rw [if_neg (by decide), if_neg (by decide)]
          split
          · exact ⟨Status.REPEAT, by decide, rfl⟩
          · exact ⟨Status.CONFLICT, by decide, rfl⟩
        obtain ⟨st, h1, h2⟩ := this
        rw [h2, Option.bind_some]
        simp only
        rw [if_pos (by rw [h1]; decide)]
        exact ⟨st, c1, rfl, h1, k1⟩
      · by_cases hlt : Uuid.lt t.id o.id = true
        · have hyt : c.yarnTip env o = some (Status.OK, t, c1) := by
            unfold yarnTip
            rw [e, Option.bind_some, if_neg hy]
            simp only
            rw [if_neg (by decide), if_neg]
            unfold Uuid.ge
            rw [hlt]
            decide
          rw [hyt, Option.bind_some]
          simp only
          rw [if_neg (by decide)]
          have hyarn : o.ref ≠ formUuid Form.YARN ∧ (∃ i, Spec.Known (H ++ F) i ∧ i.origin = o.id.origin) ∧
              ∀ i, Spec.Known (H ++ F) i → i.origin = o.id.origin → Uuid.lt i o.id = true := by
            refine ⟨hy, ⟨i, hk, ho⟩, fun j hj hjo => ?_⟩
            have h1 := hgr j hj hjo
            have h2 := (Uuid.lt_same hto).1 hlt
            exact (Uuid.lt_same hjo).2 (by omega)
          rcases hsr with ⟨h1, h2⟩ | ⟨h1, h2⟩
          · exact absurd (⟨Or.inr hyarn, Or.inl ⟨h1, h2, rfl, rfl⟩⟩ : Spec.Follows (H ++ F) ⟨o, os, o.id, o.ref⟩) (hf _ rfl rfl)
          · by_cases hkr : Spec.Known (H ++ F) o.ref
            · obtain ⟨b, hb, hbh⟩ := hkr
              exact absurd (⟨Or.inr hyarn, Or.inr ⟨h1, h2, b, hb, hbh, rfl, rfl⟩⟩ :
                Spec.Follows (H ++ F) ⟨o, os, b.object, b.rdt⟩) (hf _ rfl rfl)
            · obtain ⟨m, c2, e0, -⟩ := findOpMeta_not L M1 hv (P.cause h1) hkr (hcr h1)
              have k2 : MemOnly c1 c2 := findOpMeta_keeps e0
              have : c1.headMeta env t o = some (Status.NOT_FOUND, t, c2) := by
                unfold headMeta
                rw [if_neg (by
                  intro e
                  exact hkr (by rw [e]; exact ⟨d, hd, hhas⟩)), if_neg (by rw [h1]; decide), e0, Option.bind_some]
                simp only
                rw [if_pos (by decide)]
              rw [this, Option.bind_some]
              simp only
              rw [if_pos (by decide)]
              exact ⟨Status.NOT_FOUND, c2, rfl, by decide, k1.trans k2⟩
        · have : c.yarnTip env o = some (Status.CAUSEBREAK, t, c1) := by
            unfold yarnTip
            rw [e, Option.bind_some, if_neg hy]
            simp only
            rw [if_neg (by decide), if_pos]
            unfold Uuid.ge
            rw [Bool.not_eq_true] at hlt
            rw [hlt]
            decide
          rw [this, Option.bind_some]
          simp only
          rw [if_pos (by decide)]
          exact ⟨Status.CAUSEBREAK, c1, rfl, by decide, k1⟩
    · have hun : ∀ i, Spec.Known (H ++ F) i → i.origin ≠ o.id.origin := fun i hi e => hky ⟨i, hi, e⟩
      have e := yarn_unknown L M hv P.stamp.2 hun hcy
      by_cases hy : o.ref = formUuid Form.YARN
      · have hn : o.ref.version = Uuid.vNAME := by rw [hy]; decide +kernel
        exact absurd (⟨Or.inl ⟨hy, hun⟩, Or.inl ⟨hn, by rw [hy]; decide +kernel, rfl, rfl⟩⟩ :
          Spec.Follows (H ++ F) ⟨o, os, o.id, o.ref⟩) (hf _ rfl rfl)
      · have : c.yarnTip env o = some (Status.NOT_FOUND, OpMeta.nil, c) := by
          unfold yarnTip
          rw [e, Option.bind_some, if_neg hy]
          simp only
          rw [if_pos (by decide)]
        rw [this, Option.bind_some]
        simp only
        rw [if_pos (by decide)]
        exact ⟨Status.NOT_FOUND, c, rfl, by decide, MemOnly.rfl' _⟩
  · rw [if_pos hs]
    exact ⟨_, c, rfl, by simpa using hs, MemOnly.rfl' _⟩

/-! ### What is written -/

theorem chainRecords_stored {hs : Hashing} {m : OpMeta} {d : Chain} (hs' : KeyOrder s) (k : Key) :
    stored k (chainRecords hs m d.head d.rest s) = stored k s ++
      ((if k = Key.mk' d.head.id Form.META then [m.save hs] else []) ++
       (if k = Key.mk' m.object Form.LOG then [punctuate d.ops] else []) ++
       (if k = Key.ofUuids m.object m.rdt then [punctuate d.ops] else [])) := by
  have h1 := MemStore.insert_sorted hs' (Key.mk' d.head.id Form.META) (m.save hs)
  have h2 := MemStore.insert_sorted h1 (Key.mk' m.object Form.LOG) (punctuate d.ops)
  show MemStore.recs k _ = _
  unfold chainRecords
  rw [show d.head :: d.rest = d.ops from rfl, MemStore.insert_recs h2, MemStore.insert_recs h1, MemStore.insert_recs hs']
  simp only [List.append_assoc]

theorem chainRecords_mem {hs : Hashing} {m : OpMeta} {d : Chain} {r : Key × Frame} :
    r ∈ chainRecords hs m d.head d.rest s ↔
    r = (Key.ofUuids m.object m.rdt, punctuate d.ops) ∨ r = (Key.mk' m.object Form.LOG, punctuate d.ops) ∨
    r = (Key.mk' d.head.id Form.META, m.save hs) ∨ r ∈ s := by
  unfold chainRecords
  rw [mem_insert, mem_insert, mem_insert]
  rfl

theorem chainRecords_sorted {hs : Hashing} {m : OpMeta} {d : Chain} (hs' : KeyOrder s) :
    KeyOrder (chainRecords hs m d.head d.rest s) :=
  MemStore.insert_sorted (MemStore.insert_sorted (MemStore.insert_sorted hs' _ _) _ _) _ _

/-- The notes of the chains of the history are all that matters. -/
theorem retains_note {note' : Uuid → List Nat} (K : Retains wh H note s) (h : ∀ d ∈ H, note d.head.id = note' d.head.id) :
    Retains wh H note' s := by
  refine ⟨K.sorted, K.log, K.full, fun k hk => ?_, K.state, K.tips⟩
  rw [K.index k hk]
  apply List.map_congr_left
  intro d hd
  unfold Chain.entry
  rw [h d (List.mem_filter.1 hd).1]

/-- The records of a chain are added to the transaction. -/
theorem chainRecords_retains {hs : Hashing} {m : OpMeta} {d : Chain} (S : Sound (F ++ [d])) (K : Retains true F note s)
    (hn : note d.head.id = hs.text m.hash) (hid : m.id = d.head.id) (ho : m.object = d.object) (hr : m.rdt = d.rdt) :
    Retains true (F ++ [d]) note (chainRecords hs m d.head d.rest s) := by
  have hty := types_form (S.object d (by simp)).2
  have hkf : (Key.ofUuids d.object d.rdt).form = uuid2form d.rdt := by unfold Key.ofUuids; exact form_mk _ _
  have hz : Key.ZERO.form = Form.ZERO := by decide
  have key : ∀ {k k' : Key} {x : Frame}, k.form ≠ k'.form → (if k = k' then [x] else []) = [] :=
    fun h => if_neg fun e => h (by rw [e])
  have single : ∀ (p : Chain → Bool), ([d].filter p) = if p d then [d] else [] := fun p => by
    cases h : p d <;> simp [h]
  have pieces : ∀ (k j : Key) (x : Frame) (f : Chain → Frame), f d = x →
      (if k = j then [x] else []) = (if decide (j = k) = true then [d] else []).map f := by
    intro k j x f e
    by_cases h : k = j
    · rw [if_pos h, if_pos (by simp [h])]; simp [e]
    · rw [if_neg h, if_neg (by simp [Ne.symm h])]; rfl
  have log : ∀ k : Key, k.form = Form.LOG → stored k (chainRecords hs m d.head d.rest s) = stored k s ++
      (if k = Key.mk' d.object Form.LOG then [punctuate d.ops] else []) := by
    intro k hk
    rw [chainRecords_stored K.sorted, ho, hr,
      key (show k.form ≠ (Key.mk' d.head.id Form.META).form by rw [hk, form_mk]; decide),
      key (show k.form ≠ (Key.ofUuids d.object d.rdt).form by rw [hk, hkf]; exact Ne.symm hty.2.1)]
    simp only [List.nil_append, List.append_nil]
  refine ⟨chainRecords_sorted K.sorted, ?_, ?_, ?_, ?_, ?_⟩
  · intro k hk
    rw [log k hk, List.flatten_append, List.map_append, K.log k hk, List.filter_append, List.flatMap_append,
      List.map_append, single]
    congr 1
    by_cases h : k = Key.mk' d.object Form.LOG
    · rw [if_pos h, if_pos (by simp [h])]
      simp [Rdt.punctuate_body]
    · rw [if_neg h, if_neg (by simp [Ne.symm h])]
      rfl
  · intro k hk hmem
    rw [log k hk] at hmem
    rcases List.mem_append.1 hmem with h | h
    · exact K.full k hk h
    · split at h
      · exact punctuate_ne (List.mem_singleton.1 h).symm
      · cases h
  · intro k hk
    rw [chainRecords_stored K.sorted, K.index k hk, List.filter_append, List.map_append, single, ho, hr,
      key (show k.form ≠ (Key.mk' d.object Form.LOG).form by rw [hk, form_mk]; decide),
      key (show k.form ≠ (Key.ofUuids d.object d.rdt).form by rw [hk, hkf]; exact Ne.symm hty.2.2.1)]
    simp only [List.append_nil]
    rw [pieces k (Key.mk' d.head.id Form.META) (m.save hs) (fun d => [d.entry note]) (by
        unfold Chain.entry OpMeta.save
        rw [hid, ho, hr, hn])]
  · intro k h1 h2 h3
    rw [chainRecords_stored K.sorted, List.filter_append, single, ho, hr,
      key (show k.form ≠ (Key.mk' d.head.id Form.META).form by rw [form_mk]; exact h2),
      key (show k.form ≠ (Key.mk' d.object Form.LOG).form by rw [form_mk]; exact h1)]
    simp only [List.nil_append]
    refine (K.state k h1 h2 h3).append ?_
    by_cases h : k = Key.ofUuids d.object d.rdt
    · rw [if_pos h, if_pos (by simp [h])]
      exact Stands.chain (S.proper d (by simp))
    · rw [if_neg h, if_neg (by simp [Ne.symm h])]
      exact Stands.nil
  · intro r hr' hrf
    rcases chainRecords_mem.1 hr' with rfl | rfl | rfl | h
    · rw [ho, hr] at hrf
      simp only [hkf] at hrf
      exact absurd hrf hty.1
    · simp only [form_mk] at hrf
      exact absurd hrf (by decide)
    · simp only [form_mk] at hrf
      exact absurd hrf (by decide)
    · exact K.tips r h hrf

/-- The store after a transaction. -/
def savedStore (c : Commit) : MemStore :=
  Engine.writeAll c.main (MemStore.insert Key.ZERO [⟨c.tip, formUuid Form.ZERO, [], .raw⟩] c.mem)

theorem savedStore_stored (h1 : KeyOrder c.main) (h2 : KeyOrder c.mem) (k : Key) : stored k (savedStore c) =
    stored k c.main ++ stored k c.mem ++ (if k = Key.ZERO then [[⟨c.tip, formUuid Form.ZERO, [], .raw⟩]] else []) := by
  unfold savedStore
  rw [show stored k _ = _ from writeAll_operands k _ h1, List.append_assoc]
  congr 1
  exact MemStore.insert_recs h2 _ _ _

/-- A transaction is saved: the store holds the history with the chains of the frame. -/
theorem savedStore_holds (M : Mid wh H F note c) : Carries wh (H ++ F) note (savedStore c) := by
  have hz : Key.ZERO.form = Form.ZERO := by decide
  have e : ∀ k : Key, k.form ≠ Form.ZERO → stored k (savedStore c) = stored k c.main ++ stored k c.mem := by
    intro k hk
    rw [savedStore_stored M.main.sorted M.mem.sorted, if_neg (by
      intro e
      rw [e] at hk
      exact hk hz), List.append_nil]
  refine ⟨⟨writeAll_sorted _ M.main.sorted, ?_, ?_, ?_, ?_, ?_⟩, ?_⟩
  · intro k hk
    rw [e k (by rw [hk]; decide), List.flatten_append, List.map_append, M.main.log k hk, M.mem.log k hk,
      List.filter_append, List.flatMap_append, List.map_append]
  · intro k hk hmem
    rw [e k (by rw [hk]; decide)] at hmem
    rcases List.mem_append.1 hmem with h | h
    · exact M.main.full k hk h
    · exact M.mem.full k hk h
  · intro k hk
    rw [e k (by rw [hk]; decide), M.main.index k hk, M.mem.index k hk, List.filter_append, List.map_append]
  · intro k h1 h2 h3
    rw [e k h3, List.filter_append]
    exact (M.main.state k h1 h2 h3).append (M.mem.state k h1 h2 h3).weaken
  · intro r hr hrf
    unfold savedStore at hr
    rw [mem_writeAll, mem_insert] at hr
    rcases hr with h | rfl | h
    · exact M.main.tips r h hrf
    · exact ⟨rfl, _, rfl⟩
    · exact absurd hrf (M.low r h)
  · obtain ⟨f, hf⟩ := M.main.tip
    exact ⟨f, mem_writeAll.2 (Or.inl hf)⟩

theorem savedStore_tip (M : Mid wh H F note c) : tipOf (savedStore c) = some c.tip := by
  refine Host.tipOf_concat (o := ⟨c.tip, formUuid Form.ZERO, [], .raw⟩)
    (pre := stored Key.ZERO c.main ++ stored Key.ZERO c.mem) ?_
  show stored _ _ = _
  rw [savedStore_stored M.main.sorted M.mem.sorted, if_pos rfl]

/-! ### Frames -/

theorem dispatch_chain {c : Commit} {o : AOp} {os rest : List AOp} (P : Proper o os) :
    dispatch env c ⟨o :: rest, Status.ENDOFFRAME, true⟩ = c.saveChain env ⟨o :: rest, Status.ENDOFFRAME, true⟩ := by
  unfold dispatch
  simp only
  rw [if_pos P.stamp.time, if_neg P.query, if_pos P.clock]

theorem clock_sees {i : Uuid} (h : Stamp i) : (clockSee now i).2.ok = true := by
  have hok : Status.OK.ok = true := by decide
  unfold clockSee
  rw [if_neg (by rw [h.time]; decide)]
  split
  · exact hok
  · rw [if_neg (Nat.not_le.2 h.1)]; exact hok

/-- The tip of a transaction: none, or an event of the yarn of the branch. -/
def Tipped (G : List Chain) (c : Commit) : Prop :=
  c.base = Uuid.NIL ∨ Spec.Known G c.tip ∧ c.tip.origin = c.base.origin

/-- A chain of the frame is saved. -/
theorem save_follows (L : Lineage (H ++ F)) (M : Mid wh H F note c) (hv : env.mg = Rdt.mergeCursors v) {d : Chain}
    (P : Proper d.head d.rest) (hf : Spec.Follows (H ++ F) d) (hcy : Clear H F ⟨NEVER, d.head.id.origin⟩)
    (hcr : d.head.ref.version = Uuid.vTIME → Clear H F d.head.ref) (ht : Tipped (H ++ F) c) :
    ∃ note' c', c.saveChain env ⟨d.ops, Status.ENDOFFRAME, true⟩ =
        some (⟨lastOf d.head.id d.rest, []⟩, c', ⟨[], Status.ENDOFFRAME, true⟩) ∧
      Mid wh H (F ++ [d]) note' c' ∧ c'.base = c.base ∧ c'.tip = lastOf d.head.id d.rest ∧ c'.main = c.main ∧
      c'.now = (clockSee c.now (lastOf d.head.id d.rest)).1 := by
  obtain ⟨hs, t, m, c1, c2, e1, e2, M2, ho, hr⟩ := meta_follows L M hv P hf hcy hcr
  have L' : Lineage (H ++ (F ++ [d])) := by rw [← List.append_assoc]; exact Lineage.add L P hf
  have S' := L'.sound
  have hty := types_form (S'.object d (by simp)).2
  obtain ⟨x1, k1, -⟩ := yarnTip_keeps e1
  obtain ⟨x2, k2, -⟩ := headMeta_keeps e2
  have hbase : c2.base = c.base := by rw [k2, k1]
  have htip : c2.tip = c.tip := by rw [k2, k1]
  have hmain : c2.main = c.main := by rw [k2, k1]
  have hnow : c2.now = c.now := by rw [k2, k1]
  have hid := headMeta_id e2 (by decide)
  obtain ⟨x, e⟩ := saveChain_linked (b := true) hs e1 e2 hid (by rw [hr]; exact hty.2.2.2)
    P.chained (by
      intro h
      rw [hbase] at h
      rw [htip]
      rcases ht with h0 | ⟨h1, h2⟩
      · rw [h0] at h
        have := P.stamp.2
        rw [← h] at this
        exact absurd this (by decide)
      · have ho : c.tip.origin = d.head.id.origin := h2.trans h
        rcases hf.yarn with ⟨-, g⟩ | ⟨-, -, g⟩
        · exact absurd ho (g _ h1)
        · have := (Uuid.lt_same ho).1 (g _ h1 ho)
          cases hc : Uuid.lt d.head.id c.tip with
          | false => rfl
          | true =>
            have := (Uuid.lt_same ho.symm).1 hc
            omega) (clock_sees P.last)
  have hnew := Lineage.new hf
  refine ⟨fun i => if i = d.head.id then env.hs.text m.hash else note i, _, e, ⟨?_, ?_, ?_⟩, hbase, rfl, hmain, ?_⟩
  · refine ⟨retains_note M2.main.toRetains fun a ha => ?_, M2.main.tip⟩
    rw [if_neg (hnew a (List.mem_append_left _ ha) a.head List.mem_cons_self)]
  · refine chainRecords_retains S'.right (retains_note M2.mem fun a ha => ?_) (by rw [if_pos rfl]) hid ho hr
    rw [if_neg (hnew a (List.mem_append_right _ ha) a.head List.mem_cons_self)]
  · intro r hr'
    rcases chainRecords_mem.1 hr' with rfl | rfl | rfl | h
    · rw [ho, hr]
      simp only
      unfold Key.ofUuids
      rw [form_mk]
      exact hty.1
    · simp only [form_mk]; decide
    · simp only [form_mk]; decide
    · exact M2.low r h
  · show (clockSee c2.now _).1 = _
    rw [hnow]

/-- A chain of the history goes on from those before it. -/
theorem lineage_last {G : List Chain} {d : Chain} (h : Lineage (G ++ [d])) : Spec.Follows G d := by
  generalize e : G ++ [d] = G' at h
  cases h with
  | nil => simp at e
  | add _ _ h3 =>
    obtain ⟨rfl, e2⟩ := List.append_inj' e rfl
    cases e2
    exact h3

/-- The frame is taken in chain by chain. -/
theorem loop_frames (hv : env.mg = Rdt.mergeCursors v) : ∀ (l : List (AOp × List AOp)) (F : List Chain)
    (note : Uuid → List Nat) (c : Commit) (fuel : Nat), l ≠ [] → Lineage (H ++ F) → Mid wh H F note c →
    (∀ p ∈ l, Proper p.1 p.2) → Parted l → Tipped (H ++ F) c →
    (c.base ≠ Uuid.NIL → ∀ p ∈ l, p.1.id.origin = c.base.origin) →
    (∀ A p B, l = A.map Chain.parts ++ p :: B → Lineage (H ++ (F ++ A)) → Clear H (F ++ A) ⟨NEVER, p.1.id.origin⟩ ∧
      (p.1.ref.version = Uuid.vTIME → Clear H (F ++ A) p.1.ref)) →
    (opsOf l).length < fuel →
    ∃ st c', receiveLoop env fuel c ⟨opsOf l, Status.ENDOFFRAME, true⟩ = some (st, c') ∧ c'.main = c.main ∧
      ((∃ G note', G.map Chain.parts = l ∧ Lineage (H ++ (F ++ G)) ∧ st.ok = true ∧ Mid wh H (F ++ G) note' c' ∧
          c'.base = c.base ∧ c'.tip = endOf l) ∨
        st.ok = false ∧ ∀ G, G.map Chain.parts = l → ¬ Lineage (H ++ (F ++ G))) := by
  intro l
  induction l with
  | nil => intro F note c fuel h; exact absurd rfl h
  | cons p l ih =>
    intro F note c fuel _ L M hP hA ht hb hC hfuel
    match fuel, hfuel with
    | fuel + 1, hfuel =>
    have P := hP p List.mem_cons_self
    obtain ⟨hcy, hcr⟩ := hC [] p l rfl (by rw [List.append_nil]; exact L)
    rw [List.append_nil] at hcy hcr
    have hops : opsOf (p :: l) = p.1 :: (p.2 ++ opsOf l) := rfl
    have hval : ∀ (o : AOp) (os : List AOp), (⟨o :: os, Status.ENDOFFRAME, true⟩ : ACur).valid = true := fun _ _ => rfl
    have hval' : (⟨[], Status.ENDOFFRAME, true⟩ : ACur).valid = false := rfl
    unfold receiveLoop
    rw [hops, if_neg (by rw [hval]; decide), dispatch_chain P]
    by_cases hf : ∃ d : Chain, d.parts = p ∧ Spec.Follows (H ++ F) d
    · obtain ⟨d, rfl, hf⟩ := hf
      have P : Proper d.head d.rest := P
      obtain ⟨note', c', e, M', g1, g2, g3, -⟩ := save_follows L M hv P hf hcy hcr ht
      have L' : Lineage (H ++ (F ++ [d])) := by rw [← List.append_assoc]; exact Lineage.add L P hf
      have htime := Uuid.time_ok P.last.time
      match l, ih, hP, hA, hb, hC, hfuel with
      | [], _, _, _, _, _, _ =>
        have e' : saveChain env c ⟨d.parts.1 :: (d.parts.2 ++ opsOf []), Status.ENDOFFRAME, true⟩ =
            some (⟨lastOf d.head.id d.rest, []⟩, c', ⟨[], Status.ENDOFFRAME, true⟩) := by
          rw [show d.parts.1 :: (d.parts.2 ++ opsOf []) = d.ops by
            show d.head :: (d.rest ++ []) = _
            rw [List.append_nil]; rfl]
          exact e
        rw [e', Option.bind_some]
        simp only [htime, hval', not_true_eq_false, if_false, Bool.false_eq_true]
        exact ⟨_, c', rfl, g3, Or.inl ⟨[d], note', rfl, L', htime, M', g1, g2⟩⟩
      | q :: l, ih, hP, hA, hb, hC, hfuel =>
        have e' : saveChain env c ⟨d.parts.1 :: (d.parts.2 ++ opsOf (q :: l)), Status.ENDOFFRAME, true⟩ =
            some (⟨lastOf d.head.id d.rest, []⟩, c', ⟨opsOf (q :: l), Status.ENDOFFRAME, true⟩) := by
          have := Props.C100_ends env c d.head q.1 d.rest (q.2 ++ opsOf l) Status.ENDOFFRAME true P.chained
            (hP q (by simp)).stamp.time hA.1
          rw [show (⟨d.head :: d.rest, Status.ENDOFFRAME, true⟩ : ACur) = ⟨d.ops, Status.ENDOFFRAME, true⟩ from rfl, e] at this
          exact this
        rw [e', Option.bind_some]
        have hv2 : (⟨opsOf (q :: l), Status.ENDOFFRAME, true⟩ : ACur).valid = true := rfl
        simp only [htime, hv2, not_true_eq_false, if_false, if_true]
        have ht' : Tipped (H ++ (F ++ [d])) c' := by
          by_cases hn : c.base = Uuid.NIL
          · exact Or.inl (by rw [g1, hn])
          · refine Or.inr ⟨?_, ?_⟩
            · rw [g2]
              exact ⟨d, by simp, lastOf_mem d.head d.rest⟩
            · rw [g2, g1, (chained_last d.rest d.head.id P.chained).1]
              exact hb hn d.parts List.mem_cons_self
        obtain ⟨st, c'', e2, k1, k2⟩ := ih (F ++ [d]) note' c' fuel (by simp) L' M' (fun p hp => hP p (List.mem_cons_of_mem _ hp))
          hA.2 ht' (by rw [g1]; exact fun h p hp => hb h p (List.mem_cons_of_mem _ hp)) (by
            intro A p B hAB hL
            have := hC (d :: A) p B (by rw [hAB]; rfl) (by
              rw [show F ++ d :: A = F ++ [d] ++ A by simp]; exact hL)
            rw [show F ++ d :: A = F ++ [d] ++ A by simp] at this
            exact this) (by
            rw [hops] at hfuel
            simp only [List.length_cons, List.length_append] at hfuel
            omega)
        refine ⟨st, c'', e2, by rw [k1, g3], ?_⟩
        rcases k2 with ⟨G, n2, h1, h2, h3, h4, h5, h6⟩ | ⟨h1, h2⟩
        · refine Or.inl ⟨d :: G, n2, by rw [List.map_cons, h1], ?_, h3, ?_, by rw [h5, g1], by rw [h6]; rfl⟩
          · rw [show F ++ d :: G = F ++ [d] ++ G by simp]; exact h2
          · rw [show F ++ d :: G = F ++ [d] ++ G by simp]; exact h4
        · refine Or.inr ⟨h1, fun G hG hL => ?_⟩
          match G, hG with
          | g :: G, hG =>
            rw [List.map_cons] at hG
            obtain ⟨e3, e4⟩ := List.cons.inj hG
            have hL2 : Lineage (H ++ F ++ [g]) := by
              have : Lineage ((H ++ F ++ [g]) ++ G) := by simpa using hL
              exact this.front
            have hgf := lineage_last hL2
            have e5 : g.head = d.head := congrArg Prod.fst e3
            have e6 : g.rest = d.rest := congrArg Prod.snd e3
            have hu := L.follows_unique hgf hf e5
            have : g = d := by
              cases g; cases d
              simp only at e5 e6 hu
              rw [e5, e6, hu.1, hu.2]
            subst this
            exact h2 G e4 (by rw [show F ++ [g] ++ G = F ++ g :: G by simp]; exact hL)
    · obtain ⟨st, c', e, h1, h2⟩ := save_refuses L M hv P (fun d h1 h2 h3 => hf ⟨d, by
        unfold Chain.parts; rw [h1, h2], h3⟩) hcy hcr (p.2 ++ opsOf l) Status.ENDOFFRAME true
      rw [e, Option.bind_some]
      simp only [h1, Bool.false_eq_true, not_false_eq_true, if_true]
      refine ⟨st, c', rfl, ?_, Or.inr ⟨h1, fun G hG hL => ?_⟩⟩
      · obtain ⟨m, rfl, -⟩ := h2
        rfl
      · match G, hG with
        | g :: G, hG =>
          rw [List.map_cons] at hG
          have hL2 : Lineage (H ++ F ++ [g]) := by
            have : Lineage ((H ++ F ++ [g]) ++ G) := by simpa using hL
            exact this.front
          exact hf ⟨g, (List.cons.inj hG).1, lineage_last hL2⟩

/-- A frame of chains of the yarn of the branch. -/
theorem receive_frames (L : Lineage H) (K : Carries wh H note s) (hv : env.mg = Rdt.mergeCursors v) {l : List (AOp × List AOp)}
    (hl : l ≠ []) (hP : ∀ p ∈ l, Proper p.1 p.2) (hA : Parted l)
    (ht : tip = Uuid.NIL ∨ Spec.Known H tip ∧ ∀ p ∈ l, p.1.id.origin = tip.origin) (hC : Cleared H l) :
    ∃ st s' now', receive env s tip now ⟨opsOf l, Status.ENDOFFRAME, true⟩ = some (st, s', now') ∧
      ((∃ G note', G.map Chain.parts = l ∧ Lineage (H ++ G) ∧ st = Status.OK ∧ Carries wh (H ++ G) note' s' ∧
          tipOf s' = some (endOf l)) ∨
        st.ok = false ∧ s' = s ∧ ∀ G, G.map Chain.parts = l → ¬ Lineage (H ++ G)) := by
  obtain ⟨st, c', e, k1, k2⟩ := loop_frames (H := H) hv l [] note (start s tip now) ((opsOf l).length + 1) hl
    (by rw [List.append_nil]; exact L) (mid_start K tip now) hP hA (by
      rw [List.append_nil]
      rcases ht with h | ⟨h, -⟩
      · exact Or.inl h
      · exact Or.inr ⟨h, rfl⟩) (by
      intro hn p hp
      rcases ht with h | ⟨-, h⟩
      · exact absurd h hn
      · exact h p hp) (by
      intro A p B hAB hL
      exact hC A p B hAB hL) (Nat.lt_succ_self _)
  unfold receive
  rw [show (⟨opsOf l, Status.ENDOFFRAME, true⟩ : ACur).ops.length + 1 = (opsOf l).length + 1 from rfl, e, Option.map_some]
  rcases k2 with ⟨G, note', h1, h2, h3, h4, h5, h6⟩ | ⟨h1, h2⟩
  · have h2 : Lineage (H ++ G) := h2
    have h4 : Mid wh H G note' c' := h4
    simp only [h3, not_true_eq_false, if_false]
    -- the last chain
    obtain ⟨d, hd, htd⟩ : ∃ d ∈ G, endOf l = lastOf d.head.id d.rest := by
      rcases List.eq_nil_or_concat G with rfl | ⟨G', d, rfl⟩
      · exact absurd h1.symm hl
      · refine ⟨d, by simp, ?_⟩
        unfold endOf
        rw [← h1, List.concat_eq_append, List.map_append, List.map_cons, List.map_nil, List.getLast?_concat]
        rfl
    have S := h2.sound
    have P := S.proper d (List.mem_append_right _ hd)
    obtain ⟨l1, l2⟩ := chained_last d.rest d.head.id P.chained
    have hbase : c'.base = tip := h5
    have hne : c'.tip ≠ c'.base ∧ ¬ (c'.base ≠ Uuid.NIL ∧ c'.tip.origin ≠ c'.base.origin) ∧ Uuid.lt c'.tip c'.base = false := by
      rw [h6, htd, hbase]
      rcases ht with h | ⟨g1, g2⟩
      · rw [h]
        refine ⟨fun e => ?_, fun g => g.1 rfl, Uuid.lt_nil _⟩
        have := P.last.2
        rw [e] at this
        exact absurd this (by decide)
      · have ho : d.head.id.origin = tip.origin := g2 d.parts (by rw [← h1]; exact List.mem_map.2 ⟨d, hd, rfl⟩)
        obtain ⟨a, ha, x, hx, hxt⟩ := g1
        have ma := (S.proper a (List.mem_append_left _ ha)).mem hx
        have hbef := (List.pairwise_append.1 h2.order).2.2 a ha d hd (by rw [← ma.1, hxt, ho]) x hx
        rw [hxt] at hbef
        have hm := (P.mem (lastOf_mem d.head d.rest).choose_spec.1).2.1
        rw [(lastOf_mem d.head d.rest).choose_spec.2] at hm
        have ho' : (lastOf d.head.id d.rest).origin = tip.origin := l1.trans ho
        refine ⟨fun e => ?_, fun g => g.2 ho', ?_⟩
        · rw [e] at hm; omega
        · cases hc : Uuid.lt (lastOf d.head.id d.rest) tip with
          | false => rfl
          | true =>
            have := (Uuid.lt_same ho').1 hc
            omega
    have hsave : save c' = (Status.OK, { c' with main := savedStore c', mem := [], base := Uuid.NIL, tip := Uuid.NIL }) := by
      unfold save
      have q1 : ¬ (Key.ZERO = Key.END) := by decide
      have q2 : ¬ ¬ Status.OK.ok = true := by decide
      rw [if_neg hne.1, if_neg hne.2.1, if_neg (by rw [hne.2.2]; decide)]
      simp only [MemStore.write, q1, if_false, q2]
      rfl
    rw [hsave]
    refine ⟨_, savedStore c', _, rfl, Or.inl ⟨G, note', h1, h2, rfl, savedStore_holds h4, ?_⟩⟩
    rw [savedStore_tip h4, h6]
  · simp only [h1, Bool.false_eq_true, not_false_eq_true, if_true]
    exact ⟨st, c'.main, c'.now, rfl, Or.inr ⟨h1, k1, h2⟩⟩

/-- A chain of another yarn than the one at hand is not taken in. -/
theorem receive_elsewhere (L : Lineage H) (K : Carries wh H note s) (hv : env.mg = Rdt.mergeCursors v) {d : Chain}
    (P : Proper d.head d.rest) (hf : Spec.Follows H d) (ht : tip ≠ Uuid.NIL) (hk : Spec.Known H tip)
    (ho : tip.origin ≠ d.head.id.origin) :
    ∃ now', receive env s tip now ⟨d.ops, Status.ENDOFFRAME, true⟩ = some (Status.BAD_STATE, s, now') := by
  have hf' : Spec.Follows (H ++ []) d := by rw [List.append_nil]; exact hf
  obtain ⟨note', c', e, -, h1, h2, h3, -⟩ := save_follows (F := []) (by rw [List.append_nil]; exact L) (mid_start K tip now) hv P
    hf' (Clear.nil _) (fun _ => Clear.nil _) (Or.inr ⟨by rw [List.append_nil]; exact hk, rfl⟩)
  have hl := (chained_last d.rest d.head.id P.chained).1
  have htime := Uuid.time_ok P.last.time
  have hval : (⟨d.head :: d.rest, Status.ENDOFFRAME, true⟩ : ACur).valid = true := rfl
  have hval' : (⟨[], Status.ENDOFFRAME, true⟩ : ACur).valid = false := rfl
  unfold receive
  rw [show (⟨d.ops, Status.ENDOFFRAME, true⟩ : ACur).ops.length + 1 = d.rest.length + 1 + 1 from rfl]
  unfold receiveLoop
  rw [show (⟨d.ops, Status.ENDOFFRAME, true⟩ : ACur) = ⟨d.head :: d.rest, Status.ENDOFFRAME, true⟩ from rfl] at e ⊢
  rw [if_neg (by rw [hval]; decide), dispatch_chain P, e]
  simp only [Option.bind_some, Option.map_some, htime, hval', not_true_eq_false, if_false, Bool.false_eq_true]
  have hbase : c'.base = tip := h1
  have hsave : save c' = (Status.BAD_STATE, c') := by
    unfold save
    rw [h2, hbase, if_neg (by
      intro e
      rw [e] at hl
      exact ho hl), if_pos ⟨ht, fun e => ho (e.symm.trans hl)⟩]
  rw [hsave]
  exact ⟨c'.now, by rw [h3]; rfl⟩

/-- A chain that does not go on from the history is refused. -/
theorem receive_refuses (L : Lineage H) (K : Carries wh H note s) (hv : env.mg = Rdt.mergeCursors v) {o : AOp} {os : List AOp}
    (P : Proper o os) (hf : ∀ c : Chain, c.head = o → c.rest = os → ¬ Spec.Follows H c) :
    ∃ st, receive env s tip now ⟨o :: os, Status.ENDOFFRAME, true⟩ = some (st, s, now) ∧ st.ok = false := by
  obtain ⟨st, c', e, h, k⟩ := save_refuses (F := []) (os := os) (by rw [List.append_nil]; exact L) (mid_start K tip now) hv P
    (by rw [List.append_nil]; exact hf) (Clear.nil _) (fun _ => Clear.nil _) os Status.ENDOFFRAME true
  refine ⟨st, ?_, h⟩
  obtain ⟨m, rfl, -⟩ := k
  have hval : (⟨o :: os, Status.ENDOFFRAME, true⟩ : ACur).valid = true := rfl
  unfold receive
  rw [show (⟨o :: os, Status.ENDOFFRAME, true⟩ : ACur).ops.length + 1 = os.length + 1 + 1 from rfl]
  unfold receiveLoop
  rw [if_neg (by rw [hval]; decide), dispatch_chain P, e]
  simp [h, start]

end Commit
end Ron
