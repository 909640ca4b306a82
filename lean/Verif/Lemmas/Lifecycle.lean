import Verif.Spec.Lifecycle
import Verif.Lemmas.Filing
import Verif.Lemmas.Rdt
/-!
Which single ops are accepted, and what becomes of the stores of a replica.
-/
namespace Ron
open Spec

theorem Key.mk_ne_end {id : Uuid} {f : Form} (h : f ≠ Form.ERROR) : Key.mk' id f ≠ Key.END := by
  intro e
  have := congrArg Key.form e
  rw [Commit.form_mk, show Key.END.form = Form.ERROR from by decide] at this
  exact h this

theorem Uuid.time_ok {id : Uuid} (h : id.version = Uuid.vTIME) : (⟨id, []⟩ : Status).ok = true := by
  unfold Status.ok
  simp only [bne_iff_ne, ne_eq]
  intro e
  unfold Uuid.version Word.flags at h
  rw [show id.origin = Word.MAX_VALUE from e] at h
  exact absurd h (by decide)

namespace Commit

/-- The records of a chain of one op. -/
def oneRecords (hs : Hashing) (m : OpMeta) (o : AOp) (mem : MemStore) : MemStore :=
  MemStore.insert (Key.ofUuids m.object m.rdt) [{ o with term := .raw }]
    (MemStore.insert (Key.mk' m.object Form.LOG) [{ o with term := .raw }]
      (MemStore.insert (Key.mk' o.id Form.META) (m.save hs) mem))

theorem ref_ne_id {o : AOp} (h : (checkEventSanity o).ok = true) : o.ref ≠ o.id := by
  intro e
  rcases sane_ref h with ⟨h1, -⟩ | ⟨-, h1⟩
  · rw [e, sane_time h] at h1
    exact absurd h1.symm version_ne
  · rw [e] at h1
    simp [Uuid.lt] at h1

theorem storeChain_one {env : Env} {c : Commit} {m : OpMeta} {o : AOp} (hm : m.id = o.id)
    (hs : (checkEventSanity o).ok = true) (hf : uuid2form m.rdt ≠ Form.ERROR)
    (hsee : (clockSee c.now o.id).2.ok = true) :
    c.storeChain env m o [] Status.ENDOFFRAME = some (⟨o.id, []⟩,
      { c with mem := oneRecords env.hs m o c.mem, now := (clockSee c.now o.id).1, tip := o.id }, []) := by
  have w1 : ∀ (c : Commit) (id : Uuid) (f : Form) (x : Frame), f ≠ Form.ERROR →
      c.write (Key.mk' id f) x = (Status.OK, { c with mem := MemStore.insert (Key.mk' id f) x c.mem }) := by
    intro c id f x hf
    unfold write MemStore.write
    rw [if_neg (Key.mk_ne_end hf)]
  have hok : Status.OK.ok = true := by decide
  have hfin : Status.ENDOFFRAME.eq Status.ENDOFFRAME = true := by decide
  have href : ¬ o.ref = m.id := by rw [hm]; exact ref_ne_id hs
  unfold storeChain
  simp only [ne_eq, href, not_false_eq_true, if_true]
  rw [w1 _ _ _ _ (by decide : Form.META ≠ Form.ERROR)]
  simp only [hok, not_true_eq_false, if_false, chainletLoop, hfin, if_true, Option.map_some, hm, hsee]
  unfold Key.ofUuids
  rw [w1 _ _ _ _ (by decide : Form.LOG ≠ Form.ERROR)]
  simp only [hok, not_true_eq_false, if_false]
  rw [w1 _ _ _ _ hf]
  simp only [hok, not_true_eq_false, if_false]
  rfl

/-- A chain of one op is saved if the tip of its yarn and the op it refers to are found. -/
theorem saveChain_one {env : Env} {c c1 c2 : Commit} {tip m : OpMeta} {o : AOp} {b : Bool}
    (hs : (checkEventSanity o).ok = true) (ht : c.yarnTip env o = some (Status.OK, tip, c1))
    (hh : c1.headMeta env tip o = some (Status.OK, m, c2)) (hm : m.id = o.id)
    (hf : uuid2form m.rdt ≠ Form.ERROR) (hsee : (clockSee c2.now o.id).2.ok = true) :
    c.saveChain env ⟨[o], Status.ENDOFFRAME, b⟩ = some (⟨o.id, []⟩,
      { c2 with mem := oneRecords env.hs m o c2.mem, now := (clockSee c2.now o.id).1, tip := o.id },
      ⟨[], Status.ENDOFFRAME, b⟩) := by
  have hok : Status.OK.ok = true := by decide
  unfold saveChain
  simp only [hs, ht, hh, hok, not_true_eq_false, if_false, Option.bind_some]
  rw [storeChain_one hm hs hf hsee]
  rfl

theorem root_some {hs : Hashing} {o : AOp} {p : OpMeta} (h1 : o.id.version = Uuid.vTIME)
    (h2 : o.ref.version = Uuid.vNAME) : OpMeta.root hs o p =
    some ⟨o.id, o.ref, o.id, hs.op o p.hash (hs.form o.ref), p.id.value, o.id.value⟩ := by
  unfold OpMeta.root
  rw [if_pos ⟨h1, h2⟩]

end Commit

/-! ### Opening -/

theorem read_zero_form (v : Rdt.View) (s : MemStore) {k : Key} (hk : k.form = Form.ZERO) :
    ∃ r, Engine.read (Rdt.mergeCursors v) s k = some r ∧ r.1 = Status.OK ∧
      (∀ o, ((Engine.operands s k).getLast?.bind fun f => f.head?) = some o → k ≠ Key.END →
        (r.2.head?.map AOp.body) = some o.body) := by
  unfold Engine.read
  by_cases hE : k = Key.END
  · rw [if_pos hE]
    exact ⟨_, rfl, rfl, fun _ _ h => absurd hE h⟩
  · rw [if_neg hE]
    cases hf : Engine.operands s k with
    | nil => exact ⟨_, rfl, rfl, fun _ h => by cases h⟩
    | cons g gs =>
      simp only
      have hm : Rdt.mergeCursors v k.form (withOps (g :: gs)) =
          some (Status.OK, (Rdt.keepLast ABuilder.empty (withOps (g :: gs))).release) := by
        rw [hk]
        unfold Rdt.mergeCursors Rdt.master
        rw [if_neg (by decide), if_pos rfl]
        rfl
      rw [hm]
      refine ⟨_, rfl, rfl, fun o ho _ => ?_⟩
      rcases List.eq_nil_or_concat (g :: gs) with e | ⟨pre, f, e⟩
      · cases e
      · rw [List.concat_eq_append] at e
        rw [e, List.getLast?_concat] at ho
        rw [e]
        match f, ho with
        | p :: ps, ho =>
          cases ho
          have : withOps (pre ++ [o :: ps]) = withOps pre ++ [o :: ps] := by
            unfold withOps
            rw [List.filter_append]
            rfl
          rw [this]
          unfold Rdt.keepLast
          rw [List.getLast?_concat]
          simp only
          rw [Rdt.appendAll_empty]
          rw [if_pos (by decide)]
          have hb := Rdt.closeLast_body (o :: ps)
          match hc : Rdt.closeLast (o :: ps), hb with
          | q :: qs, hb =>
            rw [List.map_cons, List.map_cons] at hb
            exact congrArg some (List.cons.inj hb).1

theorem openTip_ok (v : Rdt.View) {s : MemStore} {id t : Uuid} (ht : tipOf s = some t)
    (ho : t.origin = id.origin ∨ id = Uuid.NIL) :
    Commit.openTip (Rdt.mergeCursors v) s id = some (Status.OK, t) := by
  obtain ⟨r, hr, h1, h2⟩ := read_zero_form v s (show Key.ZERO.form = Form.ZERO from by decide)
  unfold Commit.openTip
  rw [hr]
  have : ∃ o : AOp, ((Engine.operands s Key.ZERO).getLast?.bind fun f => f.head?) = some o ∧ o.id = t := by
    unfold tipOf at ht
    obtain ⟨f, hf, ht⟩ := Commit.bind_some ht
    obtain ⟨o, ho, ht⟩ := Commit.map_some ht
    exact ⟨o, by rw [show Engine.operands s Key.ZERO = stored Key.ZERO s from rfl, hf]; exact ho, ht⟩
  obtain ⟨o, ho', rfl⟩ := this
  have := h2 o ho' (by decide)
  obtain ⟨r1, r2⟩ := r
  cases h1
  match r2, this with
  | p :: ps, e =>
    have e : p.id = o.id := congrArg Prod.fst (Option.some.inj e)
    simp only [Option.map_some]
    rw [if_neg (by decide)]
    rw [e, if_neg (by rintro ⟨a, b⟩; rcases ho with h | h; exact a h; exact b h)]

namespace Commit

/-! ### The tip after a frame -/

theorem chainletLoop_origin {hs : Hashing} {fin : Status} : ∀ (ops : List AOp) {s s' : Chainlet} {st : Status}
    {rest : List AOp}, chainletLoop hs fin s ops = some (st, s', rest) → s'.m.id.origin = s.m.id.origin := by
  intro ops
  induction ops with
  | nil => intro s s' st rest h; cases h; rfl
  | cons o os ih =>
    intro s s' st rest h
    unfold chainletLoop at h
    split at h
    · exact ih h
    · split at h
      · rename_i hn
        have ho : o.id.origin = s.m.id.origin := by
          unfold OpMeta.isNext at hn
          simp only [Bool.and_eq_true, decide_eq_true_eq] at hn
          exact hn.1.1.2
        split at h
        · cases h; rfl
        · obtain ⟨m, hm, h⟩ := bind_some h
          have e : m.id.origin = s.m.id.origin := by rw [next_id hm]; exact ho
          simp only at h
          split at h
          · split at h
            · cases h; exact e
            · exact (ih h).trans e
          · exact (ih h).trans e
      · split at h
        · split at h
          · cases h; rfl
          · exact ih h
        · cases h; rfl

theorem storeChain_tip {env : Env} {c c' : Commit} {m : OpMeta} {o : AOp} {os rest : List AOp}
    {fin st : Status} (h : c.storeChain env m o os fin = some (st, c', rest)) (hok : st.ok = true) :
    c'.tip.origin = m.id.origin := by
  unfold storeChain at h
  revert h
  generalize (if o.ref ≠ m.id then c.write (Key.mk' o.id Form.META) (m.save env.hs)
      else (Status.OK, c)) = w
  intro h
  simp only at h
  have bad : ∀ {st' : Status} {c'' : Commit} {r : List AOp}, ¬ st'.ok = true →
      (st', c'', r) = (st, c', rest) → c'.tip.origin = m.id.origin := by
    intro st' c'' r hb e
    cases e
    exact absurd hok hb
  split at h
  · exact bad ‹_› (Option.some.inj h)
  · obtain ⟨s, hs, h⟩ := map_some h
    have e := chainletLoop_origin os (st := s.1) (s' := s.2.1) (rest := s.2.2) hs
    split at h
    · exact bad ‹_› h
    · split at h
      · exact bad ‹_› h
      · split at h
        · exact bad ‹_› h
        · split at h
          · exact bad ‹_› h
          · cases h
            exact e

theorem headMeta_id {env : Env} {c c' : Commit} {tip m : OpMeta} {o : AOp} {st : Status}
    (h : c.headMeta env tip o = some (st, m, c')) (hok : st.ok = true) : m.id = o.id := by
  unfold headMeta at h
  split at h
  · obtain ⟨x, hx, h⟩ := map_some h
    cases h; exact next_id hx
  · split at h
    · split at h
      · cases h; exact absurd hok (by decide)
      · obtain ⟨x, hx, h⟩ := map_some h
        cases h; exact root_id hx
    · obtain ⟨r, hr, h⟩ := bind_some h
      split at h
      · cases h; exact absurd hok ‹_›
      · obtain ⟨x, hx, h⟩ := map_some h
        cases h; exact next_id hx

theorem saveChain_tip {env : Env} {c c' : Commit} {cur cur' : ACur} {st : Status} {o : AOp} {os : List AOp}
    (h : c.saveChain env cur = some (st, c', cur')) (hok : st.ok = true) (ho : cur.ops = o :: os) :
    c'.tip.origin = o.id.origin := by
  unfold saveChain at h
  rw [ho] at h
  simp only at h
  split at h
  · cases h; exact absurd hok ‹_›
  · obtain ⟨t, ht, h⟩ := bind_some h
    split at h
    · cases h; exact absurd hok ‹_›
    · obtain ⟨g, hg, h⟩ := bind_some h
      split at h
      · cases h; exact absurd hok ‹_›
      · rename_i hgk
        obtain ⟨r, hr, h⟩ := map_some h
        cases h
        rw [storeChain_tip (st := r.1) (c' := r.2.1) (rest := r.2.2) hr hok,
          headMeta_id (st := g.1) (m := g.2.1) (c' := g.2.2) hg (ok_of_not_not hgk)]

theorem receiveQuery_tip {env : Env} {c c' : Commit} {cur cur' : ACur} {st : Status}
    (h : c.receiveQuery env cur = some (st, c', cur')) : c'.tip = c.tip := by
  unfold receiveQuery at h
  have k : ∀ {c' : Commit}, MemOnly c c' → c'.tip = c.tip := by rintro c' ⟨x, rfl, -⟩; rfl
  match hops : cur.ops with
  | [] => rw [hops] at h; cases h
  | o :: os =>
    rw [hops] at h
    simp only at h
    split at h
    · unfold queryObject at h
      obtain ⟨r, hr, h⟩ := map_some h
      have := k (read_keeps (st := r.1) (f := r.2.1) (c' := r.2.2) hr)
      split at h <;> (cases h; exact this)
    · split at h
      · unfold queryObjectLog at h
        simp only at h
        obtain ⟨m, hm, h⟩ := bind_some h
        have e1 := findOpMeta_keeps (st := m.1) (m := m.2.1) (c' := m.2.2) hm
        split at h
        · cases h; exact k e1
        · obtain ⟨r, hr, h⟩ := bind_some h
          have e2 : r.2.2.tip = c.tip := by
            obtain ⟨x, e, -⟩ := read_keeps (st := r.1) (f := r.2.1) (c' := r.2.2) hr
            rw [e]
            exact (k e1 : m.2.2.tip = c.tip)
          repeat' split at h
          all_goals first | (cases h; done) | (cases h; exact e2)
      · cases h; rfl

theorem time_of_origin {a b : Uuid} (h : a.origin = b.origin) : a.version = b.version := by
  unfold Uuid.version
  rw [h]

theorem receiveLoop_tip {env : Env} {y : Word} (hy : (⟨0#64, y⟩ : Uuid).version = Uuid.vTIME)
    (hp : y.payload ≠ 0) : ∀ (fuel : Nat) {c c' : Commit} {cur : ACur} {st : Status},
    (∀ o ∈ cur.ops, o.id.origin = y) → receiveLoop env fuel c cur = some (st, c') → st.ok = true →
    c'.tip = c.tip ∨ c'.tip.origin = y := by
  intro fuel
  induction fuel with
  | zero => intro c c' cur st _ h; cases h
  | succ fuel ih =>
    intro c c' cur st hall h hok
    unfold receiveLoop at h
    split at h
    · cases h; exact Or.inl rfl
    · rename_i hval
      obtain ⟨r, hr, h⟩ := bind_some h
      split at h
      · cases h; exact absurd hok ‹_›
      · rename_i hrk
        have hrk := ok_of_not_not hrk
        have hd : r.2.1.tip = c.tip ∨ r.2.1.tip.origin = y := by
          unfold dispatch at hr
          match hops : cur.ops with
          | [] => rw [hops] at hr; cases hr
          | o :: os =>
            have ho := hall o (by rw [hops]; simp)
            rw [hops] at hr
            simp only at hr
            rw [if_pos (by rw [← hy]; exact time_of_origin ho)] at hr
            split at hr
            · exact Or.inl (receiveQuery_tip (st := r.1) (c' := r.2.1) (cur' := r.2.2) hr)
            · rw [if_pos (by rw [ho]; exact hp)] at hr
              exact Or.inr ((saveChain_tip (st := r.1) (c' := r.2.1) (cur' := r.2.2) hr hrk hops).trans ho)
        have hs : ∀ o ∈ r.2.2.ops, o.id.origin = y := by
          intro o ho
          have hv : ∃ pre, cur.ops = pre ++ r.2.2.ops := by
            unfold dispatch at hr
            match hops : cur.ops with
            | [] => rw [hops] at hr; cases hr
            | p :: os =>
              have hpo := hall p (by rw [hops]; simp)
              rw [hops] at hr
              simp only at hr
              rw [if_pos (by rw [← hy]; exact time_of_origin hpo)] at hr
              split at hr
              · rw [← hops]
                exact (receiveQuery_step (Decidable.not_not.1 hval) (st := r.1) (c' := r.2.1) (cur' := r.2.2) hr).tail
              · rw [if_pos (by rw [hpo]; exact hp)] at hr
                rw [← hops]
                exact (saveChain_step (st := r.1) (c' := r.2.1) (cur' := r.2.2) hr).tail
          obtain ⟨pre, e⟩ := hv
          exact hall o (by rw [e]; exact List.mem_append_right _ ho)
        split at h
        · rcases ih hs h hok with e | e
          · rw [e]; exact hd
          · exact Or.inr e
        · cases h; exact hd

end Commit
theorem Uuid.time_version (v o : Word) : (Uuid.time v o).version = Uuid.vTIME := by
  unfold Uuid.time Uuid.version Word.flags Uuid.vTIME
  have : o.payload < 2 ^ 60 := Nat.mod_lt _ (by decide)
  rw [BitVec.toNat_ofNat]
  omega

theorem Uuid.time_payload (v o : Word) : (Uuid.time v o).origin.payload = o.payload := by
  unfold Uuid.time Word.payload
  rw [BitVec.toNat_ofNat]
  omega

theorem Uuid.time_ne_nil (v o : Word) : Uuid.time v o ≠ Uuid.NIL := by
  intro e
  have := Uuid.time_version v o
  rw [e] at this
  exact absurd this (by decide)

theorem Uuid.lt_nil (u : Uuid) : Uuid.lt u Uuid.NIL = false := by
  unfold Uuid.lt Uuid.NIL
  simp

namespace Host

theorem find_some {h : Host} {id : Uuid} {s : OpenStore} (e : h.find id = some s) : s ∈ h.stores ∧ s.id = id :=
  ⟨List.mem_of_find?_eq_some e, by simpa using List.find?_some e⟩

/-- What `Open` asks of a store. -/
structure Good (s : OpenStore) : Prop where
  sorted : MemStore.Sorted s.data
  tip : ∃ t, tipOf s.data = some t ∧ (t.origin = s.id.origin ∨ s.id = Uuid.NIL)
  cached : s.tip = Uuid.NIL ∨ s.tip.origin = s.id.origin ∨ s.id = Uuid.NIL

/-- What `Open` asks of the stores. -/
structure Sound (h : Host) : Prop where
  good : ∀ s ∈ h.stores, Good s
  main : h.has Uuid.NIL = true

theorem openLoop_good (v : Rdt.View) : ∀ (rest done : List OpenStore) (now : Word), (∀ s ∈ rest, Good s) →
    ∃ l now', openLoop (Rdt.mergeCursors v) done rest now = some (Status.OK, done ++ l, now') ∧
      l.map (fun s => (s.id, s.data)) = rest.map (fun s => (s.id, s.data)) ∧ ∀ s ∈ l, Good s := by
  intro rest
  induction rest with
  | nil => intro done now _; exact ⟨[], now, by simp [openLoop], rfl, by simp⟩
  | cons s rest ih =>
    intro done now hg
    have hs := hg s (by simp)
    obtain ⟨t, ht, ho⟩ := hs.tip
    have hok : ¬ ¬ Status.OK.ok = true := by decide
    obtain ⟨l, now', e1, e2, e3⟩ := ih (done ++ [{ s with tip := t }]) (clockSee now t).1
      (fun x hx => hg x (by simp [hx]))
    refine ⟨{ s with tip := t } :: l, now', ?_, by rw [List.map_cons, List.map_cons, e2], ?_⟩
    · unfold openLoop
      rw [openTip_ok v ht ho, Option.bind_some, if_neg hok]
      rw [e1]
      simp
    · intro x hx
      rcases List.mem_cons.1 hx with rfl | hx
      · exact ⟨hs.sorted, ⟨t, ht, ho⟩, Or.inr ho⟩
      · exact e3 x hx

theorem opened_good (v : Rdt.View) {h : Host} (hs : Sound h) :
    ∃ h', opened (Rdt.mergeCursors v) h.close = some (Status.OK, h') ∧ Sound h' := by
  have hr : ∀ s ∈ (h.close.map fun s => (⟨s.1, Uuid.NIL, s.2⟩ : OpenStore)), Good s := by
    intro s hm
    unfold close at hm
    rw [List.map_map] at hm
    obtain ⟨x, hx, rfl⟩ := List.mem_map.1 hm
    obtain ⟨a, b, -⟩ := hs.good x hx
    exact ⟨a, b, Or.inl rfl⟩
  obtain ⟨l, now', e1, e2, e3⟩ := openLoop_good v _ [] 0#64 hr
  have hn : ∃ m, (Host.find ⟨l, Uuid.NIL, now'⟩ Uuid.NIL) = some m := by
    have h0 := hs.main
    unfold has find at h0
    rw [List.find?_isSome] at h0
    obtain ⟨x, hx, he⟩ := h0
    have : (x.id, x.data) ∈ l.map (fun s => (s.id, s.data)) := by
      rw [e2]
      unfold close
      simp only [List.map_map, List.mem_map]
      exact ⟨x, hx, rfl⟩
    obtain ⟨y, hy, hxy⟩ := List.mem_map.1 this
    have hyi : y.id = x.id := congrArg Prod.fst hxy
    have : (Host.find ⟨l, Uuid.NIL, now'⟩ Uuid.NIL).isSome = true := by
      unfold find
      rw [List.find?_isSome]
      exact ⟨y, hy, by rw [hyi]; exact he⟩
    exact Option.isSome_iff_exists.1 this
  obtain ⟨m, hm⟩ := hn
  unfold opened
  rw [e1, Option.bind_some, List.nil_append]
  simp only
  rw [if_neg (by decide), hm]
  simp only
  obtain ⟨a, ha, -⟩ := read_zero_form v m.data (k := Key.mk' ACTIVE_STORE_UUID Form.ZERO) (Commit.form_mk _ _)
  rw [ha, Option.map_some]
  have : (a.1.ok && (⟨a.2, Status.ENDOFFRAME, false⟩ : ACur).valid) = false := by
    unfold ACur.valid
    simp
  rw [this]
  exact ⟨_, rfl, e3, by unfold has; rw [hm]; rfl⟩

/-- The record of the active store is never looked at. -/
theorem opened_active {mg : Reducer} {db : Db} {st : Status} {h : Host} (e : opened mg db = some (st, h)) :
    h.active = Uuid.NIL := by
  unfold opened at e
  obtain ⟨r, hr, e⟩ := Commit.bind_some e
  simp only at e
  split at e
  · cases e; rfl
  · split at e
    · cases e
    · obtain ⟨a, ha, e⟩ := Commit.map_some e
      have : (a.1.ok && (⟨a.2, Status.ENDOFFRAME, false⟩ : ACur).valid) = false := by
        unfold ACur.valid
        simp
      rw [this] at e
      cases e
      rfl

theorem tipOf_insert {k : Key} (hk : k ≠ Key.ZERO) (f : Frame) (s : MemStore) :
    tipOf (MemStore.insert k f s) = tipOf s := by
  unfold tipOf
  rw [show stored Key.ZERO (MemStore.insert k f s) = stored Key.ZERO s from Commit.operands_insert hk f s]

theorem setData_good {h : Host} (hs : Sound h) {id : Uuid} {d : MemStore}
    (hd : ∀ s ∈ h.stores, s.id = id → Good { s with data := d }) : Sound (h.setData id d) := by
  refine ⟨?_, ?_⟩
  · intro s hm
    unfold setData at hm
    obtain ⟨x, hx, rfl⟩ := List.mem_map.1 hm
    split
    · exact hd x hx ‹_›
    · exact hs.good x hx
  · have h0 := hs.main
    unfold has find at h0 ⊢
    rw [List.find?_isSome] at h0 ⊢
    obtain ⟨x, hx, he⟩ := h0
    unfold setData
    refine ⟨_, List.mem_map.2 ⟨x, hx, rfl⟩, ?_⟩
    split <;> exact he

theorem setActive_good {h h' : Host} (hs : Sound h) {wall : Word} {id : Uuid} {st : Status}
    (e : h.setActive wall id = some (st, h')) : Sound h' := by
  unfold setActive at e
  split at e
  · cases e; exact hs
  · simp only at e
    have hs' : Sound (h.now' wall 0#64).2 := ⟨hs.good, hs.main⟩
    split at e
    · cases e
    · rename_i m hm
      obtain ⟨hm1, hm2⟩ := find_some hm
      split at e
      · cases e; exact hs'
      · cases e
        have hk : ¬ (Key.mk' ACTIVE_STORE_UUID Form.ZERO = Key.END) := Key.mk_ne_end (by decide)
        have : Sound ((h.now' wall 0#64).2.setData Uuid.NIL
            (Engine.write m.data (Key.mk' ACTIVE_STORE_UUID Form.ZERO)
              [⟨(h.now' wall 0#64).1, id, [], .raw⟩]).2) := by
          refine setData_good hs' fun s hm he => ?_
          unfold Engine.write
          rw [if_neg (fun x => hk x.1)]
          have g := hs'.good m hm1
          obtain ⟨t, ht, -⟩ := g.tip
          exact ⟨MemStore.insert_sorted g.sorted _ _,
            ⟨t, by rw [tipOf_insert (by decide)]; exact ht, Or.inr he⟩, (hs'.good s hm).cached⟩
        exact ⟨this.good, this.main⟩

theorem drop_good {h : Host} (hs : Sound h) (id : Uuid) : Sound (h.dropStore id).2 := by
  unfold dropStore
  split
  · exact hs
  · split
    · exact hs
    · rename_i hn
      refine ⟨fun s hm => hs.good s (List.mem_filter.1 hm).1, ?_⟩
      have h0 := hs.main
      unfold has find at h0 ⊢
      rw [List.find?_isSome] at h0 ⊢
      obtain ⟨x, hx, he⟩ := h0
      refine ⟨x, List.mem_filter.2 ⟨hx, ?_⟩, he⟩
      have he : x.id = Uuid.NIL := by simpa using he
      rw [he]
      simpa using fun e => hn e.symm

theorem tipOf_concat {s : MemStore} {pre : List Frame} {o : AOp}
    (h : Engine.operands s Key.ZERO = pre ++ [[o]]) : tipOf s = some o.id := by
  unfold tipOf
  rw [show stored Key.ZERO s = _ from h]
  simp

theorem receive_good {env : Env} {s : OpenStore} (hs : Good s) (hid : s.id ≠ Uuid.NIL) (hv : s.id.version = Uuid.vTIME)
    {now now' : Word} {cur : ACur} {st : Status} {d : MemStore}
    (hc : s.tip ≠ Uuid.NIL ∨ ∀ o ∈ cur.ops, o.id.origin = s.id.origin ∧ o.id.origin.payload ≠ 0)
    (h : Commit.receive env s.data s.tip now cur = some (st, d, now')) : Good { s with data := d } := by
  unfold Commit.receive at h
  obtain ⟨r, hl, h⟩ := Commit.map_some h
  have hn := Commit.receiveLoop_named (st := r.1) (c' := r.2) _ _ _ hl
  have hso := hn.main_sorted hs.sorted
  obtain ⟨t, ht, ho⟩ := hs.tip
  have e0 : tipOf r.2.main = some t := by
    have := hn.operands (j := Key.ZERO) (by decide)
    unfold tipOf
    rw [show stored Key.ZERO r.2.main = _ from this]
    exact ht
  have same : Good { s with data := r.2.main } := ⟨hso, ⟨t, e0, ho⟩, hs.cached⟩
  split at h
  · cases h; exact same
  · rename_i hok
    have hok := Commit.ok_of_not_not hok
    cases h
    by_cases ht : r.2.tip = r.2.base
    · have : (Commit.save r.2).2 = r.2 := by
        unfold Commit.save
        rw [if_pos ht]
      rw [this]; exact same
    rcases Commit.save_tip r.2 hso (hn.2.2 List.Pairwise.nil) with e | ⟨-, h1, h2, h3, pre, e⟩
    · rw [e]; exact same
    · have hb : r.2.base = s.tip := hn.2.1
      refine ⟨h1, ⟨r.2.tip, tipOf_concat e, Or.inl ?_⟩, hs.cached⟩
      by_cases e2 : s.tip = Uuid.NIL
      · rcases hc with hc | hc
        · exact absurd e2 hc
        · match hops : cur.ops with
          | [] =>
            have hval : cur.valid = false := by unfold ACur.valid; rw [hops]; simp
            unfold Commit.receiveLoop at hl
            rw [if_pos (by rw [hval]; decide)] at hl
            cases hl
            exact absurd rfl ht
          | o :: os =>
            have hp := hc o (by rw [hops]; simp)
            rcases Commit.receiveLoop_tip (y := s.id.origin) (by rw [← hv]; rfl) (by rw [← hp.1]; exact hp.2) _
              (fun o ho => (hc o ho).1) (st := r.1) (c' := r.2) hl hok with e2 | e2
            · exact absurd (e2.trans hb.symm) ht
            · exact e2
      · rw [h2 (by rw [hb]; exact e2), hb]
        rcases hs.cached with e1 | e1 | e1
        · exact absurd e1 e2
        · exact e1
        · exact absurd e1 hid

end Host
namespace Commit

theorem newStore_seek (v : Rdt.View) (hs : Hashing) (wall active : Word) (tip : Uuid) (now : Word) (k : Key) :
    ∃ f o, seekPrev ⟨Rdt.mergeCursors v, hs, wall, active⟩ (start newStore tip now) k = some (Status.OK, o :: f) ∧
      o.ref = formUuid Form.ZERO := by
  obtain ⟨r, hr, h1, h2⟩ := read_zero_form v newStore (show Key.ZERO.form = Form.ZERO from by decide)
  have h3 := h2 ⟨Uuid.NIL, formUuid Form.ZERO, [], .raw⟩ (by decide) (by decide)
  obtain ⟨r1, r2⟩ := r
  cases h1
  match r2, h3 with
  | p :: ps, e =>
    have e : p.ref = formUuid Form.ZERO := congrArg (fun b : Body => b.2.1) (Option.some.inj e)
    refine ⟨ps, p, ?_, e⟩
    have hse : Engine.seekPrev (Rdt.mergeCursors v) newStore k = some (Status.OK, Key.ZERO, p :: ps) := by
      unfold Engine.seekPrev
      have : (newStore.filter fun r => !Key.lt k r.1) = newStore := by
        rw [List.filter_eq_self]
        intro a ha
        rw [List.mem_singleton.1 ha]
        show (!Key.lt k Key.ZERO) = true
        rw [Key.zero_le]
        rfl
      rw [this]
      show (Engine.read (Rdt.mergeCursors v) newStore Key.ZERO).map _ = _
      rw [hr]
      rfl
    unfold seekPrev
    show (Engine.seekPrev (Rdt.mergeCursors v) newStore k).bind _ = _
    rw [hse, Option.bind_some]
    simp only
    rw [if_neg (by decide)]
    have hk : MemStore.Iter.key (start newStore tip now).mem
        (MemStore.Iter.seekTo (start newStore tip now).mem MemStore.Iter.fresh k true) = some Key.END := rfl
    rw [hk, Option.bind_some]
    simp only
    rw [if_neg (by decide : ¬ Key.ZERO = Key.END), if_pos trivial]
    rw [if_neg (by decide), if_pos (by decide)]

/-- What is looked up for the first event of a yarn in a new store. -/
theorem newStore_lookups (v : Rdt.View) (hs : Hashing) (wall active : Word) (tip : Uuid) (now : Word) {o : AOp}
    (hi : o.id.version = Uuid.vTIME) (hr : o.ref = formUuid Form.YARN) :
    ∃ t c1 m c2, yarnTip ⟨Rdt.mergeCursors v, hs, wall, active⟩ (start newStore tip now) o = some (Status.OK, t, c1) ∧
      headMeta ⟨Rdt.mergeCursors v, hs, wall, active⟩ c1 t o = some (Status.OK, m, c2) ∧
      m.rdt = formUuid Form.YARN := by
  obtain ⟨i, r, vals, term⟩ := o
  replace hr : r = formUuid Form.YARN := hr
  subst hr
  replace hi : i.version = Uuid.vTIME := hi
  have hne : formUuid Form.YARN ≠ i := by
    intro e
    rw [← e] at hi
    exact absurd hi (by decide)
  have ht : yarnTip ⟨Rdt.mergeCursors v, hs, wall, active⟩ (start newStore tip now)
      (⟨i, formUuid Form.YARN, vals, term⟩ : AOp) = some (Status.OK, ⟨i, formUuid Form.YARN, i,
        hs.op (⟨i, formUuid Form.YARN, vals, term⟩ : AOp) OpMeta.nil.hash (hs.form (formUuid Form.YARN)), OpMeta.nil.id.value, i.value⟩,
        start newStore tip now) := by
    unfold yarnTip findYarnTipMeta findOpMeta findChainHeadMeta
    obtain ⟨f, p, e, hp⟩ := newStore_seek v hs wall active tip now (Key.mk' ⟨NEVER, i.origin⟩ Form.META)
    rw [e]
    simp only [Option.map_some]
    rw [if_neg (by decide), if_pos (Or.inr (by rw [hp]; decide))]
    simp only [Option.bind_some]
    rw [if_pos (by decide)]
    simp only [Option.bind_some]
    rw [if_pos trivial, if_pos (by decide), root_some hi yarn_name]
    rfl
  have hh := fun tip' : OpMeta => fun hid : tip'.id = i => show headMeta ⟨Rdt.mergeCursors v, hs, wall, active⟩ (start newStore tip now) tip'
      (⟨i, formUuid Form.YARN, vals, term⟩ : AOp) = some (Status.OK, ⟨i, formUuid Form.YARN, i,
        hs.op (⟨i, formUuid Form.YARN, vals, term⟩ : AOp) tip'.hash (hs.form (formUuid Form.YARN)), tip'.id.value, i.value⟩,
        start newStore tip now) from by
    unfold headMeta
    simp only
    rw [if_neg (by rw [hid]; exact hne), if_pos yarn_name, if_neg (by decide), root_some hi yarn_name]
    rfl
  exact ⟨_, _, _, _, ht, hh _ rfl, rfl⟩

/-- A new yarn can be begun in a new store. -/
theorem newStore_yarn (v : Rdt.View) (hs : Hashing) (wall active : Word) (tip : Uuid) (now : Word) {o : AOp}
    (hi : o.id.version = Uuid.vTIME) (hr : o.ref = formUuid Form.YARN) (hsee : (clockSee now o.id).2.ok = true)
    (b : Bool) :
    ∃ mem now', (start newStore tip now).saveChain ⟨Rdt.mergeCursors v, hs, wall, active⟩ ⟨[o], Status.ENDOFFRAME, b⟩ =
      some (⟨o.id, []⟩, { start newStore tip now with mem := mem, now := now', tip := o.id },
        ⟨[], Status.ENDOFFRAME, b⟩) := by
  obtain ⟨i, r, vals, term⟩ := o
  replace hr : r = formUuid Form.YARN := hr
  subst hr
  replace hi : i.version = Uuid.vTIME := hi
  have hs' : checkEventSanity (⟨i, formUuid Form.YARN, vals, term⟩ : AOp) = Status.OK := by
    unfold checkEventSanity
    rw [if_neg (by rw [show AOp.id _ = i from rfl, hi]; decide), if_neg (by show ¬ (formUuid Form.YARN).version = _; decide),
      if_neg (by show ¬ (formUuid Form.YARN).version ≠ _; decide), if_neg (by show ¬ uuid2form (formUuid Form.YARN) = _; decide)]
  have hne : formUuid Form.YARN ≠ i := by
    intro e
    rw [← e] at hi
    exact absurd hi (by decide)
  have ht : yarnTip ⟨Rdt.mergeCursors v, hs, wall, active⟩ (start newStore tip now)
      (⟨i, formUuid Form.YARN, vals, term⟩ : AOp) = some (Status.OK, ⟨i, formUuid Form.YARN, i,
        hs.op (⟨i, formUuid Form.YARN, vals, term⟩ : AOp) OpMeta.nil.hash (hs.form (formUuid Form.YARN)), OpMeta.nil.id.value, i.value⟩,
        start newStore tip now) := by
    unfold yarnTip findYarnTipMeta findOpMeta findChainHeadMeta
    obtain ⟨f, p, e, hp⟩ := newStore_seek v hs wall active tip now (Key.mk' ⟨NEVER, i.origin⟩ Form.META)
    rw [e]
    simp only [Option.map_some]
    rw [if_neg (by decide), if_pos (Or.inr (by rw [hp]; decide))]
    simp only [Option.bind_some]
    rw [if_pos (by decide)]
    simp only [Option.bind_some]
    rw [if_pos trivial, if_pos (by decide), root_some hi yarn_name]
    rfl
  have hh := fun tip' : OpMeta => fun hid : tip'.id = i => show headMeta ⟨Rdt.mergeCursors v, hs, wall, active⟩ (start newStore tip now) tip'
      (⟨i, formUuid Form.YARN, vals, term⟩ : AOp) = some (Status.OK, ⟨i, formUuid Form.YARN, i,
        hs.op (⟨i, formUuid Form.YARN, vals, term⟩ : AOp) tip'.hash (hs.form (formUuid Form.YARN)), tip'.id.value, i.value⟩,
        start newStore tip now) from by
    unfold headMeta
    simp only
    rw [if_neg (by rw [hid]; exact hne), if_pos yarn_name, if_neg (by decide), root_some hi yarn_name]
    rfl
  have := saveChain_one (b := b) (by rw [hs']; decide) ht (hh _ rfl) rfl (by show uuid2form (formUuid Form.YARN) ≠ _; decide) hsee
  exact ⟨_, _, this⟩

end Commit

namespace Host

theorem newStore_sorted : MemStore.Sorted newStore := List.pairwise_singleton _ _

theorem newStore_tip : tipOf newStore = some Uuid.NIL := by decide

theorem beginYarn_ok (v : Rdt.View) (hs : Hashing) (wall active now : Word) {id : Uuid}
    (hi : id.version = Uuid.vTIME) (hsee : (clockSee now id).2.ok = true) :
    ∃ d now', beginYarn ⟨Rdt.mergeCursors v, hs, wall, active⟩ newStore Uuid.NIL now id = some (Status.OK, d, now') ∧
      MemStore.Sorted d ∧ tipOf d = some id := by
  obtain ⟨mem, now', e⟩ := Commit.newStore_yarn v hs wall active Uuid.NIL now
    (o := ⟨id, formUuid Form.YARN, [], .raw⟩) hi rfl hsee true
  have hk := (Commit.saveChain_step e).keeps
  unfold beginYarn
  rw [e, Option.map_some]
  simp only
  have hne : ¬ id = Uuid.NIL := by
    intro h
    rw [h] at hi
    exact absurd hi (by decide)
  have hsv : Commit.save { Commit.start newStore Uuid.NIL now with mem := mem, now := now', tip := id } =
      (Status.OK, { Commit.start newStore Uuid.NIL now with
        main := Engine.writeAll newStore (MemStore.insert Key.ZERO [⟨id, formUuid Form.ZERO, [], .raw⟩] mem),
        mem := [], now := now' }) := by
    unfold Commit.save Commit.start
    simp only
    have h1 : ¬ (Key.ZERO = Key.END) := by decide
    have h2 : ¬ ¬ Status.OK.ok = true := by decide
    rw [if_neg hne, if_neg (by simp), if_neg (by rw [Uuid.lt_nil]; decide)]
    simp only [MemStore.write, h1, if_false, h2]
  rcases Commit.save_tip { Commit.start newStore Uuid.NIL now with mem := mem, now := now', tip := id }
    newStore_sorted (hk.sorted List.Pairwise.nil) with e' | ⟨-, h1, -, -, pre, e'⟩
  · exfalso
    rw [hsv] at e'
    have : Engine.operands (Engine.writeAll newStore (MemStore.insert Key.ZERO [⟨id, formUuid Form.ZERO, [], .raw⟩] mem)) Key.ZERO =
        Engine.operands newStore Key.ZERO := by rw [show Engine.writeAll newStore _ = newStore from e']
    rw [Commit.writeAll_operands _ _ newStore_sorted] at this
    have e2 : Engine.operands (MemStore.insert Key.ZERO [⟨id, formUuid Form.ZERO, [], .raw⟩] mem) Key.ZERO = _ :=
      MemStore.insert_recs (hk.sorted List.Pairwise.nil) _ _ _
    rw [e2, if_pos rfl] at this
    simp at this
  · rw [hsv] at h1 e' ⊢
    exact ⟨_, _, rfl, h1, tipOf_concat e'⟩

theorem beginYarn_good {env : Env} {s : MemStore} (hs : MemStore.Sorted s) {t tip id : Uuid}
    (ht : tipOf s = some t) {now now' : Word} {st : Status} {d : MemStore}
    (h : beginYarn env s tip now id = some (st, d, now')) : MemStore.Sorted d ∧ ∃ t', tipOf d = some t' := by
  unfold beginYarn at h
  obtain ⟨r, hr, h⟩ := Commit.map_some h
  have k := (Commit.saveChain_step (st := r.1) (c' := r.2.1) (cur' := r.2.2) hr).keeps
  cases h
  have hm : r.2.1.main = s := k.main
  rcases Commit.save_tip r.2.1 (by rw [hm]; exact hs) (k.sorted List.Pairwise.nil) with e | ⟨-, h1, -, -, pre, e⟩
  · rw [e, hm]; exact ⟨hs, t, ht⟩
  · exact ⟨h1, _, tipOf_concat e⟩

/-! ### The calls -/

theorem createBranch_good (v : Rdt.View) (hs : Hashing) {h h' : Host} (hg : Sound h) {wall yarn : Word} {tr : Bool}
    {st : Status} (hc : tr = true ∨ Startable h wall yarn)
    (e : h.createBranch (Rdt.mergeCursors v) hs wall yarn tr = some (st, h')) : Sound h' := by
  unfold createBranch at e
  simp only at e
  have hn : (if tr then (Uuid.time 0#64 yarn, h) else h.now' wall yarn).2.stores = h.stores := by
    cases tr <;> rfl
  have hid : (if tr then (Uuid.time 0#64 yarn, h) else h.now' wall yarn).1.version = Uuid.vTIME ∧
      (if tr then (Uuid.time 0#64 yarn, h) else h.now' wall yarn).1.origin = (branchId yarn).origin ∧
      (clockSee (if tr then (Uuid.time 0#64 yarn, h) else h.now' wall yarn).2.now
        (if tr then (Uuid.time 0#64 yarn, h) else h.now' wall yarn).1).2.ok = true := by
    have hok : Status.OK.ok = true := by decide
    cases tr with
    | true =>
      refine ⟨Uuid.time_version _ _, rfl, ?_⟩
      simp only [if_true]
      unfold clockSee
      rw [if_neg (by rw [Uuid.time_version]; decide)]
      split
      · exact hok
      · rw [if_neg (by show ¬ (0#64 : Word).toNat ≥ NEVER.toNat; decide)]; exact hok
    | false =>
      rcases hc with hc | ⟨h1, h2⟩
      · cases hc
      refine ⟨Uuid.time_version _ _, ?_, ?_⟩
      · simp only [Bool.false_eq_true, if_false]
        unfold now' clockNow branchId
        simp only
        by_cases hy : yarn = 0#64
        · rw [if_pos hy]
          rcases h1 with h1 | h1
          · exact absurd hy h1
          · rw [h1, hy]; rfl
        · rw [if_neg hy]; rfl
      · simp only [Bool.false_eq_true, if_false]
        unfold clockSee
        have e1 : (h.now' wall yarn).1.version = Uuid.vTIME := Uuid.time_version _ _
        rw [if_neg (by rw [e1]; decide)]
        have e2 : (h.now' wall yarn).1.value = (clockNow h.now wall yarn).1 := rfl
        have e3 : (h.now' wall yarn).2.now = (clockNow h.now wall yarn).1 := rfl
        rw [e2, e3, if_neg (Nat.lt_irrefl _), if_neg (Nat.not_le.2 h2)]
        exact hok
  revert e hn hid
  generalize (if tr then (Uuid.time 0#64 yarn, h) else h.now' wall yarn) = n
  intro e hn hid
  have hs' : Sound n.2 := ⟨by rw [hn]; exact hg.good, by unfold has find; rw [hn]; exact hg.main⟩
  split at e
  · cases e; exact hs'
  · split at e
    · cases e
    · obtain ⟨r, hr, e⟩ := Commit.map_some e
      obtain ⟨d, now', e1, e2, e3⟩ := beginYarn_ok v hs wall n.2.active.origin n.2.now hid.1 hid.2.2
      have : some r = some (Status.OK, d, now') := hr.symm.trans e1
      cases this
      cases e
      refine ⟨?_, ?_⟩
      · intro s hm
        obtain ⟨x, hx, rfl⟩ := List.mem_map.1 hm
        have hxc : x.tip = Uuid.NIL ∨ x.tip.origin = x.id.origin ∨ x.id = Uuid.NIL := by
          rcases List.mem_append.1 hx with hx | hx
          · exact (hs'.good x hx).cached
          · rw [List.mem_singleton.1 hx]; exact Or.inl rfl
        split
        · rename_i hxi
          exact ⟨e2, ⟨_, e3, Or.inl (by rw [hxi]; exact hid.2.1)⟩, hxc⟩
        · rename_i hxi
          rcases List.mem_append.1 hx with hx | hx
          · exact hs'.good x hx
          · rw [List.mem_singleton.1 hx] at hxi; exact absurd rfl hxi
      · have h0 := hs'.main
        unfold has find at h0 ⊢
        rw [List.find?_isSome] at h0 ⊢
        obtain ⟨x, hx, he⟩ := h0
        refine ⟨_, List.mem_map.2 ⟨x, List.mem_append_left _ hx, rfl⟩, ?_⟩
        split <;> exact he

theorem receive_sound {mg : Reducer} {hs : Hashing} {h h' : Host} (hg : Sound h) {wall yarn : Word} {cur : ACur}
    {st : Status} (hc : Careful h (.receive wall yarn cur))
    (e : h.receive mg hs wall yarn cur = some (st, h')) : Sound h' := by
  unfold receive at e
  split at e
  · cases e; exact hg
  · split at e
    · cases e; exact hg
    · rename_i s hf
      obtain ⟨hm, hi⟩ := find_some hf
      obtain ⟨r, hr, e⟩ := Commit.map_some e
      cases e
      have g := receive_good (hg.good s hm) (by rw [hi]; exact Uuid.time_ne_nil _ _)
        (by rw [hi]; exact Uuid.time_version _ _) (hc s hf) (st := r.1) (d := r.2.1) (now' := r.2.2) hr
      have := setData_good (id := s.id) (d := r.2.1) hg (fun x hx he => ⟨g.sorted, by
        obtain ⟨t, h1, h2⟩ := g.tip
        exact ⟨t, h1, by rw [he]; exact h2⟩, (hg.good x hx).cached⟩)
      exact ⟨this.good, this.main⟩

theorem keys_sublist : ∀ s : MemStore, ∀ k ∈ keys s, ∃ r ∈ s, r.1 = k := by
  intro s
  induction s with
  | nil => intro k h; cases h
  | cons r s ih =>
    intro k h
    match s, ih with
    | [], _ => rw [List.mem_singleton.1 h]; exact ⟨r, by simp, rfl⟩
    | q :: s, ih =>
      unfold keys at h
      split at h
      · obtain ⟨x, hx, e⟩ := ih k h
        exact ⟨x, List.mem_cons_of_mem _ hx, e⟩
      · rcases List.mem_cons.1 h with rfl | h
        · exact ⟨r, by simp, rfl⟩
        · obtain ⟨x, hx, e⟩ := ih k h
          exact ⟨x, List.mem_cons_of_mem _ hx, e⟩

/-- The keys come in order, each once. -/
theorem keys_sorted : ∀ {s : MemStore}, MemStore.Sorted s → (keys s).Pairwise fun a b => Key.lt a b = true := by
  intro s
  induction s with
  | nil => intro _; exact List.Pairwise.nil
  | cons r s ih =>
    intro hs
    match s, ih with
    | [], _ => exact List.pairwise_singleton _ _
    | q :: s, ih =>
      have hs' := (List.pairwise_cons.1 hs).2
      unfold keys
      split
      · exact ih hs'
      · rename_i hne
        refine List.pairwise_cons.2 ⟨fun k hk => ?_, ih hs'⟩
        obtain ⟨x, hx, rfl⟩ := keys_sublist _ _ hk
        have h1 := (List.pairwise_cons.1 hs).1 q (by simp)
        have h2 : Key.lt r.1 q.1 = true := Key.lt_of_le h1 hne
        rcases List.mem_cons.1 hx with rfl | hx
        · exact h2
        · have h3 := (List.pairwise_cons.1 hs').1 x hx
          by_cases e : q.1 = x.1
          · rw [← e]; exact h2
          · exact Key.lt_trans h2 (Key.lt_of_le h3 e)

theorem mem_keys : ∀ {s : MemStore} (r : Key × Frame), r ∈ s → r.1 ∈ keys s := by
  intro s
  induction s with
  | nil => intro r h; cases h
  | cons p s ih =>
    intro r h
    match s, ih with
    | [], _ => rw [List.mem_singleton.1 h]; exact List.mem_singleton.2 rfl
    | q :: s, ih =>
      unfold keys
      rcases List.mem_cons.1 h with rfl | h
      · split
        · rename_i e
          rw [e]; exact ih q (by simp)
        · simp
      · split
        · exact ih r h
        · exact List.mem_cons_of_mem _ (ih r h)

/-- What is left once the first key, the zero key, is skipped. -/
theorem keys_tail {s : MemStore} (hs : MemStore.Sorted s) {t : Uuid} (ht : tipOf s = some t) {k : Key} {ks : List Key}
    (h : keys s = k :: ks) : k = Key.ZERO ∧ ∀ j ∈ ks, j ≠ Key.ZERO := by
  have hp := keys_sorted hs
  rw [h] at hp
  have h0 : Key.ZERO ∈ keys s := by
    unfold tipOf at ht
    obtain ⟨f, hf, -⟩ := Commit.bind_some ht
    have := List.mem_of_getLast? hf
    unfold stored at this
    obtain ⟨r, hr, -⟩ := List.mem_map.1 this
    obtain ⟨h1, h2⟩ := List.mem_filter.1 hr
    have h2 : r.1 = Key.ZERO := by simpa using h2
    rw [← h2]
    exact mem_keys r h1
  rw [h] at h0
  have hk : k = Key.ZERO := by
    rcases List.mem_cons.1 h0 with e | e
    · exact e.symm
    · have := (List.pairwise_cons.1 hp).1 _ e
      rw [Key.zero_le] at this
      cases this
  refine ⟨hk, fun j hj e => ?_⟩
  have := (List.pairwise_cons.1 hp).1 j hj
  rw [hk, e, Key.lt_irrefl] at this
  cases this

theorem copyKeys_good {mg : Reducer} {orig : MemStore} : ∀ (ks : List Key) {s d : MemStore} {st : Status},
    (∀ j ∈ ks, j ≠ Key.ZERO) → MemStore.Sorted s → copyKeys mg orig s ks = some (st, d) →
    MemStore.Sorted d ∧ tipOf d = tipOf s := by
  intro ks
  induction ks with
  | nil => intro s d st _ hs h; cases h; exact ⟨hs, rfl⟩
  | cons k ks ih =>
    intro s d st hk hs h
    unfold copyKeys at h
    obtain ⟨r, hr, h⟩ := Commit.bind_some h
    split at h
    · cases h; exact ⟨hs, rfl⟩
    · simp only at h
      have h1 : MemStore.Sorted (Engine.write s k r.2).2 ∧ tipOf (Engine.write s k r.2).2 = tipOf s := by
        unfold Engine.write
        split
        · exact ⟨hs, rfl⟩
        · exact ⟨MemStore.insert_sorted hs _ _, tipOf_insert (hk k (by simp)) _ _⟩
      split at h
      · rw [Option.some.inj h] at h1; exact h1
      · obtain ⟨a, b⟩ := ih (fun j hj => hk j (by simp [hj])) h1.1 h
        exact ⟨a, b.trans h1.2⟩

theorem fork_good (v : Rdt.View) (hs : Hashing) {h h' : Host} (hg : Sound h) {wall new orig : Word}
    {st : Status} (hc : Startable h wall new)
    (e : h.forkBranch (Rdt.mergeCursors v) hs wall new orig = some (st, h')) : Sound h' := by
  unfold forkBranch at e
  split at e
  · cases e; exact hg
  · obtain ⟨c, hcr, e⟩ := Commit.bind_some e
    have g := createBranch_good v hs hg (st := c.1) (h' := c.2) (tr := false) (Or.inr hc) hcr
    split at e
    · cases e; exact g
    · split at e
      · rename_i o n ho hn
        obtain ⟨hom, hoi⟩ := find_some ho
        obtain ⟨hnm, hni⟩ := find_some hn
        split at e
        · cases e
        · rename_i k ks hks
          obtain ⟨r, hr, e⟩ := Commit.bind_some e
          split at e
          · cases e; exact g
          · obtain ⟨w, hw, e⟩ := Commit.map_some e
            cases e
            obtain ⟨t, ht, -⟩ := (g.good o hom).tip
            obtain ⟨-, hz⟩ := keys_tail (g.good o hom).sorted ht hks
            obtain ⟨h1, h2⟩ := copyKeys_good ks hz (g.good n hnm).sorted (st := w.1) (d := w.2) hw
            refine setData_good g fun s hm he => ?_
            obtain ⟨t', ht', ho'⟩ := (g.good n hnm).tip
            exact ⟨h1, ⟨t', h2.trans ht', by rw [he, ← hni]; exact ho'⟩, (g.good s hm).cached⟩
      · cases e

theorem createReplica_good (v : Rdt.View) (hs : Hashing) {wall : Word} {st st' : Status} {db : Db} {h : Host}
    (e : createReplica (Rdt.mergeCursors v) hs wall = some (st, db))
    (eo : opened (Rdt.mergeCursors v) db = some (st', h)) : Sound h := by
  have g0 : Sound ⟨[⟨Uuid.NIL, Uuid.NIL, newStore⟩], Uuid.NIL, 0#64⟩ := by
    refine ⟨fun s hm => ?_, by decide⟩
    rw [List.mem_singleton.1 hm]
    exact ⟨newStore_sorted, ⟨_, newStore_tip, Or.inr rfl⟩, Or.inl rfl⟩
  obtain ⟨h1, e1, g1⟩ := opened_good v g0
  unfold createReplica at e
  rw [show [(Uuid.NIL, newStore)] = close ⟨[⟨Uuid.NIL, Uuid.NIL, newStore⟩], Uuid.NIL, 0#64⟩ from rfl, e1,
    Option.bind_some] at e
  simp only at e
  split at e
  · cases e
  · rename_i s hf
    obtain ⟨hm, hi⟩ := find_some hf
    obtain ⟨r, hr, e⟩ := Commit.map_some e
    cases e
    obtain ⟨t, ht, ho⟩ := (g1.good s hm).tip
    obtain ⟨a, t', b⟩ := beginYarn_good (g1.good s hm).sorted ht (st := r.1) (d := r.2.1) (now' := r.2.2) hr
    have hact : s.id = Uuid.NIL := by
      rw [hi]
      exact opened_active e1
    have g2 : Sound (h1.setData s.id r.2.1) :=
      setData_good g1 fun x hx he => ⟨a, ⟨t', b, Or.inr (he.trans hact)⟩, (g1.good x hx).cached⟩
    obtain ⟨h2, e2, g3⟩ := opened_good v g2
    rw [e2] at eo
    cases eo
    exact g3

/-! ### Stores that are not touched -/

theorem find_setData {h : Host} {id j : Uuid} (hj : j ≠ id) (d : MemStore) :
    (h.setData id d).find j = h.find j := by
  unfold setData find
  simp only
  induction h.stores with
  | nil => rfl
  | cons s l ih =>
    rw [List.map_cons, List.find?_cons, List.find?_cons, ih]
    by_cases e : s.id = id
    · rw [if_pos e]
      have : ¬ s.id = j := fun x => hj (x ▸ e)
      simp [this]
    · rw [if_neg e]

theorem createBranch_find {mg : Reducer} {hs : Hashing} {h h' : Host} {wall yarn : Word} {tr : Bool} {st : Status}
    {j : Uuid} (hj : j ≠ branchId yarn) (e : h.createBranch mg hs wall yarn tr = some (st, h')) :
    h'.find j = h.find j := by
  unfold createBranch at e
  simp only at e
  have hn : (if tr then (Uuid.time 0#64 yarn, h) else h.now' wall yarn).2.stores = h.stores := by
    cases tr <;> rfl
  revert e hn
  generalize (if tr then (Uuid.time 0#64 yarn, h) else h.now' wall yarn) = n
  intro e hn
  have hf : n.2.find j = h.find j := by unfold find; rw [hn]
  split at e
  · cases e; exact hf
  · split at e
    · cases e
    · obtain ⟨r, hr, e⟩ := Commit.map_some e
      cases e
      have := find_setData (h := { n.2 with stores := n.2.stores ++ [⟨branchId yarn, Uuid.NIL, newStore⟩] }) hj r.2.1
      refine Eq.trans this ?_
      rw [← hf]
      unfold find
      simp only
      rw [List.find?_append]
      have : ([⟨branchId yarn, Uuid.NIL, newStore⟩] : List OpenStore).find? (fun s => decide (s.id = j)) = none := by
        simpa using fun x : branchId yarn = j => hj x.symm
      rw [this, Option.or_none]

theorem hostCall_find {mg : Reducer} {hs : Hashing} {h h' : Host} {c : HostCall} {st : Status} {j : Uuid}
    (hr : c ≠ .reopen) (hj : ¬ c.touches j) (e : hostCall mg hs h c = some (st, h')) : h'.find j = h.find j := by
  cases c with
  | reopen => exact absurd rfl hr
  | setActive w id =>
    simp only [hostCall] at e
    unfold setActive at e
    split at e
    · cases e; rfl
    · simp only at e
      split at e
      · cases e
      · split at e
        · cases e; rfl
        · cases e
          exact find_setData (h := (h.now' w 0#64).2) hj _
  | create w y t => exact createBranch_find hj e
  | fork w n o =>
    simp only [hostCall] at e
    unfold forkBranch at e
    split at e
    · cases e; rfl
    · obtain ⟨c, hc, e⟩ := Commit.bind_some e
      have h1 := createBranch_find (st := c.1) (h' := c.2) hj hc
      split at e
      · cases e; exact h1
      · split at e
        · split at e
          · cases e
          · obtain ⟨r, hr, e⟩ := Commit.bind_some e
            split at e
            · cases e; exact h1
            · obtain ⟨w, hw, e⟩ := Commit.map_some e
              cases e
              exact (find_setData hj _).trans h1
        · cases e
  | drop id =>
    simp only [hostCall, Option.some.injEq] at e
    unfold dropStore at e
    split at e
    · cases e; rfl
    · split at e
      · cases e; rfl
      · cases e
        unfold find
        simp only
        rw [List.find?_filter]
        congr 1
        funext s
        by_cases hs : s.id = j
        · have : s.id ≠ id := by rw [hs]; exact hj
          rw [hs] at this
          simpa [hs] using this
        · simp [hs]
  | receive w y cur =>
    simp only [hostCall] at e
    unfold receive at e
    split at e
    · cases e; rfl
    · split at e
      · cases e; rfl
      · rename_i s hf
        obtain ⟨hm, hi⟩ := find_some hf
        obtain ⟨r, hr, e⟩ := Commit.map_some e
        cases e
        exact find_setData (h := h) (by rw [hi]; exact hj) _

/-! ### The clock after opening -/

theorem clockSee_le (now : Word) (t : Uuid) : now.toNat ≤ (clockSee now t).1.toNat := by
  unfold clockSee
  split
  · exact Nat.le_refl _
  · split
    · exact Nat.le_refl _
    · split
      · exact Nat.le_refl _
      · show now.toNat ≤ t.value.toNat
        omega

theorem clockSee_sees (now : Word) (t : Uuid) (hv : t.version = Uuid.vTIME) (hn : t.value.toNat < NEVER.toNat) :
    t.value.toNat ≤ (clockSee now t).1.toNat := by
  unfold clockSee
  rw [if_neg (by rw [hv]; decide)]
  split
  · show t.value.toNat ≤ now.toNat
    omega
  · split
    · omega
    · exact Nat.le_refl _

theorem openLoop_clock {mg : Reducer} : ∀ (rest done : List OpenStore) (now : Word) {st : Status}
    {l : List OpenStore} {now' : Word}, openLoop mg done rest now = some (st, l, now') → st.ok = true →
    now.toNat ≤ now'.toNat ∧ ∃ l', l = done ++ l' ∧ ∀ s ∈ l', s.tip.version = Uuid.vTIME →
      s.tip.value.toNat < NEVER.toNat → s.tip.value.toNat ≤ now'.toNat := by
  intro rest
  induction rest with
  | nil =>
    intro done now st l now' h hok
    cases h
    exact ⟨Nat.le_refl _, [], by simp, by simp⟩
  | cons s rest ih =>
    intro done now st l now' h hok
    unfold openLoop at h
    obtain ⟨r, hr, h⟩ := Commit.bind_some h
    split at h
    · cases h; exact absurd hok ‹_›
    · obtain ⟨h1, l', h2, h3⟩ := ih _ _ h hok
      refine ⟨Nat.le_trans (clockSee_le _ _) h1, { s with tip := r.2 } :: l', by rw [h2]; simp, ?_⟩
      intro x hx hv hn
      rcases List.mem_cons.1 hx with rfl | hx
      · exact Nat.le_trans (clockSee_sees now _ hv hn) h1
      · exact h3 x hx hv hn

theorem opened_clock {mg : Reducer} {db : Db} {st : Status} {h : Host} (e : opened mg db = some (st, h))
    (hok : st.ok = true) : ∀ s ∈ h.stores, s.tip.version = Uuid.vTIME → s.tip.value.toNat < NEVER.toNat →
    s.tip.value.toNat ≤ h.now.toNat := by
  unfold opened at e
  obtain ⟨r, hr, e⟩ := Commit.bind_some e
  simp only at e
  split at e
  · cases e; exact absurd hok ‹_›
  · rename_i hrk
    obtain ⟨-, l', h2, h3⟩ := openLoop_clock _ _ _ (st := r.1) (l := r.2.1) (now' := r.2.2) hr
      (Commit.ok_of_not_not hrk)
    have h3 : ∀ s ∈ r.2.1, s.tip.version = Uuid.vTIME → s.tip.value.toNat < NEVER.toNat →
        s.tip.value.toNat ≤ r.2.2.toNat := by
      rw [h2]; exact h3
    split at e
    · cases e
    · obtain ⟨a, ha, e⟩ := Commit.map_some e
      split at e <;> (cases e; exact h3)

/-! ### What a fork holds -/

theorem copyKeys_exact {mg : Reducer} {orig : MemStore} : ∀ (ks : List Key) {s : MemStore}, MemStore.Sorted s →
    ks.Nodup → (∀ k ∈ ks, ∃ f, Engine.read mg orig k = some (Status.OK, f)) →
    ∃ d, copyKeys mg orig s ks = some (Status.OK, d) ∧ MemStore.Sorted d ∧
      (∀ k, k ∉ ks → stored k d = stored k s) ∧
      ∀ k ∈ ks, ∃ f, Engine.read mg orig k = some (Status.OK, f) ∧ stored k d = stored k s ++ [f] := by
  intro ks
  induction ks with
  | nil => intro s hs _ _; exact ⟨s, rfl, hs, fun _ _ => rfl, by simp⟩
  | cons k ks ih =>
    intro s hs hn hr
    obtain ⟨f, hf⟩ := hr k (by simp)
    have hw : Engine.write s k f = (Status.OK, MemStore.insert k f s) := by
      unfold Engine.write
      rw [if_neg]
      rintro ⟨e1, e2⟩
      unfold Engine.read at hf
      rw [if_pos e1] at hf
      cases hf
      exact e2 rfl
    obtain ⟨hk, hn'⟩ := List.nodup_cons.1 hn
    obtain ⟨d, h1, h2, h3, h4⟩ := ih (s := MemStore.insert k f s) (MemStore.insert_sorted hs _ _) hn'
      (fun j hj => hr j (by simp [hj]))
    have e : ∀ j, stored j (MemStore.insert k f s) = stored j s ++ if j = k then [f] else [] :=
      fun j => MemStore.insert_recs hs k j f
    refine ⟨d, ?_, h2, ?_, ?_⟩
    · unfold copyKeys
      rw [hf, Option.bind_some]
      simp only
      rw [if_neg (by decide), hw, if_neg (by show ¬ ¬ Status.OK.ok = true; decide)]
      exact h1
    · intro j hj
      have hjk : j ≠ k := fun x => hj (by simp [x])
      rw [h3 j (fun x => hj (by simp [x])), e, if_neg hjk, List.append_nil]
    · intro j hj
      rcases List.mem_cons.1 hj with rfl | hj
      · exact ⟨f, hf, by rw [h3 _ hk, e, if_pos rfl]⟩
      · have hjk : j ≠ k := fun x => hk (x ▸ hj)
        obtain ⟨g, hg, h⟩ := h4 j hj
        exact ⟨g, hg, by rw [h, e, if_neg hjk, List.append_nil]⟩

theorem find_setData_same {h : Host} {id : Uuid} {s : OpenStore} (e : h.find id = some s) (d : MemStore) :
    (h.setData id d).find id = some { s with data := d } := by
  revert e
  unfold setData find
  simp only
  induction h.stores with
  | nil => intro e; cases e
  | cons x l ih =>
    intro e
    rw [List.find?_cons] at e
    rw [List.map_cons, List.find?_cons]
    by_cases hx : x.id = id
    · have h1 : decide (x.id = id) = true := by simpa using hx
      rw [h1] at e
      rw [if_pos hx]
      simp only [h1]
      cases e
      rfl
    · have h1 : decide (x.id = id) = false := by simpa using hx
      rw [h1] at e
      rw [if_neg hx]
      simp only [h1]
      exact ih e

theorem createBranch_new {mg : Reducer} {hs : Hashing} {h h' : Host} {wall yarn : Word} {tr : Bool} {st : Status}
    (e : h.createBranch mg hs wall yarn tr = some (st, h')) (hok : st.ok = true) :
    h.has (branchId yarn) = false ∧ ∃ s, h'.find (branchId yarn) = some s ∧ s.tip = Uuid.NIL := by
  unfold createBranch at e
  simp only at e
  have hn : (if tr then (Uuid.time 0#64 yarn, h) else h.now' wall yarn).2.stores = h.stores := by
    cases tr <;> rfl
  revert e hn
  generalize (if tr then (Uuid.time 0#64 yarn, h) else h.now' wall yarn) = n
  intro e hn
  have hf : n.2.find (branchId yarn) = h.find (branchId yarn) := by unfold find; rw [hn]
  split at e
  · cases e; exact absurd hok (by decide)
  · rename_i hno
    have hno' : h.find (branchId yarn) = none := by
      unfold has at hno
      rw [hf] at hno
      simpa using hno
    split at e
    · cases e
    · obtain ⟨r, hr, e⟩ := Commit.map_some e
      cases e
      refine ⟨by unfold has; rw [hno']; rfl, ?_⟩
      have h1 : (Host.find { n.2 with stores := n.2.stores ++ [⟨branchId yarn, Uuid.NIL, newStore⟩] } (branchId yarn)) =
          some ⟨branchId yarn, Uuid.NIL, newStore⟩ := by
        rw [← hf] at hno'
        unfold find at hno' ⊢
        simp only
        rw [List.find?_append, hno']
        simp
      exact ⟨_, find_setData_same h1 r.2.1, rfl⟩

/-! ### Opening changes nothing -/

theorem openLoop_close {mg : Reducer} : ∀ (rest done : List OpenStore) (now : Word) {st : Status}
    {l : List OpenStore} {now' : Word}, openLoop mg done rest now = some (st, l, now') →
    l.map (fun s => (s.id, s.data)) = (done ++ rest).map (fun s => (s.id, s.data)) := by
  intro rest
  induction rest with
  | nil => intro done now st l now' h; cases h; simp
  | cons s rest ih =>
    intro done now st l now' h
    unfold openLoop at h
    obtain ⟨r, hr, h⟩ := Commit.bind_some h
    split at h
    · cases h; rfl
    · rw [ih _ _ h]
      simp

theorem opened_close {mg : Reducer} {db : Db} {st : Status} {h : Host} (e : opened mg db = some (st, h)) :
    h.close = db := by
  unfold opened at e
  obtain ⟨r, hr, e⟩ := Commit.bind_some e
  have h1 := openLoop_close _ _ _ (st := r.1) (l := r.2.1) (now' := r.2.2) hr
  have h2 : r.2.1.map (fun s => (s.id, s.data)) = db := by
    rw [h1]
    simp only [List.nil_append, List.map_map]
    show db.map (fun s => (s.1, s.2)) = db
    simp
  simp only at e
  split at e
  · cases e; exact h2
  · split at e
    · cases e
    · obtain ⟨a, ha, e⟩ := Commit.map_some e
      split at e <;> (cases e; exact h2)

theorem openLoop_bound {mg : Reducer} : ∀ (rest done : List OpenStore) (now : Word) {st : Status}
    {l : List OpenStore} {now' : Word}, openLoop mg done rest now = some (st, l, now') →
    now.toNat < NEVER.toNat → now'.toNat < NEVER.toNat := by
  intro rest
  induction rest with
  | nil => intro done now st l now' h hn; cases h; exact hn
  | cons s rest ih =>
    intro done now st l now' h hn
    unfold openLoop at h
    obtain ⟨r, hr, h⟩ := Commit.bind_some h
    split at h
    · cases h; exact hn
    · refine ih _ _ h ?_
      unfold clockSee
      split
      · exact hn
      · split
        · exact hn
        · split
          · exact hn
          · exact Nat.not_le.1 ‹_›

theorem opened_bound {mg : Reducer} {db : Db} {st : Status} {h : Host} (e : opened mg db = some (st, h)) :
    h.now.toNat < NEVER.toNat := by
  unfold opened at e
  obtain ⟨r, hr, e⟩ := Commit.bind_some e
  have h1 := openLoop_bound _ _ _ (st := r.1) (l := r.2.1) (now' := r.2.2) hr (by decide)
  simp only at e
  split at e
  · cases e; exact h1
  · split at e
    · cases e
    · obtain ⟨a, ha, e⟩ := Commit.map_some e
      split at e <;> (cases e; exact h1)

end Host

/-! ### Careful histories -/

theorem _root_.Ron.Spec.Lived.sound {v : Rdt.View} {hs : Hashing} {h : Host}
    (l : Lived (Rdt.mergeCursors v) hs Careful h) : Host.Sound h := by
  induction l with
  | created e1 e2 => exact Host.createReplica_good v hs e1 e2
  | @used h h' c st l hc e ih =>
    cases c with
    | setActive w id => exact Host.setActive_good ih e
    | create w y t => exact Host.createBranch_good v hs ih hc e
    | fork w n o => exact Host.fork_good v hs ih hc e
    | drop id =>
      have := Host.drop_good ih id
      simp only [hostCall, Option.some.injEq] at e
      rw [e] at this
      exact this
    | receive w y c => exact Host.receive_sound ih hc e
    | reopen =>
      obtain ⟨h'', e1, g⟩ := Host.opened_good v ih
      simp only [hostCall] at e
      rw [e1] at e
      cases e
      exact g

namespace Commit

/-- A frame of one event. -/
theorem receive_one {env : Env} {main : MemStore} {tip : Uuid} {now : Word} {o : AOp} {c1 c2 : Commit}
    {t m : OpMeta} (hm : MemStore.Sorted main) (hq : o.term ≠ .query) (hp : o.id.origin.payload ≠ 0)
    (hs : (checkEventSanity o).ok = true) (ht : (start main tip now).yarnTip env o = some (Status.OK, t, c1))
    (hh : c1.headMeta env t o = some (Status.OK, m, c2)) (hf : uuid2form m.rdt ≠ Form.ERROR)
    (hsee : (clockSee now o.id).2.ok = true)
    (hb : tip = Uuid.NIL ∨ tip.origin = o.id.origin ∧ Uuid.lt tip o.id = true) :
    ∃ s' now', receive env main tip now ⟨[o], Status.ENDOFFRAME, true⟩ = some (Status.OK, s', now') ∧
      tipOf s' = some o.id ∧ ((Key.mk' m.object Form.LOG, [{ o with term := .raw }]) ∈ s') ∧
      (Key.ofUuids m.object m.rdt, [{ o with term := .raw }]) ∈ s' := by
  have hv := sane_time hs
  have k1 := yarnTip_keeps ht
  have k2 := headMeta_keeps hh
  obtain ⟨x1, e1, s1⟩ := k1
  obtain ⟨x2, e2, s2⟩ := k2
  have hbase : c2.base = tip := by rw [e2, e1]; rfl
  have hmain : c2.main = main := by rw [e2, e1]; rfl
  have hnow : c2.now = now := by rw [e2, e1]; rfl
  have hsm : MemStore.Sorted c2.mem := by
    have : c2.mem = x2 := by rw [e2]
    rw [this]
    apply s2
    have : c1.mem = x1 := by rw [e1]
    rw [this]
    exact s1 List.Pairwise.nil
  have hmi := headMeta_id hh (by decide)
  have hsv := saveChain_one (b := true) hs ht hh hmi hf (by rw [hnow]; exact hsee)
  have hstep := (saveChain_step hsv).keeps
  have htime := Uuid.time_ok hv
  have hval : (⟨[o], Status.ENDOFFRAME, true⟩ : ACur).valid = true := rfl
  have hval' : (⟨[], Status.ENDOFFRAME, true⟩ : ACur).valid = false := rfl
  have hd : dispatch env (start main tip now) ⟨[o], Status.ENDOFFRAME, true⟩ =
      (start main tip now).saveChain env ⟨[o], Status.ENDOFFRAME, true⟩ := by
    unfold dispatch
    simp only
    rw [if_pos hv, if_neg hq, if_pos hp]
  unfold receive receiveLoop
  rw [if_neg (by rw [hval]; decide), hd, hsv]
  simp only [Option.bind_some, Option.map_some, htime, hval', not_true_eq_false, if_false, Bool.false_eq_true]
  have hne : o.id ≠ tip := by
    rcases hb with e | ⟨-, e⟩
    · rw [e]
      intro e
      rw [e] at hv
      exact absurd hv (by decide)
    · intro e'
      rw [e'] at e
      simp [Uuid.lt] at e
  have hlt : Uuid.lt o.id tip = false := by
    rcases hb with e | ⟨-, e⟩
    · rw [e]; exact Uuid.lt_nil _
    · revert e
      unfold Uuid.lt
      simp only [Bool.or_eq_true, decide_eq_true_eq, Bool.and_eq_true, Bool.or_eq_false_iff, decide_eq_false_iff_not,
        Bool.and_eq_false_iff, ← BitVec.toNat_inj]
      omega
  generalize hmem : oneRecords env.hs m o c2.mem = mem at *
  have hsave : save { c2 with mem := mem, now := (clockSee c2.now o.id).1, tip := o.id } = (Status.OK,
      { c2 with
        main := Engine.writeAll main (MemStore.insert Key.ZERO [⟨o.id, formUuid Form.ZERO, [], .raw⟩] mem),
        mem := [], now := (clockSee c2.now o.id).1, tip := Uuid.NIL, base := Uuid.NIL }) := by
    unfold save
    simp only
    have h1 : ¬ (Key.ZERO = Key.END) := by decide
    have h2 : ¬ ¬ Status.OK.ok = true := by decide
    rw [hbase, hmain, if_neg hne, if_neg (by
      rintro ⟨a, b⟩
      rcases hb with e | ⟨e, -⟩
      · exact a e
      · exact b e.symm), if_neg (by rw [hlt]; decide)]
    simp only [MemStore.write, h1, if_false, h2]
  rw [hsave]
  have hsm2 : MemStore.Sorted mem := hstep.sorted List.Pairwise.nil
  have hmem' : ∀ r, r ∈ mem → r ∈ Engine.writeAll main (MemStore.insert Key.ZERO [⟨o.id, formUuid Form.ZERO, [], .raw⟩] mem) :=
    fun r hr => mem_writeAll.2 (Or.inr (mem_insert.2 (Or.inr hr)))
  refine ⟨_, _, rfl, ?_, hmem' _ ?_, hmem' _ ?_⟩
  · have e : Engine.operands (Engine.writeAll main (MemStore.insert Key.ZERO [⟨o.id, formUuid Form.ZERO, [], .raw⟩] mem)) Key.ZERO =
        (Engine.operands main Key.ZERO ++ Engine.operands mem Key.ZERO) ++ [[⟨o.id, formUuid Form.ZERO, [], .raw⟩]] := by
      rw [writeAll_operands _ _ hm]
      have e2 : Engine.operands (MemStore.insert Key.ZERO [⟨o.id, formUuid Form.ZERO, [], .raw⟩] mem) Key.ZERO = _ :=
        MemStore.insert_recs hsm2 _ _ _
      rw [e2, if_pos rfl, List.append_assoc]
      rfl
    exact Host.tipOf_concat (o := ⟨o.id, formUuid Form.ZERO, [], .raw⟩) e
  · rw [← hmem]
    exact mem_insert.2 (Or.inr (mem_insert.2 (Or.inl rfl)))
  · rw [← hmem]
    exact mem_insert.2 (Or.inl rfl)

end Commit
end Ron
