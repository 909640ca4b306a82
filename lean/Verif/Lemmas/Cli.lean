import Verif.Lemmas.Names
import Verif.Spec.Cli
/-!
What the commands do to the database.
-/
namespace Ron
open Spec

namespace Host

theorem close_setData (h : Host) (id : Uuid) (d : MemStore) :
    (h.setData id d).close = h.close.map fun s => if s.1 = id then (s.1, d) else s := by
  unfold setData close
  simp only [List.map_map]
  refine List.map_congr_left fun s _ => ?_
  simp only [Function.comp]
  split <;> rfl

theorem has_iff (h : Host) (id : Uuid) : h.has id = true ↔ ∃ s ∈ h.close, s.1 = id := by
  unfold has find close
  rw [List.find?_isSome]
  constructor
  · rintro ⟨x, hx, e⟩
    exact ⟨_, List.mem_map.2 ⟨x, hx, rfl⟩, by simpa using e⟩
  · rintro ⟨s, hs, e⟩
    obtain ⟨x, hx, rfl⟩ := List.mem_map.1 hs
    exact ⟨x, hx, by simpa using e⟩

theorem find_close {h : Host} {id : Uuid} {s : OpenStore} (e : h.find id = some s) : (id, s.data) ∈ h.close := by
  obtain ⟨a, b⟩ := find_some e
  exact List.mem_map.2 ⟨s, a, by rw [b]⟩

theorem find_has {h : Host} {id : Uuid} (e : h.has id = true) : ∃ s, h.find id = some s :=
  Option.isSome_iff_exists.1 e

/-- The status of a new yarn. -/
theorem beginYarn_status {env : Env} {data d : MemStore} {now now' : Word} {id : Uuid} {st : Status}
    (h : beginYarn env data Uuid.NIL now id = some (st, d, now')) : st = Status.OK := by
  unfold beginYarn at h
  obtain ⟨r, hr, h⟩ := Commit.map_some h
  have k := (Commit.saveChain_step (st := r.1) (c' := r.2.1) (cur' := r.2.2) hr).keeps
  have hb : r.2.1.base = Uuid.NIL := k.base
  have e : (Commit.save r.2.1).1 = Status.OK := by
    unfold Commit.save
    split
    · rfl
    · rw [if_neg (fun x => x.1 hb), hb, if_neg (by rw [Uuid.lt_nil]; decide)]
      have h1 : ¬ (Key.ZERO = Key.END) := by decide
      have h2 : ¬ ¬ Status.OK.ok = true := by decide
      simp only [MemStore.write, h1, if_false, h2]
  simp only [Prod.mk.injEq] at h
  rw [← h.1, e]

/-- A branch is refused, or it is added to the others. -/
theorem createBranch_cases {mg : Reducer} {hs : Hashing} {h h' : Host} {wall yarn : Word} {st : Status}
    (e : h.createBranch mg hs wall yarn false = some (st, h')) :
    h'.active = h.active ∧
    ((st = Status.BADARGS ∧ h'.close = h.close ∧ h.has (branchId yarn) = true) ∨
     (st = Status.OK ∧ h.has (branchId yarn) = false ∧ h.has Uuid.NIL = true ∧
       ∃ d, h'.close = h.close ++ [(branchId yarn, d)])) := by
  unfold createBranch at e
  simp only [Bool.false_eq_true, if_false] at e
  split at e
  · rename_i hh
    cases e
    exact ⟨rfl, Or.inl ⟨rfl, rfl, hh⟩⟩
  · rename_i hh
    split at e
    · cases e
    · rename_i hn
      obtain ⟨r, hr, e⟩ := Commit.map_some e
      have hok := beginYarn_status (st := r.1) (d := r.2.1) (now' := r.2.2) hr
      have hno : h.has (branchId yarn) = false := by simpa using (show ¬ h.has (branchId yarn) = true from hh)
      cases e
      refine ⟨rfl, Or.inr ⟨hok, hno, Decidable.not_not.1 hn, r.2.1, ?_⟩⟩
      show (setData _ _ _).close = _
      rw [close_setData]
      unfold close
      simp only [List.map_append, List.map_cons, List.map_nil, if_true]
      congr 1
      rw [List.map_map]
      refine List.map_congr_left fun s hs => ?_
      simp only [Function.comp]
      rw [if_neg]
      intro hc
      have : h.has (branchId yarn) = true := (has_iff h _).2 ⟨_, List.mem_map.2 ⟨s, hs, rfl⟩, hc⟩
      rw [hno] at this
      cases this

/-- The record of the active store. -/
def ACTIVE : Key := Key.mk' ACTIVE_STORE_UUID Form.ZERO

theorem setActive_cases {h h' : Host} {wall : Word} {id : Uuid} {st : Status}
    (e : h.setActive wall id = some (st, h')) :
    (st = Status.NOT_FOUND ∧ h' = h ∧ h.has id = false) ∨
    (st = Status.OK ∧ h.has id = true ∧ h'.active = id ∧
      ∃ m f, h.find Uuid.NIL = some m ∧ h'.now = (clockNow h.now wall h.active.origin).1 ∧
        h'.stores = (h.setData Uuid.NIL (MemStore.insert ACTIVE f m.data)).stores) := by
  unfold setActive at e
  split at e
  · rename_i hh
    cases e
    exact Or.inl ⟨rfl, rfl, by simpa using hh⟩
  · rename_i hh
    simp only at e
    split at e
    · cases e
    · rename_i m hm
      have hk : ¬ (Key.mk' ACTIVE_STORE_UUID Form.ZERO = Key.END) := Key.mk_ne_end (by decide)
      have h2 : ¬ ¬ Status.OK.ok = true := by decide
      simp only [Engine.write, hk, false_and, if_false, h2] at e
      cases e
      exact Or.inr ⟨rfl, Decidable.not_not.1 hh, rfl, m, _, hm, rfl, rfl⟩

theorem writeName_cases (mg : Reducer) (hs : Hashing) (wall : Word) {h : Host} {id : Uuid} {s : OpenStore}
    (hf : h.find id = some s) (key value : Uuid) :
    (h.writeName mg hs wall id key value).1.ok = true ∧
    ∃ o, (h.writeName mg hs wall id key value).2.stores =
      (h.setData id (MemStore.insert Commit.NAMES [o] s.data)).stores := by
  unfold writeName
  rw [hf]
  simp only
  rw [(putName_eq _ _ key value).1, (putName_eq _ _ key value).2, (find_some hf).2]
  exact ⟨Uuid.time_ok (Uuid.time_version _ _), _, rfl⟩

end Host

/-! ### Databases -/

namespace Cli
open Host

/-- The data of a store is replaced. -/
def put (db : Db) (id : Uuid) (d : MemStore) : Db := db.map fun s => if s.1 = id then (s.1, d) else s

theorem close_of_stores {a b : Host} (h : a.stores = b.stores) : a.close = b.close := by unfold close; rw [h]

/-- What a command may have done. -/
inductive Effect (w : World) (h : Host) (verb : Verb) : Status → Db → Prop where
  | same (st : Status) : Effect w h verb st h.close
  | drop (id : Uuid) : verb = .drop → id ≠ Uuid.NIL → Effect w h verb Status.OK (h.close.filter fun s => decide (s.1 ≠ id))
  | put {st : Status} {id : Uuid} {s : OpenStore} (k : Key) (f : Frame) : st.ok = true → h.find id = some s →
    k = Commit.NAMES ∨ k = ACTIVE ∧ id = Uuid.NIL → Effect w h verb st (put h.close id (MemStore.insert k f s.data))
  | create {st : Status} {h1 : Host} {m : OpenStore} (f : Frame) (g : Option Frame) : verb = .create → st.ok = true →
    h.createBranch w.mg w.hs (w.wall 0) w.random false = some (Status.OK, h1) → h1.find Uuid.NIL = some m →
    Effect w h verb st (Cli.put h1.close Uuid.NIL
      ((g.elim id fun g => MemStore.insert Commit.NAMES g) (MemStore.insert ACTIVE f m.data)))

theorem putName_effect {w : World} {t : Nat} {h h' : Host} {store name value : Uuid} {st : Status}
    (e : putName w t h store name value = some (st, h')) (verb : Verb) : Effect w h verb st h'.close := by
  unfold putName at e
  split at e
  · rename_i hh
    obtain ⟨s, hf⟩ := find_has hh
    obtain ⟨a, o, b⟩ := writeName_cases w.mg w.hs (w.wall t) hf name value
    have e := Option.some.inj e
    rw [e] at a b
    rw [close_of_stores b, close_setData]
    exact .put _ _ a hf (Or.inl rfl)
  · cases e

theorem setActive_effect {w : World} {wall : Word} {h h' : Host} {id : Uuid} {st : Status}
    (e : h.setActive wall id = some (st, h')) (verb : Verb) : Effect w h verb st h'.close := by
  rcases setActive_cases e with ⟨-, rfl, -⟩ | ⟨rfl, -, -, m, f, hm, -, hst⟩
  · exact .same _
  · rw [close_of_stores hst, close_setData]
    exact .put _ _ (by decide) hm (Or.inr ⟨rfl, rfl⟩)

theorem put_put (db : Db) (id : Uuid) (a b : MemStore) : put (put db id a) id b = put db id b := by
  unfold put
  rw [List.map_map]
  refine List.map_congr_left fun s _ => ?_
  simp only [Function.comp]
  split <;> rfl

theorem create_effect {w : World} {h h' : Host} {args : Args} {st : Status}
    (e : create w h args = some (st, h')) : Effect w h .create st h'.close := by
  unfold create at e
  obtain ⟨t, ht, e⟩ := Commit.bind_some e
  split at e
  · cases e; exact .same _
  obtain ⟨⟨st1, h1⟩, hr, e⟩ := Commit.bind_some e
  obtain ⟨-, ⟨rfl, hc, -⟩ | ⟨rfl, hno, hnil, d, hc⟩⟩ := createBranch_cases hr
  · simp only at e
    rw [if_pos (by decide)] at e
    cases e
    rw [hc]; exact .same _
  · simp only at e
    rw [if_neg (by decide)] at e
    unfold settle at e
    obtain ⟨⟨st2, h2⟩, hq, e⟩ := Commit.bind_some e
    have hb : h1.has (branchId w.random) = true := (has_iff _ _).2 ⟨(branchId w.random, d), by rw [hc]; simp, rfl⟩
    rcases setActive_cases hq with ⟨-, -, hx⟩ | ⟨rfl, -, -, m, f, hm, -, hst⟩
    · rw [hb] at hx; cases hx
    · simp only at e
      rw [if_neg (by decide)] at e
      have hok : (⟨branchId w.random, []⟩ : Status).ok = true := Uuid.time_ok (Uuid.time_version _ _)
      split at e
      · cases e
        rw [close_of_stores hst, close_setData]
        exact .create f none rfl hok hr hm
      · obtain ⟨⟨st3, h3⟩, hp, e⟩ := Commit.map_some e
        unfold putName at hp
        split at hp
        · rename_i hh
          obtain ⟨s, hf⟩ := find_has hh
          obtain ⟨a, o, b⟩ := writeName_cases w.mg w.hs (w.wall 2) hf _ _
          have hp := Option.some.inj hp
          rw [hp] at a b
          simp only at e
          rw [if_neg (not_not_intro a)] at e
          cases e
          have hs : s.data = MemStore.insert ACTIVE f m.data := by
            have h2f : h2.find Uuid.NIL = some { m with data := MemStore.insert ACTIVE f m.data } := by
              have := find_setData_same hm (MemStore.insert ACTIVE f m.data)
              unfold Host.find at this ⊢
              rw [hst]
              exact this
            rw [hf] at h2f
            rw [Option.some.inj h2f]
          rw [close_of_stores b, close_setData, close_of_stores hst, close_setData, hs]
          have := put_put h1.close Uuid.NIL (MemStore.insert ACTIVE f m.data)
            (MemStore.insert Commit.NAMES [o] (MemStore.insert ACTIVE f m.data))
          unfold put at this
          rw [this]
          exact .create f (some [o]) rfl hok hr hm
        · cases hp

/-- The query and the frame go to a branch that is not there. -/
theorem receive_zero {w : World} {t : Nat} {h h' : Host} {cur : ACur} {st : Status} (hz : h.has (branchId 0#64) = false)
    (e : h.receive w.mg w.hs (w.wall t) 0#64 cur = some (st, h')) : st.ok = false ∧ h' = h := by
  unfold Host.receive at e
  split at e
  · cases e; exact ⟨by decide, rfl⟩
  · have : h.find (branchId 0#64) = none := by
      unfold has at hz
      simpa using hz
    rw [this] at e
    cases e; exact ⟨by decide, rfl⟩

theorem get_fails {w : World} {h h' : Host} {args : Args} {st : Status} (hz : h.has (branchId 0#64) = false)
    (e : get w h args = some (st, h')) : st.ok = false ∧ h' = h := by
  unfold get at e
  split at e
  · cases e; exact ⟨by decide, rfl⟩
  · obtain ⟨rdt, -, e⟩ := Commit.bind_some e
    split at e
    · cases e; exact ⟨by decide, rfl⟩
    · obtain ⟨o, -, e⟩ := Commit.bind_some e
      split at e
      · rename_i hn; cases e; exact ⟨by simpa using hn, rfl⟩
      · split at e
        · cases e
        · split at e
          · cases e; exact ⟨by decide, rfl⟩
          · split at e
            · split at e
              · cases e
              · cases e; exact ⟨by decide, rfl⟩
            · obtain ⟨⟨st1, h1⟩, hr, e⟩ := Commit.map_some e
              obtain ⟨a, hh⟩ := receive_zero hz hr
              simp only at e
              rw [if_pos (by rw [a]; decide)] at e
              cases e
              exact ⟨a, hh⟩

theorem new_fails {w : World} {h h' : Host} {args : Args} {st : Status}
    (e : new w h args = some (st, h')) : st.ok = false ∧ h' = h := by
  unfold new at e
  split at e
  · cases e; exact ⟨by decide, rfl⟩
  · obtain ⟨rdt, -, e⟩ := Commit.bind_some e
    split at e
    · cases e; exact ⟨by decide, rfl⟩
    · split at e
      · cases e; exact ⟨by decide, rfl⟩
      · obtain ⟨n, -, e⟩ := Commit.bind_some e
        split at e
        · rename_i hn; cases e; exact ⟨by simpa using hn, rfl⟩
        · obtain ⟨b, -, e⟩ := Commit.bind_some e
          split at e
          · rename_i hn; cases e; exact ⟨by simpa using hn, rfl⟩
          · split at e
            · cases e; exact ⟨by decide, rfl⟩
            · simp only at e
              split at e
              · cases e
              · unfold saveNew at e
                obtain ⟨r, hr, -⟩ := Commit.map_some e
                unfold saveChain at hr
                rw [if_neg (by unfold ACur.valid; simp)] at hr
                cases hr

/-- A frame is never accepted; the arguments are fine if there is no op in it. -/
theorem write_keeps {w : World} {h h' : Host} {args : Args} {st : Status} (hz : h.has (branchId 0#64) = false)
    (e : write w h args = some (st, h')) : h'.close = h.close ∧
      (st.ok = true → ∃ cur, w.file (args.headD [45]) = some cur ∧ cur.next.1.ok = false) := by
  unfold write at e
  simp only at e
  split at e
  · cases e; exact ⟨rfl, fun h => absurd h (by decide)⟩
  · rename_i cur hc
    split at e
    · rename_i hn
      cases e
      exact ⟨rfl, fun _ => ⟨cur, hc, by simpa using hn⟩⟩
    · obtain ⟨a, rfl⟩ := receive_zero (h := (h.now' (w.wall 0) 0#64).2) hz e
      exact ⟨rfl, fun h => by rw [a] at h; cases h⟩

theorem fork_fails {w : World} {h h' : Host} {args : Args} {st : Status} (ha : h.active = Uuid.NIL)
    (e : fork w h args = some (st, h')) : st = Status.BADARGS ∧ h' = h := by
  unfold fork at e
  rw [if_pos ha] at e
  cases e
  exact ⟨rfl, rfl⟩

theorem name_effect {w : World} {h h' : Host} {args : Args} {st : Status}
    (e : name w h args = some (st, h')) : Effect w h .name st h'.close := by
  unfold name at e
  split at e
  · cases e; exact .same _
  · obtain ⟨rdt, -, e⟩ := Commit.bind_some e
    split at e
    · cases e; exact .same _
    · split at e
      · cases e; exact .same _
      · obtain ⟨n, -, e⟩ := Commit.bind_some e
        split at e
        · cases e; exact .same _
        · split at e
          · cases e; exact .same _
          · obtain ⟨b, -, e⟩ := Commit.bind_some e
            split at e
            · cases e; exact .same _
            · split at e
              · cases e; exact .same _
              · exact putName_effect e _

theorem drop_effect {w : World} {h h' : Host} {args : Args} {st : Status}
    (e : drop w h args = some (st, h')) : Effect w h .drop st h'.close := by
  unfold drop at e
  split at e
  · cases e; exact .same _
  · obtain ⟨b, -, e⟩ := Commit.map_some e
    split at e
    · cases e; exact .same _
    · split at e
      · cases e; exact .same _
      · rename_i hn
        unfold dropStore at e
        split at e
        · cases e; exact .same _
        · cases e
          have : (close { h with stores := h.stores.filter fun s => decide (s.id ≠ b.2.1) }) =
              h.close.filter fun s => decide (s.1 ≠ b.2.1) := by
            unfold close
            rw [List.filter_map]
            rfl
          rw [this]
          exact .drop _ rfl hn

theorem hop_effect {w : World} {h h' : Host} {args : Args} {st : Status}
    (e : hop w h args = some (st, h')) : Effect w h .hop st h'.close := by
  unfold hop at e
  obtain ⟨b, -, e⟩ := Commit.bind_some e
  split at e
  · cases e; exact .same _
  · exact setActive_effect e _

theorem recall_keeps {v : Rdt.View} {w : World} {h h' : Host} {args : Args} {st : Status}
    (e : recall v w h args = some (st, h')) : h' = h := by
  unfold recall at e
  split at e
  · cases e; rfl
  · obtain ⟨rdt, -, e⟩ := Commit.bind_some e
    split at e
    · cases e; rfl
    · obtain ⟨o, -, e⟩ := Commit.bind_some e
      split at e
      · cases e; rfl
      · split at e
        · cases e; rfl
        · split at e
          · cases e; rfl
          · split at e
            · cases e
            · obtain ⟨r, -, e⟩ := Commit.bind_some e
              split at e
              · cases e; rfl
              · obtain ⟨q, -, e⟩ := Commit.map_some e
                cases e; rfl

theorem list_keeps {w : World} {h h' : Host} {args : Args} {st : Status}
    (e : list w h args = some (st, h')) : h' = h := by
  unfold list at e
  split at e
  · cases e; rfl
  · obtain ⟨r, -, e⟩ := Commit.map_some e
    cases e; rfl

theorem named_keeps {w : World} {h h' : Host} {args : Args} {st : Status}
    (e : named w h args = some (st, h')) : h' = h := by
  unfold named at e
  split at e
  · cases e; rfl
  · obtain ⟨b, -, e⟩ := Commit.bind_some e
    split at e
    · cases e; rfl
    · split at e
      · cases e; rfl
      · obtain ⟨r, -, e⟩ := Commit.map_some e
        cases e; rfl

theorem command_effect {v : Rdt.View} {w : World} {h h' : Host} {args : Args} {verb : Verb} {st : Status}
    (ha : h.active = Uuid.NIL) (hz : h.has (branchId 0#64) = false)
    (e : command v w h args verb = some (st, h')) : Effect w h verb st h'.close := by
  have same : h'.close = h.close → Effect w h verb st h'.close := fun x => by rw [x]; exact .same _
  cases verb with
  | create => exact create_effect e
  | fork => exact same (by rw [(fork_fails ha e).2])
  | now => simp only [command] at e; exact same (by cases e; rfl)
  | get => exact same (by rw [(get_fails hz e).2])
  | new => exact same (by rw [(new_fails e).2])
  | list => exact same (by rw [list_keeps e])
  | named => exact same (by rw [named_keeps e])
  | name => exact name_effect e
  | write => exact same (write_keeps hz e).1
  | recall => exact same (by rw [recall_keeps e])
  | hop => exact hop_effect e
  | drop => exact drop_effect e
  | on =>
    refine same ?_
    simp only [command, on] at e
    obtain ⟨r, -, e⟩ := Commit.map_some e
    cases e; rfl

/-! ### What stays -/

/-- What `Open` asks of a database. -/
structure SoundDb (db : Db) : Prop where
  good : ∀ s ∈ db, MemStore.Sorted s.2 ∧ ∃ t, tipOf s.2 = some t ∧ (t.origin = s.1.origin ∨ s.1 = Uuid.NIL)
  main : ∃ s ∈ db, s.1 = Uuid.NIL

theorem soundDb_close {h : Host} (g : Sound h) : SoundDb h.close := by
  refine ⟨fun s hs => ?_, (has_iff _ _).1 g.main⟩
  obtain ⟨x, hx, rfl⟩ := List.mem_map.1 hs
  exact ⟨(g.good x hx).sorted, (g.good x hx).tip⟩

theorem soundDb_open (v : Rdt.View) {db : Db} (g : SoundDb db) :
    ∃ h, opened (Rdt.mergeCursors v) db = some (Status.OK, h) ∧ Sound h := by
  have hc : close ⟨db.map fun s => ⟨s.1, Uuid.NIL, s.2⟩, Uuid.NIL, 0#64⟩ = db := by
    unfold close
    simp only [List.map_map]
    show db.map (fun s => (s.1, s.2)) = db
    simp
  have g' : Sound ⟨db.map fun s => ⟨s.1, Uuid.NIL, s.2⟩, Uuid.NIL, 0#64⟩ := by
    refine ⟨fun s hs => ?_, (has_iff _ _).2 (by rw [hc]; exact g.main)⟩
    obtain ⟨x, hx, rfl⟩ := List.mem_map.1 hs
    exact ⟨(g.good x hx).1, (g.good x hx).2, Or.inl rfl⟩
  have := opened_good v g'
  rw [hc] at this
  exact this

theorem mem_put {db : Db} {id : Uuid} {d : MemStore} {s : Uuid × MemStore} (h : s ∈ put db id d) :
    s = (id, d) ∨ s ∈ db := by
  obtain ⟨x, hx, rfl⟩ := List.mem_map.1 h
  split
  · rename_i e; left; rw [e]
  · right; exact hx

theorem put_ids (db : Db) (id : Uuid) (d : MemStore) : (put db id d).map Prod.fst = db.map Prod.fst := by
  unfold put
  rw [List.map_map]
  refine List.map_congr_left fun s _ => ?_
  simp only [Function.comp]
  split <;> rfl

theorem put_mem {db : Db} {id : Uuid} {d d0 : MemStore} (h : (id, d0) ∈ db) : (id, d) ∈ put db id d :=
  List.mem_map.2 ⟨_, h, if_pos rfl⟩

theorem put_sound {db : Db} (g : SoundDb db) {id : Uuid} {d0 : MemStore} (h : (id, d0) ∈ db) {k : Key} (hk : k ≠ Key.ZERO)
    (f : Frame) : SoundDb (put db id (MemStore.insert k f d0)) := by
  refine ⟨fun s hs => ?_, ?_⟩
  · rcases mem_put hs with rfl | hs
    · obtain ⟨a, t, b, c⟩ := g.good _ h
      exact ⟨MemStore.insert_sorted a _ _, t, by rw [tipOf_insert hk]; exact b, c⟩
    · exact g.good s hs
  · obtain ⟨s, hs, e⟩ := g.main
    refine ⟨_, List.mem_map.2 ⟨s, hs, rfl⟩, ?_⟩
    split <;> exact e

theorem insert_sublist (k : Key) (f : Frame) : ∀ s : MemStore, List.Sublist s (MemStore.insert k f s) := by
  intro s
  induction s with
  | nil => exact List.nil_sublist _
  | cons r s ih =>
    unfold MemStore.insert
    split
    · exact List.sublist_cons_self _ _
    · exact ih.cons_cons r

theorem unique {db : Db} (hn : (db.map Prod.fst).Nodup) {s t : Uuid × MemStore} (hs : s ∈ db) (ht : t ∈ db)
    (e : s.1 = t.1) : s = t := by
  induction db with
  | nil => cases hs
  | cons x l ih =>
    rw [List.map_cons, List.nodup_cons] at hn
    rcases List.mem_cons.1 hs with rfl | hs'
    · rcases List.mem_cons.1 ht with h | h
      · exact h.symm
      · exact absurd (List.mem_map.2 ⟨_, h, e.symm⟩) hn.1
    · rcases List.mem_cons.1 ht with h | h
      · exact absurd (List.mem_map.2 ⟨s, hs', by rw [← h]; exact e⟩) hn.1
      · exact ih hn.2 hs' h

theorem put_grown {db : Db} (hn : (db.map Prod.fst).Nodup) {id : Uuid} {d0 d : MemStore} (h : (id, d0) ∈ db)
    (hd : List.Sublist d0 d) : Grown db (put db id d) := by
  intro s hs
  by_cases e : s.1 = id
  · refine ⟨d, by rw [e]; exact put_mem h, ?_⟩
    rw [unique hn hs h e]
    exact hd
  · exact ⟨s.2, List.mem_map.2 ⟨s, hs, if_neg e⟩, List.Sublist.refl _⟩

theorem _root_.Ron.Spec.Grown.trans {a b c : Db} (h : Grown a b) (g : Grown b c) : Grown a c := by
  intro s hs
  obtain ⟨d, h1, h2⟩ := h s hs
  obtain ⟨e, g1, g2⟩ := g _ h1
  exact ⟨e, g1, h2.trans g2⟩

theorem _root_.Ron.Spec.Grown.refl (a : Db) : Grown a a := fun s hs => ⟨s.2, hs, List.Sublist.refl _⟩

/-- What holds of a database all the time. -/
structure Inv (db : Db) : Prop where
  sound : SoundDb db
  ids : (db.map Prod.fst).Nodup
  zero : ∀ s ∈ db, s.1 ≠ branchId 0#64

theorem Inv.has {db : Db} (i : Inv db) {h : Host} (hc : h.close = db) : h.has (branchId 0#64) = false := by
  match hb : h.has (branchId 0#64) with
  | false => rfl
  | true =>
    obtain ⟨s, hs, e⟩ := (has_iff _ _).1 hb
    exact absurd e (i.zero s (hc ▸ hs))

theorem key_names : Commit.NAMES ≠ Key.ZERO := by decide
theorem key_active : ACTIVE ≠ Key.ZERO := by decide

theorem Inv.put {db : Db} (i : Inv db) {id : Uuid} {d0 : MemStore} (h : (id, d0) ∈ db) {k : Key} (hk : k ≠ Key.ZERO)
    (f : Frame) : Inv (put db id (MemStore.insert k f d0)) := by
  refine ⟨put_sound i.sound h hk f, by rw [put_ids]; exact i.ids, fun s hs => ?_⟩
  rcases mem_put hs with rfl | hs
  · exact i.zero (id, d0) h
  · exact i.zero s hs

theorem branchId_zero {y : Word} (h : y.payload ≠ 0) : branchId y ≠ branchId 0#64 := by
  intro e
  have := congrArg (fun u : Uuid => u.origin.payload) e
  simp only [branchId, Uuid.time_payload] at this
  exact h (this.trans (by decide))

/-- The stages of a command that creates a branch. -/
theorem create_inv {v : Rdt.View} {hs : Hashing} {w : World} {db : Db} {h h1 : Host} (i : Inv db) (hw : Fair v hs w)
    (hl : Lucky w) (ht : InTime db w) {st0 : Status} (ho : opened w.mg db = some (st0, h))
    (hr : h.createBranch w.mg w.hs (w.wall 0) w.random false = some (Status.OK, h1)) :
    Inv h1.close ∧ Grown db h1.close := by
  have hc : h.close = db := opened_close ho
  obtain ⟨-, ⟨hbad, -⟩ | ⟨-, hno, -, d, hd⟩⟩ := createBranch_cases hr
  · exact absurd hbad (by decide)
  have hg : Sound h := by
    obtain ⟨h', e, g⟩ := soundDb_open v i.sound
    rw [hw.mg, e] at ho
    cases ho
    exact g
  refine ⟨⟨?_, ?_, ?_⟩, ?_⟩
  · refine soundDb_close (createBranch_good v w.hs hg (tr := false) (st := Status.OK) (wall := w.wall 0)
      (yarn := w.random) (Or.inr ⟨Or.inr (opened_active ho), ht _ _ ho⟩) ?_)
    rw [← hw.mg]
    exact hr
  · rw [hd, hc, List.map_append, List.nodup_append]
    refine ⟨i.ids, by simp, ?_⟩
    intro a ha b hb e
    simp only [List.map_cons, List.map_nil, List.mem_singleton] at hb
    obtain ⟨s, hs, rfl⟩ := List.mem_map.1 ha
    have : h.has (branchId w.random) = true := (has_iff _ _).2 ⟨s, by rw [hc]; exact hs, e.trans hb⟩
    rw [hno] at this
    cases this
  · rw [hd, hc]
    intro s hs
    rcases List.mem_append.1 hs with hs | hs
    · exact i.zero s hs
    · rw [List.mem_singleton.1 hs]
      exact branchId_zero hl
  · rw [hd, hc]
    exact fun s hs => ⟨s.2, List.mem_append_left _ hs, List.Sublist.refl _⟩

theorem effect_inv {v : Rdt.View} {hs : Hashing} {w : World} {db db' : Db} {h : Host} {verb : Verb} {st st0 : Status}
    (i : Inv db) (hw : Fair v hs w) (hl : Lucky w) (ht : InTime db w) (ho : opened w.mg db = some (st0, h))
    (e : Effect w h verb st db') :
    Inv db' ∧ (verb ≠ .drop → Grown db db') ∧ (st.ok = false → db' = db) := by
  have hc : h.close = db := opened_close ho
  cases e with
  | same => rw [hc]; exact ⟨i, fun _ => Grown.refl _, fun _ => rfl⟩
  | drop id hv hn =>
    rw [hc]
    refine ⟨⟨⟨fun s hs => i.sound.good s (List.mem_filter.1 hs).1, ?_⟩, ?_, fun s hs => i.zero s (List.mem_filter.1 hs).1⟩,
      fun x => absurd hv x, fun x => absurd x (by decide)⟩
    · obtain ⟨s, hs, e⟩ := i.sound.main
      exact ⟨s, List.mem_filter.2 ⟨hs, by rw [e]; simpa using fun x => hn x.symm⟩, e⟩
    · exact i.ids.sublist (List.Sublist.map _ List.filter_sublist)
  | put k f hok hf hk =>
    have hm := find_close hf
    rw [hc] at hm ⊢
    have hk' : k ≠ Key.ZERO := by
      rcases hk with rfl | ⟨rfl, -⟩
      · exact key_names
      · exact key_active
    exact ⟨i.put hm hk' f, fun _ => put_grown i.ids hm (insert_sublist _ _ _), fun x => by rw [hok] at x; cases x⟩
  | @create _ h1 m f g hv hok hr hm =>
    obtain ⟨i1, g1⟩ := create_inv i hw hl ht ho hr
    have hm1 := find_close hm
    have i2 := i1.put hm1 key_active f
    have g2 := put_grown i1.ids hm1 (insert_sublist ACTIVE f m.data)
    refine ⟨?_, fun _ => g1.trans ?_, fun x => by rw [hok] at x; cases x⟩
    · cases g with
      | none => exact i2
      | some g =>
        have i3 := i2.put (put_mem hm1) key_names g
        rw [put_put] at i3
        exact i3
    · cases g with
      | none => exact g2
      | some g => exact put_grown i1.ids hm1 ((insert_sublist ACTIVE f m.data).trans (insert_sublist _ _ _))

theorem run_cases {v : Rdt.View} {w : World} {db db' : Db} {args : Args} {st : Status}
    (hz : ∀ s ∈ db, s.1 ≠ branchId 0#64) (e : run v w db args = some (st, db')) :
    db' = db ∨ ∃ st0 h h' a rest verb, args = a :: rest ∧ verbs.lookup a = some verb ∧
      opened w.mg db = some (st0, h) ∧ st0.ok = true ∧ command v w h rest verb = some (st, h') ∧ db' = h'.close ∧
      Effect w h verb st db' := by
  unfold run at e
  split at e
  · cases e; exact Or.inl rfl
  · rename_i a rest
    obtain ⟨⟨st0, h⟩, ho, e⟩ := Commit.bind_some e
    split at e
    · cases e; exact Or.inl rfl
    · rename_i hok
      split at e
      · cases e; exact Or.inl rfl
      · rename_i verb hv
        obtain ⟨⟨st1, h'⟩, hcm, e⟩ := Commit.map_some e
        cases e
        refine Or.inr ⟨st0, h, h', a, rest, verb, rfl, hv, ho, Decidable.not_not.1 hok, hcm, rfl, ?_⟩
        refine command_effect (opened_active ho) ?_ hcm
        match hb : h.has (branchId 0#64) with
        | false => rfl
        | true =>
          obtain ⟨s, hs, e⟩ := (has_iff _ _).1 hb
          rw [opened_close ho] at hs
          exact absurd e (hz s hs)

/-! ### Initialization -/

theorem writeAll_sublist : ∀ (rs : List (Key × Frame)) (s : MemStore), List.Sublist s (Engine.writeAll s rs) := by
  intro rs
  induction rs with
  | nil => intro s; exact List.Sublist.refl _
  | cons r rs ih => intro s; exact (insert_sublist r.1 r.2 s).trans (ih _)

theorem save_sublist (c : Commit) : List.Sublist c.main c.save.2.main := by
  unfold Commit.save
  split
  · exact List.Sublist.refl _
  · split
    · exact List.Sublist.refl _
    · split
      · exact List.Sublist.refl _
      · simp only
        split
        · exact List.Sublist.refl _
        · exact writeAll_sublist _ _

theorem yarn_inv {w : World} {db : Db} {o : Status × Host} {s : OpenStore}
    {r : Status × MemStore × Word} (i : Inv db) (ho : opened w.mg db = some o)
    (hf : o.2.find o.2.active = some s)
    (hr : beginYarn (o.2.env w.mg w.hs (w.wall 0)) s.data s.tip o.2.now (Uuid.time (w.wall 0) 0#64) = some r) :
    Inv (o.2.setData s.id r.2.1).close ∧ Grown db (o.2.setData s.id r.2.1).close := by
  have hc : o.2.close = db := opened_close (st := o.1) ho
  have ha : o.2.active = Uuid.NIL := opened_active (st := o.1) ho
  have hid : s.id = Uuid.NIL := (find_some hf).2.trans ha
  have hm : (Uuid.NIL, s.data) ∈ db := by
    have := find_close hf
    rw [hc, ha] at this
    exact this
  rw [close_setData, hc, hid]
  obtain ⟨a, t, b, -⟩ := i.sound.good _ hm
  obtain ⟨c, t', d⟩ := beginYarn_good a b (st := r.1) (d := r.2.1) (now' := r.2.2) hr
  have hsub : List.Sublist s.data r.2.1 := by
    unfold beginYarn at hr
    obtain ⟨q, hq, e⟩ := Commit.map_some hr
    have k := (Commit.saveChain_step (st := q.1) (c' := q.2.1) (cur' := q.2.2) hq).keeps
    rw [← e]
    have := save_sublist q.2.1
    rw [show q.2.1.main = s.data from k.main] at this
    exact this
  refine ⟨⟨⟨fun x hx => ?_, ?_⟩, ?_, fun x hx => ?_⟩, put_grown i.ids hm hsub⟩
  · rcases mem_put hx with rfl | hx
    · exact ⟨c, t', d, Or.inr rfl⟩
    · exact i.sound.good x hx
  · exact ⟨_, put_mem hm, rfl⟩
  · have := put_ids db Uuid.NIL r.2.1
    unfold put at this
    rw [this]
    exact i.ids
  · rcases mem_put hx with rfl | hx
    · exact i.zero (Uuid.NIL, s.data) hm
    · exact i.zero x hx

theorem nil_ne_zero : Uuid.NIL ≠ branchId 0#64 := by decide

theorem inv_one {d : MemStore} (hs : MemStore.Sorted d) {t : Uuid} (ht : tipOf d = some t) : Inv [(Uuid.NIL, d)] := by
  refine ⟨⟨fun s hm => ?_, _, List.mem_singleton_self _, rfl⟩, by simp, fun s hm => ?_⟩
  · rw [List.mem_singleton.1 hm]; exact ⟨hs, t, ht, Or.inr rfl⟩
  · rw [List.mem_singleton.1 hm]; exact nil_ne_zero

theorem init_inv {w : World} {db : Db} {st : Status}
    (e : init w none = some (st, db)) : Inv db := by
  unfold init createReplica at e
  obtain ⟨o, ho, e⟩ := Commit.bind_some e
  split at e
  · cases e
  · rename_i s hf
    obtain ⟨r, hr, e⟩ := Commit.map_some e
    cases e
    exact (yarn_inv (inv_one newStore_sorted newStore_tip) ho hf hr).1

theorem again_inv {w : World} {db db' : Db} {st : Status} (i : Inv db)
    (e : init w (some db) = some (st, db')) :
    Inv db' ∧ Grown db db' ∧ (2 ≤ db.length → st = Status.DB_FAIL ∧ db' = db) := by
  unfold init at e
  simp only at e
  split at e
  · rename_i id data
    split at e
    · cases e
    · rename_i hid
      have hid : id = Uuid.NIL := Decidable.not_not.1 hid
      subst hid
      obtain ⟨a, t, b, -⟩ := i.sound.good (Uuid.NIL, data) (List.mem_singleton_self _)
      have hk : ¬ (Key.ZERO = Key.END) := by decide
      simp only [Engine.write, hk, false_and, if_false] at e
      have i1 : Inv [(Uuid.NIL, MemStore.insert Key.ZERO [⟨Uuid.NIL, formUuid Form.ZERO, [], .raw⟩] data)] := by
        refine inv_one (t := Uuid.NIL) (MemStore.insert_sorted a _ _) ?_
        have : Engine.operands (MemStore.insert Key.ZERO [⟨Uuid.NIL, formUuid Form.ZERO, [], .raw⟩] data) Key.ZERO =
            Engine.operands data Key.ZERO ++ [[⟨Uuid.NIL, formUuid Form.ZERO, [], .raw⟩]] := by
          have := MemStore.insert_recs a Key.ZERO Key.ZERO [(⟨Uuid.NIL, formUuid Form.ZERO, [], .raw⟩ : AOp)]
          rw [if_pos rfl] at this
          exact this
        exact tipOf_concat this
      obtain ⟨o, ho, e⟩ := Commit.bind_some e
      split at e
      · cases e
      · rename_i s hf
        obtain ⟨r, hr, e⟩ := Commit.map_some e
        cases e
        obtain ⟨j, g⟩ := yarn_inv i1 ho hf hr
        refine ⟨j, Grown.trans ?_ g, fun x => absurd x (by simp)⟩
        intro x hx
        rw [List.mem_singleton.1 hx]
        exact ⟨_, List.mem_singleton_self _, insert_sublist _ _ _⟩
  · cases e
    exact ⟨i, Grown.refl _, fun _ => ⟨rfl, rfl⟩⟩

theorem _root_.Ron.Spec.Used.inv {v : Rdt.View} {hs : Hashing} {db : Db} (u : Used v hs db) : Inv db := by
  induction u with
  | init _ e => exact init_inv e
  | again _ _ e ih => exact (again_inv ih e).1
  | run _ hw hl ht e ih =>
    rcases run_cases ih.zero e with rfl | ⟨st0, h, h', a, rest, verb, -, -, ho, -, -, -, x⟩
    · exact ih
    · exact (effect_inv ih hw hl ht ho x).1

/-! ### Names of branches -/

theorem case_nil : Uuid.NIL.value.base64Case ≠ CAMEL := by decide

/-- A branch is created under a name. -/
theorem create_named {w : World} {h h' : Host} {n : List Byte} {N : Uuid} {st : Status} (hp : UuidParser.parse n = some N)
    (e : create w h [AS, n] = some (st, h')) (hok : st.ok = true) :
    N.value.base64Case = CAMEL ∧ ∃ h1 m f o, h.createBranch w.mg w.hs (w.wall 0) w.random false = some (Status.OK, h1) ∧
      h1.find Uuid.NIL = some m ∧ o.vals = [.uuid N, .uuid (branchId w.random)] ∧
      h'.close = put h1.close Uuid.NIL (MemStore.insert Commit.NAMES [o] (MemStore.insert ACTIVE f m.data)) := by
  unfold create at e
  obtain ⟨t, ht, e⟩ := Commit.bind_some e
  unfold scanTag at ht
  simp only at ht
  rw [if_neg (by simp)] at ht
  simp only [hp, Option.map_some] at ht
  split at e
  · rename_i hn
    cases e
    exact absurd hok hn
  rename_i htok
  have ht := Option.some.inj ht
  split at ht
  · rw [← ht] at htok; exact absurd (show Status.BADARGS.ok = true from Decidable.not_not.1 htok) (by decide)
  split at ht
  · rw [← ht] at htok; exact absurd (show Status.BADARGS.ok = true from Decidable.not_not.1 htok) (by decide)
  rename_i hcase
  have hcase : N.value.base64Case = CAMEL := Decidable.not_not.1 hcase
  refine ⟨hcase, ?_⟩
  rw [if_neg (by simp)] at ht
  have hN : N ≠ Uuid.NIL := by
    intro x
    rw [x] at hcase
    exact case_nil hcase
  rw [← ht] at e
  obtain ⟨⟨st1, h1⟩, hr, e⟩ := Commit.bind_some e
  obtain ⟨-, ⟨rfl, hc, -⟩ | ⟨rfl, hno, hnil, d, hc⟩⟩ := createBranch_cases hr
  · simp only at e
    rw [if_pos (by decide)] at e
    cases e
    exact absurd hok (by decide)
  · simp only at e
    rw [if_neg (by decide)] at e
    unfold settle at e
    obtain ⟨⟨st2, h2⟩, hq, e⟩ := Commit.bind_some e
    have hb : h1.has (branchId w.random) = true := (has_iff _ _).2 ⟨(branchId w.random, d), by rw [hc]; simp, rfl⟩
    rcases setActive_cases hq with ⟨-, -, hx⟩ | ⟨rfl, -, -, m, f, hm, -, hst⟩
    · rw [hb] at hx; cases hx
    · simp only at e
      rw [if_neg (by decide), if_neg hN] at e
      obtain ⟨⟨st3, h3⟩, hp, e⟩ := Commit.map_some e
      unfold putName at hp
      split at hp
      · have h2f : h2.find Uuid.NIL = some { m with data := MemStore.insert ACTIVE f m.data } := by
          have := find_setData_same hm (MemStore.insert ACTIVE f m.data)
          unfold Host.find at this ⊢
          rw [hst]
          exact this
        have hp := Option.some.inj hp
        unfold writeName at hp
        rw [h2f] at hp
        simp only at hp
        rw [(putName_eq _ _ _ _).1, (putName_eq _ _ _ _).2] at hp
        cases hp
        simp only at e
        rw [if_neg (not_not_intro (show Status.ok ⟨(Commit.hostNow _ _).1, []⟩ = true from
          Uuid.time_ok (Uuid.time_version _ _)))] at e
        cases e
        refine ⟨h1, m, f, ⟨(Commit.hostNow (env w.mg w.hs (w.wall 2) h2)
          (Commit.start (MemStore.insert ACTIVE f m.data) m.tip h2.now)).1, Uuid.NIL, [.uuid N, .uuid (branchId w.random)], .raw⟩, hr, hm, rfl, ?_⟩
        have hmid : m.id = Uuid.NIL := (find_some hm).2
        refine Eq.trans (close_of_stores (b := h2.setData m.id _) rfl) ?_
        rw [hmid, close_setData, close_of_stores hst, close_setData]
        exact put_put h1.close Uuid.NIL _ _
      · cases hp

theorem insert_name {s : MemStore} (hs : MemStore.Sorted s) (f : Frame) (o : AOp) :
    Spec.namesOf (MemStore.insert Commit.NAMES [o] (MemStore.insert ACTIVE f s)) = Spec.namesOf s ++ [o] := by
  rw [namesOf_insert (MemStore.insert_sorted hs _ _)]
  congr 1
  unfold Spec.namesOf
  congr 1
  exact Commit.operands_insert (by decide) f s

theorem lastNamed_concat (given : List (Uuid × Uuid)) (k v : Uuid) : lastNamed (given ++ [(k, v)]) k = some v := by
  unfold lastNamed
  rw [List.filter_append]
  simp

theorem givenIn_concat (ops : List AOp) {o : AOp} {k v : Uuid} (h : o.vals = [.uuid k, .uuid v]) :
    givenIn (ops ++ [o]) = givenIn ops ++ [(k, v)] := by
  unfold givenIn
  rw [List.filterMap_append]
  simp [h]

/-- The word `drop`. -/
def DROP : List Byte := [100, 114, 111, 112]

/-- A branch is dropped by its name. -/
theorem drop_named {v : Rdt.View} {hs : Hashing} {w : World} {db : Db} {n : List Byte} {N : Uuid} {y : Word}
    {m d : MemStore} (i : Inv db) (hw : Fair v hs w) (hp : UuidParser.parse n = some N) (he : N.isError = false)
    (hv : N.version = Uuid.vNAME) (hc : N.value.base64Case = CAMEL) (hm : (Uuid.NIL, m) ∈ db)
    (hn : IdSorted (Spec.namesOf m)) (hl : lastNamed (givenIn (Spec.namesOf m)) N = some (branchId y))
    (hb : (branchId y, d) ∈ db) :
    run v w db [DROP, n] = some (Status.OK, db.filter fun s => decide (s.1 ≠ branchId y)) := by
  obtain ⟨h, ho, -⟩ := soundDb_open v i.sound
  have hcl : h.close = db := opened_close ho
  have hN : N ≠ Uuid.NIL := by
    intro x
    rw [x] at hc
    exact case_nil hc
  have hnil : h.has Uuid.NIL = true := (has_iff _ _).2 ⟨_, by rw [hcl]; exact hm, rfl⟩
  have hby : h.has (branchId y) = true := (has_iff _ _).2 ⟨_, by rw [hcl]; exact hb, rfl⟩
  have hyo : branchId (branchId y).origin = branchId y := by
    have : ((branchId y).origin).payload = y.payload := Uuid.time_payload _ _
    show Uuid.time NEVER _ = Uuid.time NEVER y
    unfold Uuid.time
    rw [this]
  obtain ⟨s, hf⟩ := find_has hnil
  have hsm : s.data = m := by
    have h1 := find_close hf
    rw [hcl] at h1
    exact congrArg Prod.snd (unique i.ids h1 hm rfl)
  have hnames : Cli.namesOf w h Uuid.NIL = some (Status.OK, lastNamed (givenIn (Spec.namesOf m))) := by
    unfold Cli.namesOf
    rw [if_pos hnil]
    unfold Host.readNames
    rw [hf]
    simp only
    obtain ⟨c, hcm⟩ := readNames_start v (env := h.env w.mg w.hs (w.wall 0)) hw.mg s.tip h.now (s := s.data)
      (by rw [hsm]; exact hn)
    rw [hcm, hsm]
    rfl
  have hres : resolveName w h N CAMEL true = some (Status.OK, branchId y) := by
    unfold resolveName
    rw [if_neg (not_not_intro hv), if_neg hN, if_neg (fun x => x.2 hc), if_pos rfl, hnames, Option.map_some]
    simp only [hl]
    rw [if_neg (by decide)]
  have hscan : scanOn w h Uuid.NIL (ON :: [n]) = some (Status.OK, branchId y, []) := by
    unfold scanOn
    simp only
    rw [if_neg (by simp)]
    simp only [hp, Option.bind_some, he, hres, Option.map_some, Bool.false_eq_true, if_false]
    rw [if_neg (by decide), if_neg (fun x => x.2 (by rw [hyo]; exact hby))]
  have hdrop : drop w h [n] = some (h.dropStore (branchId y)) := by
    unfold drop
    rw [if_neg (by simp), hscan, Option.map_some]
    simp only
    rw [if_neg (by decide), if_neg (show branchId y ≠ Uuid.NIL from Uuid.time_ne_nil _ _)]
  have hlook : verbs.lookup DROP = some .drop := by decide
  unfold run
  simp only [hw.mg, ho, Option.bind_some]
  rw [if_neg (by decide), hlook]
  simp only [command]
  rw [hdrop, Option.map_some]
  unfold dropStore
  rw [if_neg (not_not_intro hby), if_neg (show branchId y ≠ Uuid.NIL from Uuid.time_ne_nil _ _)]
  congr 2
  rw [← hcl]
  unfold close
  rw [List.filter_map]
  rfl

/-! ### For the properties -/

theorem effect_failed {w : World} {db db' : Db} {h : Host} {verb : Verb} {st st0 : Status}
    (ho : opened w.mg db = some (st0, h)) (e : Effect w h verb st db') (hf : st.ok = false) : db' = db := by
  have hc : h.close = db := opened_close ho
  cases e with
  | same => exact hc
  | drop id hv hn => exact absurd hf (by decide)
  | put k f hok hfd hk => rw [hok] at hf; cases hf
  | create f g hv hok hr hm => rw [hok] at hf; cases hf

theorem run_verb {v : Rdt.View} {w : World} {db db' : Db} {a : List Byte} {args : Args} {st : Status}
    (e : run v w db (a :: args) = some (st, db')) :
    (∃ st0 h h' verb, verbs.lookup a = some verb ∧ opened w.mg db = some (st0, h) ∧
      command v w h args verb = some (st, h')) ∨ st.ok = false := by
  unfold run at e
  simp only at e
  obtain ⟨⟨st0, h⟩, ho, e⟩ := Commit.bind_some e
  split at e
  · rename_i hn
    cases e
    exact Or.inr (by simpa using hn)
  · split at e
    · cases e
      exact Or.inr (by decide)
    · rename_i verb hv
      obtain ⟨⟨st1, h'⟩, hcm, e⟩ := Commit.map_some e
      cases e
      exact Or.inl ⟨st0, h, h', verb, hv, ho, hcm⟩

theorem lookup_inj_aux : ∀ (l : List (List Byte × Verb)), (l.map Prod.snd).Nodup → ∀ {a b : List Byte} {x : Verb},
    l.lookup a = some x → l.lookup b = some x → a = b := by
  have mem : ∀ (l : List (List Byte × Verb)) {a : List Byte} {x : Verb}, l.lookup a = some x → (a, x) ∈ l := by
    intro l
    induction l with
    | nil => intro a x h; cases h
    | cons p l ih =>
      intro a x h
      rw [List.lookup_cons] at h
      split at h
      · rename_i hb
        have hb : a = p.1 := by simpa using hb
        cases h
        rw [hb]; exact List.mem_cons_self
      · exact List.mem_cons_of_mem _ (ih h)
  intro l hn a b x ha hb
  have h1 := mem l ha
  have h2 := mem l hb
  clear ha hb
  induction l with
  | nil => cases h1
  | cons p l ih =>
    rw [List.map_cons, List.nodup_cons] at hn
    rcases List.mem_cons.1 h1 with rfl | h1'
    · rcases List.mem_cons.1 h2 with h2 | h2
      · exact (congrArg Prod.fst h2).symm
      · exact absurd (List.mem_map.2 ⟨_, h2, rfl⟩) hn.1
    · rcases List.mem_cons.1 h2 with rfl | h2'
      · exact absurd (List.mem_map.2 ⟨_, h1', rfl⟩) hn.1
      · exact ih hn.2 h1' h2'

theorem lookup_inj {a b : List Byte} {x : Verb} (ha : verbs.lookup a = some x) (hb : verbs.lookup b = some x) : a = b :=
  lookup_inj_aux verbs (by decide) ha hb

theorem drop_cases {v : Rdt.View} {w : World} {h h' : Host} {args : Args} {st : Status}
    (e : command v w h args .drop = some (st, h')) :
    h'.close = h.close ∨ st = Status.OK ∧ ∃ id, id ≠ Uuid.NIL ∧ h'.close = h.close.filter fun s => decide (s.1 ≠ id) := by
  simp only [command] at e
  unfold drop at e
  split at e
  · cases e; exact Or.inl rfl
  · obtain ⟨b, -, e⟩ := Commit.map_some e
    split at e
    · cases e; exact Or.inl rfl
    · split at e
      · cases e; exact Or.inl rfl
      · rename_i hn
        unfold dropStore at e
        split at e
        · cases e; exact Or.inl rfl
        · cases e
          refine Or.inr ⟨rfl, b.2.1, hn, ?_⟩
          unfold close
          rw [List.filter_map]
          rfl

theorem create_names {v : Rdt.View} {hs : Hashing} {w : World} {db db' : Db} {n : List Byte} {N : Uuid} {st : Status}
    (i : Inv db) (hw : Fair v hs w) (hl : Lucky w) (ht : InTime db w) (hp : UuidParser.parse n = some N)
    (hok : st.ok = true) (e : run v w db [[99, 114, 101, 97, 116, 101], AS, n] = some (st, db')) :
    N.value.base64Case = CAMEL ∧ ∃ m d, (Uuid.NIL, m) ∈ db' ∧ (branchId w.random, d) ∈ db' ∧
      lastNamed (givenIn (Spec.namesOf m)) N = some (branchId w.random) := by
  unfold run at e
  simp only at e
  obtain ⟨⟨st0, h⟩, ho, e⟩ := Commit.bind_some e
  split at e
  · rename_i hn
    cases e
    exact absurd hok hn
  rw [show verbs.lookup [99, 114, 101, 97, 116, 101] = some .create by decide] at e
  simp only [command] at e
  obtain ⟨⟨st1, h'⟩, hcm, e⟩ := Commit.map_some e
  cases e
  obtain ⟨hc, h1, m, f, o, hr, hm, hv, hcl⟩ := create_named hp hcm hok
  obtain ⟨i1, -⟩ := create_inv i hw hl ht ho hr
  have hm1 := find_close hm
  obtain ⟨-, ⟨hbad, -⟩ | ⟨-, hno, -, d, hd⟩⟩ := createBranch_cases hr
  · exact absurd hbad (by decide)
  refine ⟨hc, _, d, by rw [hcl]; exact put_mem hm1, ?_, ?_⟩
  · rw [hcl]
    refine List.mem_map.2 ⟨(branchId w.random, d), by rw [hd]; simp, if_neg (Uuid.time_ne_nil _ _)⟩
  · rw [insert_name (i1.sound.good _ hm1).1, givenIn_concat _ hv]
    exact lastNamed_concat _ _ _

end Cli
end Ron
