import Verif.Lemmas.Cli
import Verif.Spec.CliNames
/-!
Names given from the command line.
-/
namespace Ron
open Spec
namespace Cli
open Host

theorem branchId_again (y : Word) : branchId (branchId y).origin = branchId y := by
  have : ((branchId y).origin).payload = y.payload := Uuid.time_payload _ _
  show Uuid.time NEVER _ = Uuid.time NEVER y
  unfold Uuid.time
  rw [this]

theorem event_good {u : Uuid} (h : u.version = Uuid.vTIME) : u.isError = false := by
  match hh : u.isError with
  | false => rfl
  | true =>
    exfalso
    have : u.origin = Word.MAX_VALUE := by simpa [Uuid.isError] using hh
    revert h
    unfold Uuid.version
    rw [this]
    decide

/-- The data of a store of a replica that was opened. -/
theorem opened_find {db : Db} {h : Host} (i : Inv db) (hcl : h.close = db) {id : Uuid} {m : MemStore} (hm : (id, m) ∈ db) :
    h.has id = true ∧ ∃ s, h.find id = some s ∧ s.data = m := by
  have hh : h.has id = true := (has_iff _ _).2 ⟨_, by rw [hcl]; exact hm, rfl⟩
  obtain ⟨s, hf⟩ := find_has hh
  refine ⟨hh, s, hf, ?_⟩
  have h1 := find_close hf
  rw [hcl] at h1
  exact congrArg Prod.snd (unique i.ids h1 hm rfl)

theorem namesOf_opened {v : Rdt.View} {hs : Hashing} {w : World} {db : Db} {h : Host} {m : MemStore} {id : Uuid} (i : Inv db)
    (hw : Fair v hs w) (hcl : h.close = db) (hm : (id, m) ∈ db) (hn : IdSorted (Spec.namesOf m)) :
    Cli.namesOf w h id = some (Status.OK, lastNamed (givenIn (Spec.namesOf m))) := by
  obtain ⟨hh, s, hf, hsm⟩ := opened_find i hcl hm
  unfold Cli.namesOf
  rw [if_pos hh]
  unfold Host.readNames
  rw [hf]
  simp only
  obtain ⟨c, hcm⟩ := readNames_start v (env := h.env w.mg w.hs (w.wall 0)) hw.mg s.tip h.now (s := s.data)
    (by rw [hsm]; exact hn)
  rw [hcm, hsm]
  rfl

theorem resolve_event (w : World) (h : Host) {u : Uuid} (hv : u.version = Uuid.vTIME) (need : Nat) (g : Bool) :
    resolveName w h u need g = some (Status.OK, u) := by
  unfold resolveName
  rw [if_pos (by rw [hv]; decide)]

theorem scanOn_found {w : World} {h : Host} {b : List Byte} {u r : Uuid} (hp : UuidParser.parse b = some u)
    (he : u.isError = false) (hr : resolveName w h u CAMEL true = some (Status.OK, r))
    (hb : h.has (branchId r.origin) = true) : scanOn w h Uuid.NIL [[111, 110], b] = some (Status.OK, r, []) := by
  unfold scanOn
  simp only
  rw [if_neg (by simp [ON])]
  simp only [hp, Option.bind_some, he, hr, Option.map_some, Bool.false_eq_true, if_false]
  rw [if_neg (by decide), if_neg (fun x => x.2 hb)]

theorem resolve_name {w : World} {h : Host} {B id : Uuid} {names : Names} (hv : B.version = Uuid.vNAME)
    (hc : B.value.base64Case = CAMEL) (hn : Cli.namesOf w h Uuid.NIL = some (Status.OK, names)) (hl : names B = some id) :
    resolveName w h B CAMEL true = some (Status.OK, id) := by
  have hN : B ≠ Uuid.NIL := by
    intro x
    rw [x] at hc
    exact case_nil hc
  unfold resolveName
  rw [if_neg (not_not_intro hv), if_neg hN, if_neg (fun x => x.2 hc), if_pos rfl, hn, Option.map_some]
  simp only [hl]
  rw [if_neg (by decide)]

/-- The branch that is told. -/
theorem scanOn_arg {v : Rdt.View} {hs : Hashing} {w : World} {db : Db} {h : Host} {args : Args} {store : Uuid} (i : Inv db)
    (hw : Fair v hs w) (hcl : h.close = db) (ha : h.active = Uuid.NIL) (b : BranchArg db args store) :
    scanOn w h Uuid.NIL args = some (Status.OK, store, []) ∧ ∃ d, (store, d) ∈ db := by
  cases b with
  | none =>
    refine ⟨by simp only [scanOn, ha], ?_⟩
    obtain ⟨⟨_, d⟩, hd, rfl⟩ := i.sound.main
    exact ⟨d, hd⟩
  | @id b y d hp hb =>
    have hby := (opened_find i hcl hb).1
    have hv : (branchId y).version = Uuid.vTIME := Uuid.time_version _ _
    have hy := branchId_again y
    generalize branchId y = u at *
    exact ⟨scanOn_found hp (event_good hv) (resolve_event w h hv _ _) (by rw [hy]; exact hby), d, hb⟩
  | @name b B y m d hp he hv hc hm hn hl hb =>
    have hby := (opened_find i hcl hb).1
    have hy := branchId_again y
    generalize branchId y = u at *
    exact ⟨scanOn_found hp he (resolve_name hv hc (namesOf_opened i hw hcl hm hn) hl) (by rw [hy]; exact hby), d, hb⟩

theorem named_put {db : Db} (i : Inv db) {store name value : Uuid} {d : MemStore} (hd : (store, d) ∈ db) {o : AOp}
    (ho : o.vals = [.uuid name, .uuid value]) :
    NamedIn db (put db store (MemStore.insert Commit.NAMES [o] d)) store name value := by
  refine ⟨put_ids _ _ _, fun s hs hne => List.mem_map.2 ⟨s, hs, if_neg hne⟩, fun m hm => ?_⟩
  have : m = d := congrArg Prod.snd (unique i.ids hm hd rfl)
  subst this
  exact ⟨_, o, put_mem hd, namesOf_insert (i.sound.good _ hd).1 o, ho, fun k hk => Commit.operands_insert (Ne.symm hk) _ _⟩

theorem name_given {v : Rdt.View} {hs : Hashing} {w : World} {db : Db} {a n : List Byte} {id N store : Uuid} {rest : Args}
    (i : Inv db) (hw : Fair v hs w) (ha : UuidParser.parse a = some id) (hn : UuidParser.parse n = some N)
    (g : Nameable id N) (b : BranchArg db rest store) :
    ∃ st db', run v w db ([110, 97, 109, 101] :: a :: AS :: n :: rest) = some (st, db') ∧ st.ok = true ∧
      NamedIn db db' store N id := by
  obtain ⟨h, ho, -⟩ := soundDb_open v i.sound
  have hcl : h.close = db := opened_close ho
  obtain ⟨hscan, d, hd⟩ := scanOn_arg i hw hcl (opened_active ho) b
  obtain ⟨hh, s, hf, hsd⟩ := opened_find i hcl hd
  have hname : Cli.name w h (a :: AS :: n :: rest) = putName w 1 h store N id := by
    have k : ¬ ¬ Status.OK.ok = true := by decide
    unfold Cli.name
    simp only [ha, Option.bind_some, event_good g.event, Bool.false_eq_true, if_false, g.event, ne_eq, not_true_eq_false,
      scanAs, hn, Option.map_some, g.good, g.kind, NUMERIC, false_and, k, g.nonzero, hscan]
  have hput : putName w 1 h store N id = some (h.writeName w.mg w.hs (w.wall 1) store N id) := by
    unfold putName
    rw [if_pos hh]
  have hrun : run v w db ([110, 97, 109, 101] :: a :: AS :: n :: rest) =
      some ((h.writeName w.mg w.hs (w.wall 1) store N id).1, (h.writeName w.mg w.hs (w.wall 1) store N id).2.close) := by
    unfold run
    simp only [hw.mg, ho, Option.bind_some]
    rw [if_neg (by decide), show verbs.lookup [110, 97, 109, 101] = some .name by decide]
    simp only [command]
    rw [hname, hput]
    simp [hw.mg]
  refine ⟨_, _, hrun, (writeName_cases _ _ _ hf _ _).1, ?_⟩
  have hst : ∃ o : AOp, o.vals = [.uuid N, .uuid id] ∧ (h.writeName w.mg w.hs (w.wall 1) store N id).2.stores =
      (h.setData store (MemStore.insert Commit.NAMES [o] s.data)).stores := by
    unfold writeName
    rw [hf]
    simp only
    rw [(putName_eq _ _ N id).2, (find_some hf).2]
    exact ⟨_, rfl, rfl⟩
  obtain ⟨o, hv, hst⟩ := hst
  rw [close_of_stores hst, close_setData, hcl, hsd]
  exact named_put i hd hv

theorem name_refused {v : Rdt.View} {hs : Hashing} {w : World} {db : Db} {a n : List Byte} {id N : Uuid} {rest : Args}
    (i : Inv db) (hw : Fair v hs w) (ha : UuidParser.parse a = some id) (hn : UuidParser.parse n = some N)
    (g : ¬ Nameable id N) :
    run v w db ([110, 97, 109, 101] :: a :: AS :: n :: rest) = some (Status.BADARGS, db) := by
  obtain ⟨h, ho, -⟩ := soundDb_open v i.sound
  have hcl : h.close = db := opened_close ho
  have k1 : ¬ ¬ Status.OK.ok = true := by decide
  have k2 : ¬ Status.BADARGS.ok = true := by decide
  have hname : Cli.name w h (a :: AS :: n :: rest) = some (Status.BADARGS, h) := by
    unfold Cli.name
    simp only [ha, Option.bind_some]
    split
    · rfl
    split
    · rfl
    rename_i hv
    simp only [scanAs, ne_eq, not_true_eq_false, if_false, hn, Option.map_some, Option.bind_some]
    by_cases h1 : N.isError = true
    · simp only [h1, if_true, k2, not_false_eq_true, Bool.false_eq_true]
    by_cases h2 : N.version = Uuid.vNAME
    · by_cases h3 : N.zero = true
      · simp only [h1, h2, NUMERIC, h3, not_true_eq_false, false_and, if_false, k1, if_true, Bool.false_eq_true]
      · exact absurd ⟨Decidable.not_not.1 hv, by simpa using h1, h2, by simpa using h3⟩ g
    · simp only [h1, h2, not_false_eq_true, if_true, k2, if_false, Bool.false_eq_true]
  unfold run
  simp only [hw.mg, ho, Option.bind_some]
  rw [if_neg (by decide), show verbs.lookup [110, 97, 109, 101] = some .name by decide]
  simp only [command]
  rw [hname, Option.map_some, hcl]

/-- What a name stands for. -/
theorem scanOf_named {v : Rdt.View} {hs : Hashing} {w : World} {db : Db} {h : Host} {n : List Byte} {N id : Uuid}
    {m : MemStore} {st : Status} (i : Inv db) (hw : Fair v hs w) (ho : opened w.mg db = some (st, h))
    (hp : UuidParser.parse n = some N) (he : N.isError = false) (hv : N.version = Uuid.vNAME) (hc : N.value.base64Case = SNAKE)
    (hm : (Uuid.NIL, m) ∈ db) (hn : IdSorted (Spec.namesOf m)) (hl : lastNamed (givenIn (Spec.namesOf m)) N = some id)
    (rest : Args) : scanOf w h (OF :: n :: rest) = some (Status.OK, id, rest) := by
  have hcl : h.close = db := opened_close ho
  have hN : N ≠ Uuid.NIL := by
    intro x
    rw [x] at hc
    exact absurd hc (by decide)
  have hres : resolveName w h N SNAKE false = some (Status.OK, id) := by
    unfold resolveName
    rw [if_neg (not_not_intro hv), if_neg hN, if_neg (fun x => x.2 hc), if_neg (by decide), opened_active ho,
      namesOf_opened i hw hcl hm hn, Option.map_some]
    simp only [hl]
    rw [if_neg (by decide)]
  unfold scanOf
  simp only
  rw [if_neg (by simp)]
  simp only [hp, Option.bind_some, he, hres, Option.map_some, Bool.false_eq_true, if_false]

theorem scanOf_event {w : World} {h : Host} {a : List Byte} {id : Uuid} (hp : UuidParser.parse a = some id)
    (hv : id.version = Uuid.vTIME) (rest : Args) : scanOf w h (OF :: a :: rest) = some (Status.OK, id, rest) := by
  unfold scanOf
  simp only
  rw [if_neg (by simp)]
  simp only [hp, Option.bind_some, event_good hv, resolve_event w h hv, Option.map_some, Bool.false_eq_true, if_false]

end Cli
end Ron
