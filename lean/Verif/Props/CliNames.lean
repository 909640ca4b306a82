import Verif.Lemmas.CliNames
import Verif.Props.Cli
/-!
Properties of names and of the active branch on the command line: C93, C94.
-/
namespace Ron.Props
open Ron Spec Host Cli

/-! ## C93 — an object is found by its name -/

/-- After a name was given, it can be used in place of the id, by the next command. -/
def C93_claim : Prop := ∀ (v : Rdt.View) (hs : Hashing) (w w' : World) (db db' : Db) (a n : List Byte) (st st' : Status)
  (h : Host) (rest : Args), Used v hs db → Fair v hs w → Lucky w → InTime db w → Fair v hs w' →
  run v w db [cName, a, AS, n] = some (st, db') → st.ok = true → opened w'.mg db' = some (st', h) →
  scanOf w' h (OF :: n :: rest) = scanOf w' h (OF :: a :: rest)

/-- The same for names in lower case. -/
def C93_later_claim : Prop := ∀ (v : Rdt.View) (hs : Hashing) (w w' : World) (db db' : Db) (a n : List Byte) (N : Uuid)
  (st st' : Status) (h : Host) (rest : Args), Used v hs db → Fair v hs w → Lucky w → InTime db w → Fair v hs w' →
  UuidParser.parse n = some N → N.value.base64Case = SNAKE →
  run v w db [cName, a, AS, n] = some (st, db') → st.ok = true → opened w'.mg db' = some (st', h) →
  scanOf w' h (OF :: n :: rest) = scanOf w' h (OF :: a :: rest)

/-- An event `2222+someid`, and a name given to two events, while the clock is set back in between. -/
def nLater : List Byte := [50, 50, 50, 50, 43, 115, 111, 109, 101, 105, 100]
def db93 : Db := cmd db0 2000 9 [cName, nSome, AS, nThing]
theorem used93 : Used tView tHash db93 := used_cmd used0 (show _ ≠ _ by decide) (by decide +kernel) (by decide +kernel)

/-- What is found under a name after it was given, in place of what. -/
def found93 (db : Db) (t : Nat) (a n : List Byte) : Bool :=
  (run tView (wAt t 9) db [cName, a, AS, n]).any fun r => r.1.ok && (opened mg6 r.2).any fun o =>
    decide (scanOf (wAt 2001 7) o.2 [OF, n] ≠ scanOf (wAt 2001 7) o.2 [OF, a])

theorem not_found93 {db : Db} {t : Nat} {a n : List Byte} (k : found93 db t a n = true) :
    ∃ st db' st' h, run tView (wAt t 9) db [cName, a, AS, n] = some (st, db') ∧ st.ok = true ∧
      opened (wAt 2001 7).mg db' = some (st', h) ∧
      scanOf (wAt 2001 7) h [OF, n] ≠ scanOf (wAt 2001 7) h [OF, a] := by
  unfold found93 at k
  match hq : run tView (wAt t 9) db [cName, a, AS, n] with
  | none => rw [hq] at k; cases k
  | some (st, db') =>
    rw [hq] at k
    simp only [Option.any_some, Bool.and_eq_true] at k
    match ho : opened mg6 db' with
    | none => rw [ho] at k; cases k.2
    | some (st', h) =>
      rw [ho] at k
      simp only [Option.any_some, decide_eq_true_eq] at k
      exact ⟨st, db', st', h, rfl, k.1, ho, k.2⟩

theorem inTime93 {db : Db} {t : Nat} (ht : ((opened mg6 db).all fun o =>
    decide ((clockNow o.2.now (BitVec.ofNat 64 t) (BitVec.ofNat 64 9)).1.toNat < NEVER.toNat)) = true) :
    InTime db (wAt t 9) := by
  intro st h ho
  rw [show opened mg6 db = some (st, h) from ho] at ht
  exact of_decide_eq_true ht

/-- A name that begins with a capital letter is accepted, but refused where an object is asked for. -/
theorem C93_violated : ¬ C93_claim := by
  intro hc
  obtain ⟨st, db', st', h, e, hok, ho, hne⟩ := not_found93 (show found93 db0 2000 nSome nExp = true by decide +kernel)
  exact hne (hc tView tHash (wAt 2000 9) (wAt 2001 7) db0 db' nSome nExp st st' h [] used0 (fairAt _ _)
    (show _ ≠ _ by decide) (inTime93 (by decide +kernel)) (fairAt _ _) e hok ho)

/-- The clock was set back: the name stands for what it was given to before. -/
theorem C93_later_violated : ¬ C93_later_claim := by
  intro hc
  obtain ⟨st, db', st', h, e, hok, ho, hne⟩ := not_found93 (show found93 db93 1999 nLater nThing = true by decide +kernel)
  have hp : (UuidParser.parse nThing).any (fun N => decide (N.value.base64Case = SNAKE)) = true := by decide +kernel
  match hq : UuidParser.parse nThing with
  | none => rw [hq] at hp; cases hp
  | some N =>
    rw [hq] at hp
    exact hne (hc tView tHash (wAt 1999 9) (wAt 2001 7) db93 db' nLater nThing N st st' h [] used93 (fairAt _ _)
      (show _ ≠ _ by decide) (inTime93 (by decide +kernel)) (fairAt _ _) hq (of_decide_eq_true hp) e hok ho)

/-- An event of a branch given in place of the branch: the command stops the program. -/
def C93_branch_claim : Prop := ∀ (v : Rdt.View) (hs : Hashing) (w : World) (db : Db) (args : Args),
  Used v hs db → Fair v hs w → (run v w db (cName :: args)).isSome = true

/-- The event `1234+0000000007`, of the yarn of the branch. -/
def nOf7 : List Byte := [49, 50, 51, 52, 43, 48, 48, 48, 48, 48, 48, 48, 48, 48, 55]

theorem C93_branch_violated : ¬ C93_branch_claim := by
  intro hc
  have := hc tView tHash (wAt 2001 9) db1 [nSome, AS, nThing, ON, nOf7] used1 (fairAt _ _)
  exact absurd this (by decide +kernel)

/-- What `name` does, exactly: an event gets a `NAME` in the store that is told, or in that of the metadata, where
it is the last one in the record of names; nothing else is different. -/
theorem C93_given (v : Rdt.View) (hs : Hashing) (w : World) (db : Db) (a n : List Byte) (id N store : Uuid) (rest : Args)
    (u : Used v hs db) (hw : Fair v hs w) (ha : UuidParser.parse a = some id) (hn : UuidParser.parse n = some N)
    (g : Nameable id N) (b : BranchArg db rest store) :
    ∃ st db', run v w db (cName :: a :: AS :: n :: rest) = some (st, db') ∧ st.ok = true ∧ NamedIn db db' store N id :=
  name_given u.inv hw ha hn g b

/-- Anything else is refused, and nothing is changed. -/
theorem C93_refused (v : Rdt.View) (hs : Hashing) (w : World) (db : Db) (a n : List Byte) (id N : Uuid) (rest : Args)
    (u : Used v hs db) (hw : Fair v hs w) (ha : UuidParser.parse a = some id) (hn : UuidParser.parse n = some N)
    (g : ¬ Nameable id N) : run v w db (cName :: a :: AS :: n :: rest) = some (Status.BADARGS, db) :=
  name_refused u.inv hw ha hn g

/-- The claim for names in lower case, if the stamps of the names are in order afterwards. Missing from the claim:
other names, and clocks set back. -/
theorem C93_found_partial (v : Rdt.View) (hs : Hashing) (w w' : World) (db db' : Db) (a n : List Byte) (id N : Uuid)
    (st st' : Status) (h : Host) (rest : Args) (u : Used v hs db) (hw : Fair v hs w) (hl : Lucky w) (ht : InTime db w)
    (hw' : Fair v hs w') (ha : UuidParser.parse a = some id) (hp : UuidParser.parse n = some N)
    (hc : N.value.base64Case = SNAKE) (hn : ∀ m, (Uuid.NIL, m) ∈ db' → IdSorted (Spec.namesOf m))
    (e : run v w db [cName, a, AS, n] = some (st, db')) (hok : st.ok = true)
    (ho : opened w'.mg db' = some (st', h)) :
    scanOf w' h (OF :: n :: rest) = some (Status.OK, id, rest) ∧
    scanOf w' h (OF :: n :: rest) = scanOf w' h (OF :: a :: rest) := by
  have u' : Used v hs db' := .run u hw hl ht e
  by_cases g : Nameable id N
  · obtain ⟨st1, db1, e1, -, k⟩ := C93_given v hs w db a n id N Uuid.NIL [] u hw ha hp g .none
    rw [e] at e1
    cases e1
    obtain ⟨⟨_, m⟩, hm, rfl⟩ := u.inv.sound.main
    obtain ⟨m', o, hm', hnames, hv, -⟩ := k.given m hm
    have h1 := scanOf_named u'.inv hw' ho hp g.good g.kind hc hm' (hn m' hm')
      (by rw [hnames, givenIn_concat _ hv]; exact lastNamed_concat _ _ _) rest
    exact ⟨h1, h1.trans (scanOf_event ha g.event rest).symm⟩
  · rw [C93_refused v hs w db a n id N [] u hw ha hp g] at e
    cases e
    exact absurd hok (by decide)

/-- The hypotheses are met: a name in the metadata, a name on a branch that is told by its name, a refusal. -/
example : (UuidParser.parse nThing).map (fun N => (N.isError, N.version, N.zero, N.value.base64Case)) =
      some (false, Uuid.vNAME, false, SNAKE) ∧
    (UuidParser.parse nSome).map Uuid.version = some Uuid.vTIME ∧
    (cmdSt db2 2000 9 [cName, nSome, AS, nThing, ON, nExp]).map Status.ok = some true ∧
    (cmd db2 2000 9 [cName, nSome, AS, nThing, ON, nExp]).map (fun s => (Spec.namesOf s.2).length) = [2, 1, 0] ∧
    (cmd db0 2000 9 [cName, nSome, AS, nThing]).map (fun s => (Spec.namesOf s.2).length) = [1] ∧
    found93 db0 2000 nSome nThing = false ∧
    cmdSt db2 2000 9 [cName, nThing, AS, nThing] = some Status.BADARGS := by decide +kernel

/-! ## C94 — the branch hopped to is the one that is worked on -/

/-- After a branch was made active, `on` answers that branch, or a name of it. -/
def C94_claim : Prop := ∀ (v : Rdt.View) (hs : Hashing) (w w' : World) (db db' : Db) (b : List Byte) (store : Uuid),
  Used v hs db → Fair v hs w → Lucky w → InTime db w → Fair v hs w' → BranchArg db [ON, b] store →
  run v w db [cHop, ON, b] = some (Status.OK, db') → ∃ r, run v w' db' [cOn] = some r ∧
    (r.1.code = store ∨ ∃ m, (Uuid.NIL, m) ∈ db' ∧ lastNamed (givenIn (Spec.namesOf m)) r.1.code = some store)

/-- A command that makes a branch active tells which. -/
def C94_args_claim : Prop := ∀ (v : Rdt.View) (hs : Hashing) (w : World) (db db' : Db) (args : Args) (st : Status),
  Used v hs db → Fair v hs w → run v w db (cHop :: args) = some (st, db') → st.ok = true → args.head? = some ON

/-- `hop Exp`, without `on`, succeeds, and hops to no branch. -/
theorem C94_args_violated : ¬ C94_args_claim := by
  intro hc
  have k : ((run tView (wAt 2001 9) db1 [cHop, nExp]).any fun r => r.1.ok) = true := by decide +kernel
  match hq : run tView (wAt 2001 9) db1 [cHop, nExp] with
  | none => rw [hq] at k; cases k
  | some (st, db') =>
    rw [hq] at k
    exact absurd (hc tView tHash (wAt 2001 9) db1 db' [nExp] st used1 (fairAt _ _) hq k) (by decide)

/-- `on` answers the store of the metadata, whatever was done before, and changes nothing. Missing from the claim:
every branch. -/
theorem C94_on_partial (v : Rdt.View) (hs : Hashing) (w : World) (db db' : Db) (args : Args) (st : Status)
    (u : Used v hs db) (hw : Fair v hs w) (e : run v w db (cOn :: args) = some (st, db')) :
    st = Status.OK ∧ db' = db := by
  obtain ⟨h, ho, -⟩ := soundDb_open v u.inv.sound
  unfold run at e
  simp only [hw.mg, ho, Option.bind_some] at e
  rw [if_neg (by decide), show verbs.lookup cOn = some .on by decide] at e
  simp only [command, Cli.on] at e
  obtain ⟨r, hr, e⟩ := Commit.map_some e
  obtain ⟨q, -, hr⟩ := Commit.map_some hr
  cases hr
  cases e
  exact ⟨by rw [opened_active ho]; rfl, opened_close ho⟩

/-- It does answer, if the stamps of the names are in order. -/
theorem C94_answers (v : Rdt.View) (hs : Hashing) (w : World) (db : Db) (args : Args) (u : Used v hs db) (hw : Fair v hs w)
    (hn : ∀ m, (Uuid.NIL, m) ∈ db → IdSorted (Spec.namesOf m)) : run v w db (cOn :: args) = some (Status.OK, db) := by
  obtain ⟨h, ho, -⟩ := soundDb_open v u.inv.sound
  obtain ⟨⟨_, m⟩, hm, rfl⟩ := u.inv.sound.main
  have hcl : h.close = db := opened_close ho
  have hnm := namesOf_opened u.inv hw hcl hm (hn m hm)
  unfold run
  simp only [hw.mg, ho, Option.bind_some]
  rw [if_neg (by decide), show verbs.lookup cOn = some .on by decide]
  simp only [command, Cli.on]
  rw [hnm]
  simp only [Option.map_some, opened_active ho, hcl]
  rfl

/-- The branch that was hopped to is forgotten. -/
theorem C94_violated : ¬ C94_claim := by
  intro hc
  have k : ((run tView (wAt 2001 9) db1 [cHop, ON, nExp]).any fun r => decide (r.1 = Status.OK) &&
      r.2.all fun s => decide (s.1 ≠ Uuid.NIL) || decide (lastNamed (givenIn (Spec.namesOf s.2)) Uuid.NIL = none)) = true := by
    decide +kernel
  have kb : (db1.all fun s => decide (s.1 ≠ Uuid.NIL) || (Spec.namesOf s.2).length == 1 &&
      (UuidParser.parse nExp).any fun B => decide (B.isError = false ∧ B.version = Uuid.vNAME ∧ B.value.base64Case = 3 ∧
        lastNamed (givenIn (Spec.namesOf s.2)) B = some (branchId 7#64))) = true := by decide +kernel
  have kd : (db1.any fun s => decide (s.1 = branchId 7#64)) = true := by decide +kernel
  match hq : run tView (wAt 2001 9) db1 [cHop, ON, nExp] with
  | none => rw [hq] at k; cases k
  | some (st, db') =>
    rw [hq] at k
    simp only [Option.any_some, Bool.and_eq_true, decide_eq_true_eq, List.all_eq_true, Bool.or_eq_true] at k
    obtain ⟨rfl, k⟩ := k
    have hb : BranchArg db1 [ON, nExp] (branchId 7#64) := by
      obtain ⟨⟨_, m⟩, hm, rfl⟩ := used1.inv.sound.main
      obtain ⟨⟨_, d⟩, hd, hde⟩ := List.any_eq_true.1 kd
      have hde := of_decide_eq_true hde
      simp only at hde
      subst hde
      have := List.all_eq_true.1 kb _ hm
      simp only [ne_eq, not_true_eq_false, decide_false, Bool.false_or, Bool.and_eq_true, beq_iff_eq] at this
      match hp : UuidParser.parse nExp with
      | none => rw [hp] at this; cases this.2
      | some B =>
        rw [hp] at this
        simp only [Option.any_some, decide_eq_true_eq] at this
        obtain ⟨h1, h2, h3, h4, h5⟩ := this
        refine .name hp h2 h3 h4 hm ?_ h5 hd
        match hns : Spec.namesOf m with
        | [] => exact List.Pairwise.nil
        | [o] => exact List.pairwise_singleton _ _
        | _ :: _ :: _ => rw [hns] at h1; simp at h1
    obtain ⟨⟨st, db2⟩, e, hr⟩ := hc tView tHash (wAt 2001 9) (wAt 2002 9) db1 db' nExp _ used1 (fairAt _ _)
      (show _ ≠ _ by decide) (inTime93 (by decide +kernel)) (fairAt _ _) hb hq
    have u' : Used tView tHash db' := .run used1 (fairAt 2001 9) (show _ ≠ _ by decide) (inTime93 (by decide +kernel)) hq
    obtain ⟨rfl, -⟩ := C94_on_partial tView tHash _ db' db2 [] st u' (fairAt _ _) e
    rcases hr with hr | ⟨m, hm, hr⟩
    · exact Uuid.time_ne_nil _ _ hr.symm
    · rcases k _ hm with h | h
      · exact h rfl
      · rw [show Status.OK.code = Uuid.NIL from rfl, h] at hr
        cases hr

/-- Arguments of `hop` that do not begin with `on` are not looked at. -/
theorem C94_ignored (v : Rdt.View) (hs : Hashing) (w : World) (db : Db) (args : Args) (u : Used v hs db) (hw : Fair v hs w)
    (ha : args.head? ≠ some ON) : run v w db (cHop :: args) = run v w db [cHop] := by
  obtain ⟨h, ho, -⟩ := soundDb_open v u.inv.sound
  have hcl := opened_active ho
  unfold run
  simp only [hw.mg, ho, Option.bind_some]
  rw [show verbs.lookup cHop = some .hop by decide]
  simp only [command]
  have : Cli.hop w h args = Cli.hop w h [] := by
    match args with
    | [] => rfl
    | a :: args =>
      have : a ≠ ON := fun x => ha (by rw [x]; rfl)
      unfold Cli.hop
      simp only [scanOn, if_pos this, hcl]
      rfl
  rw [this]

/-- `hop` to a branch that is told records it: in the store of the metadata, under the key of the active store, and
nothing else is different. -/
theorem C94_recorded_partial (v : Rdt.View) (hs : Hashing) (w : World) (db : Db) (args : Args) (store : Uuid)
    (m : MemStore) (u : Used v hs db) (hw : Fair v hs w) (b : BranchArg db args store) (hm : (Uuid.NIL, m) ∈ db) :
    ∃ db' m' o, run v w db (cHop :: args) = some (Status.OK, db') ∧ db'.map Prod.fst = db.map Prod.fst ∧
      (∀ s ∈ db, s.1 ≠ Uuid.NIL → s ∈ db') ∧ (Uuid.NIL, m') ∈ db' ∧ o.ref = store ∧
      stored ACTIVE m' = stored ACTIVE m ++ [[o]] ∧ ∀ k, k ≠ ACTIVE → stored k m' = stored k m := by
  obtain ⟨h, ho, -⟩ := soundDb_open v u.inv.sound
  have hcl : h.close = db := opened_close ho
  obtain ⟨hscan, d, hd⟩ := scanOn_arg u.inv hw hcl (opened_active ho) b
  have hh := (opened_find u.inv hcl hd).1
  obtain ⟨-, s, hf, hsm⟩ := opened_find u.inv hcl hm
  have hset : ∃ o h', o.ref = store ∧ h.setActive (w.wall 0) store = some (Status.OK, h') ∧
      h'.stores = (h.setData Uuid.NIL (MemStore.insert ACTIVE [o] s.data)).stores := by
    unfold setActive
    rw [if_neg (not_not_intro hh)]
    have : (h.now' (w.wall 0) 0#64).2.find Uuid.NIL = some s := hf
    simp only [this]
    have hk : ¬ (Key.mk' ACTIVE_STORE_UUID Form.ZERO = Key.END) := Key.mk_ne_end (by decide)
    have h2 : ¬ ¬ Status.OK.ok = true := by decide
    simp only [Engine.write, hk, false_and, if_false, h2]
    exact ⟨_, _, rfl, rfl, rfl⟩
  obtain ⟨o, h', hr, hset, hst⟩ := hset
  refine ⟨put db Uuid.NIL (MemStore.insert ACTIVE [o] m), _, o, ?_, put_ids _ _ _,
    fun s hs hne => List.mem_map.2 ⟨s, hs, if_neg hne⟩, put_mem hm, hr, ?_, fun k hk => ?_⟩
  · unfold run
    simp only [hw.mg, ho, Option.bind_some]
    rw [if_neg (by decide), show verbs.lookup cHop = some .hop by decide]
    simp only [command, Cli.hop]
    rw [hscan, Option.bind_some]
    simp only
    rw [if_neg (by decide), hset, Option.map_some, close_of_stores hst, close_setData, hcl, hsm]
    rfl
  · have := MemStore.insert_recs (u.inv.sound.good _ hm).1 ACTIVE ACTIVE [o]
    rw [if_pos rfl] at this
    exact this
  · exact Commit.operands_insert (Ne.symm hk) _ _

example : cmdSt db1 2001 9 [cHop, ON, nExp] = some Status.OK ∧ cmdSt (cmd db1 2001 9 [cHop, ON, nExp]) 2002 9 [cOn] = some Status.OK ∧
    (cmd db1 2001 9 [cHop, ON, nExp]).map (fun s => (stored ACTIVE s.2).length) = [2, 0] ∧
    cmdSt db1 2001 9 [cHop, nThing] = some Status.OK ∧ cmdSt db1 2001 9 [cHop, ON, nThing] = some Status.BADARGS := by
  decide +kernel

end Ron.Props
