import Verif.Lemmas.Cli
import Verif.Props.Names
/-!
Properties of the command line: C77, C78, C79, C80, C81, C82.
-/
namespace Ron.Props
open Ron Spec Host Cli

/-! ## Test data -/

/-- The words `create`, `new`, `get`, `write`, `fork`, `name`, `hop`, `on`, `now`, `list`, `named`, `recall`. -/
def cCreate : List Byte := [99, 114, 101, 97, 116, 101]
def cNew : List Byte := [110, 101, 119]
def cGet : List Byte := [103, 101, 116]
def cWrite : List Byte := [119, 114, 105, 116, 101]
def cFork : List Byte := [102, 111, 114, 107]
def cName : List Byte := [110, 97, 109, 101]
def cHop : List Byte := [104, 111, 112]
def cOn : List Byte := [111, 110]
def cNow : List Byte := [110, 111, 119]
def cList : List Byte := [108, 105, 115, 116]
def cNamed : List Byte := [110, 97, 109, 101, 100]
def cRecall : List Byte := [114, 101, 99, 97, 108, 108]
/-- Names of branches, `Exp` and `Oth`, an event `Exp+Oth`, an event `1234+someid`, a name `thing`, a form `lww`. -/
def nExp : List Byte := [69, 120, 112]
def nOth : List Byte := [79, 116, 104]
def nEvent : List Byte := [69, 120, 112, 43, 79, 116, 104]
def nSome : List Byte := [49, 50, 51, 52, 43, 115, 111, 109, 101, 105, 100]
def nThing : List Byte := [116, 104, 105, 110, 103]
def nLww : List Byte := [108, 119, 119]

/-- A process at a time, with a random number, and an empty file. -/
def wAt (t r : Nat) : World :=
  ⟨mg6, tHash, fun _ => BitVec.ofNat 64 t, BitVec.ofNat 64 r, fun _ => some ⟨[], Status.ENDOFFRAME, false⟩⟩
theorem fairAt (t r : Nat) : Fair tView tHash (wAt t r) := ⟨rfl, rfl⟩

/-- The database and the status after a command. -/
def cmd (db : Db) (t r : Nat) (args : Args) : Db := ((run tView (wAt t r) db args).getD (Status.OK, db)).2
def cmdSt (db : Db) (t r : Nat) (args : Args) : Option Status := (run tView (wAt t r) db args).map Prod.fst

theorem used_cmd {db : Db} (u : Used tView tHash db) {t r : Nat} {args : Args}
    (hl : Lucky (wAt t r))
    (ht : ((opened mg6 db).all fun o =>
      decide ((clockNow o.2.now (BitVec.ofNat 64 t) (BitVec.ofNat 64 r)).1.toNat < NEVER.toNat)) = true)
    (hs : (cmdSt db t r args).isSome = true) : Used tView tHash (cmd db t r args) := by
  unfold cmd
  unfold cmdSt at hs
  match hq : run tView (wAt t r) db args with
  | none => rw [hq] at hs; cases hs
  | some q =>
    refine .run u (fairAt t r) hl ?_ (st := q.1) hq
    intro st h ho
    rw [show opened mg6 db = some (st, h) from ho] at ht
    exact of_decide_eq_true ht

/-- A new database. -/
def db0 : Db := ((init (wAt 1000 0) none).getD (Status.OK, [])).2
theorem used0 : Used tView tHash db0 := by
  have h : (init (wAt 1000 0) none).isSome = true := by decide +kernel
  unfold db0
  match hq : init (wAt 1000 0) none with
  | none => rw [hq] at h; cases h
  | some q => exact .init (fairAt 1000 0) (st := q.1) hq

/-- Two branches are created under names, and a name is given, all in the same second. -/
def db1 : Db := cmd db0 2000 7 [cCreate, AS, nExp]
def db2 : Db := cmd db1 2000 8 [cCreate, AS, nOth]
def db3 : Db := cmd db2 2000 9 [cName, nSome, AS, nThing]
theorem used1 : Used tView tHash db1 := used_cmd used0 (show _ ≠ _ by decide) (by decide +kernel) (by decide +kernel)
theorem used2 : Used tView tHash db2 := used_cmd used1 (show _ ≠ _ by decide) (by decide +kernel) (by decide +kernel)
theorem used3 : Used tView tHash db3 := used_cmd used2 (show _ ≠ _ by decide) (by decide +kernel) (by decide +kernel)

/-! ## C77 — a command that fails changes nothing -/

/-- A command that returns an error leaves the database as it was. There is no branch of the yarn zero,
as in all that is done from the command line. -/
theorem C77_failed (v : Rdt.View) (w : World) (db db' : Db) (args : Args) (st : Status)
    (hz : ∀ s ∈ db, s.1 ≠ branchId 0#64) (e : run v w db args = some (st, db')) (hf : st.ok = false) : db' = db := by
  rcases run_cases hz e with h | ⟨st0, h, h', a, rest, verb, -, -, ho, -, -, -, x⟩
  · exact h
  · exact effect_failed ho x hf

theorem C77_used (v : Rdt.View) (hs : Hashing) (w : World) (db db' : Db) (args : Args) (st : Status)
    (u : Used v hs db) (e : run v w db args = some (st, db')) (hf : st.ok = false) : db' = db :=
  C77_failed v w db db' args st u.inv.zero e hf

example : cmdSt db3 2000 9 [DROP, nExp] = some Status.NOT_FOUND ∧ cmdSt db3 2000 9 [cCreate, AS, nThing] = some Status.BADARGS ∧
    (cmdSt db2 2000 9 [cName, nSome, AS, nThing]).map Status.ok = some true ∧ db3 ≠ db2 := by decide +kernel

/-! ## C78 — a branch is found by its name -/

/-- A branch that was created under a name can be dropped by that name, by the next command. -/
def C78_claim : Prop := ∀ (v : Rdt.View) (hs : Hashing) (w w' : World) (db db' : Db) (n : List Byte) (st : Status),
  Used v hs db → Fair v hs w → Lucky w → InTime db w → Fair v hs w' →
  run v w db [cCreate, AS, n] = some (st, db') → st.ok = true →
  run v w' db' [DROP, n] = some (Status.OK, db'.filter fun s => decide (s.1 ≠ branchId w.random))

/-- A branch can be created under an event id, by which it is not found. -/
theorem C78_violated : ¬ C78_claim := by
  intro h
  have k : ((run tView (wAt 2000 7) db0 [cCreate, AS, nEvent]).any fun r => r.1.ok &&
      decide ((run tView (wAt 2001 7) r.2 [DROP, nEvent]).map Prod.fst ≠ some Status.OK)) = true := by decide +kernel
  have ht : ((opened mg6 db0).all fun o =>
      decide ((clockNow o.2.now (BitVec.ofNat 64 2000) (BitVec.ofNat 64 7)).1.toNat < NEVER.toNat)) = true := by
    decide +kernel
  match hq : run tView (wAt 2000 7) db0 [cCreate, AS, nEvent] with
  | none => rw [hq] at k; cases k
  | some (st, db') =>
    rw [hq] at k
    simp only [Option.any_some, Bool.and_eq_true, decide_eq_true_eq] at k
    have := h tView tHash (wAt 2000 7) (wAt 2001 7) db0 db' nEvent st used0 (fairAt _ _) (show _ ≠ _ by decide)
      (by
        intro st h ho
        rw [show opened mg6 db0 = some (st, h) from ho] at ht
        exact of_decide_eq_true ht)
      (fairAt _ _) hq k.1
    rw [this] at k
    exact k.2 rfl

/-- A branch that can be dropped by a name can still be dropped by it after another name was given. -/
def C78_others_claim : Prop := ∀ (v : Rdt.View) (hs : Hashing) (w w' : World) (db db' : Db) (n m id : List Byte)
  (st : Status), Used v hs db → Fair v hs w → Lucky w → InTime db w → Fair v hs w' → m ≠ n →
  (run v w' db [DROP, n]).map Prod.fst = some Status.OK →
  run v w db [cName, id, AS, m] = some (st, db') → st.ok = true →
  (run v w' db' [DROP, n]).map Prod.fst = some Status.OK

/-- The name given to another object has the stamp of the name of the branch, which is gone. -/
theorem C78_others_violated : ¬ C78_others_claim := by
  intro h
  have k : ((run tView (wAt 2000 9) db2 [cName, nSome, AS, nThing]).any fun r => r.1.ok &&
      decide ((run tView (wAt 2001 7) r.2 [DROP, nExp]).map Prod.fst ≠ some Status.OK)) = true := by decide +kernel
  have k2 : (run tView (wAt 2001 7) db2 [DROP, nExp]).map Prod.fst = some Status.OK := by decide +kernel
  have ht : ((opened mg6 db2).all fun o =>
      decide ((clockNow o.2.now (BitVec.ofNat 64 2000) (BitVec.ofNat 64 9)).1.toNat < NEVER.toNat)) = true := by
    decide +kernel
  match hq : run tView (wAt 2000 9) db2 [cName, nSome, AS, nThing] with
  | none => rw [hq] at k; cases k
  | some (st, db') =>
    rw [hq] at k
    simp only [Option.any_some, Bool.and_eq_true, decide_eq_true_eq] at k
    exact k.2 (h tView tHash (wAt 2000 9) (wAt 2001 7) db2 db' nExp nThing nSome st used2 (fairAt _ _)
      (show _ ≠ _ by decide)
      (by
        intro st h ho
        rw [show opened mg6 db2 = some (st, h) from ho] at ht
        exact of_decide_eq_true ht)
      (fairAt _ _) (by decide) k2 hq k.1)

/-- The name stands for the branch that it was given to last, if the stamps of the names are in order.
Missing from the claim: event ids as names, and names whose stamps are not in order. -/
theorem C78_resolve_partial (v : Rdt.View) (hs : Hashing) (w : World) (db : Db) (n : List Byte) (N : Uuid) (y : Word)
    (m d : MemStore) (u : Used v hs db) (hw : Fair v hs w) (hp : UuidParser.parse n = some N) (he : N.isError = false)
    (hv : N.version = Uuid.vNAME) (hc : N.value.base64Case = CAMEL) (hm : (Uuid.NIL, m) ∈ db)
    (hn : IdSorted (Spec.namesOf m)) (hl : lastNamed (givenIn (Spec.namesOf m)) N = some (branchId y))
    (hb : (branchId y, d) ∈ db) :
    run v w db [DROP, n] = some (Status.OK, db.filter fun s => decide (s.1 ≠ branchId y)) :=
  drop_named u.inv hw hp he hv hc hm hn hl hb

/-- The claim for a `NAME`, if the stamps of the names in the database are in order afterwards. -/
theorem C78_created_partial (v : Rdt.View) (hs : Hashing) (w w' : World) (db db' : Db) (n : List Byte) (N : Uuid)
    (st : Status) (u : Used v hs db) (hw : Fair v hs w) (hl : Lucky w) (ht : InTime db w) (hw' : Fair v hs w')
    (hp : UuidParser.parse n = some N) (he : N.isError = false) (hv : N.version = Uuid.vNAME)
    (hn : ∀ m, (Uuid.NIL, m) ∈ db' → IdSorted (Spec.namesOf m))
    (e : run v w db [cCreate, AS, n] = some (st, db')) (hok : st.ok = true) :
    run v w' db' [DROP, n] = some (Status.OK, db'.filter fun s => decide (s.1 ≠ branchId w.random)) := by
  have u' : Used v hs db' := .run u hw hl ht e
  obtain ⟨hc, m, d, hm, hb, hlast⟩ := create_names u.inv hw hl ht hp hok e
  exact drop_named u'.inv hw' hp he hv hc hm (hn m hm) hlast hb

example : (UuidParser.parse nExp).map (fun N => (N.isError, N.version, N.value.base64Case)) = some (false, Uuid.vNAME, CAMEL) ∧
    (cmdSt db0 2000 7 [cCreate, AS, nExp]).map Status.ok = some true ∧
    db1.map (fun s => (Spec.namesOf s.2).length) = [1, 0] ∧ db2.map (fun s => (Spec.namesOf s.2).length) = [2, 0, 0] ∧
    cmdSt db2 2000 7 [DROP, nOth] = some Status.OK ∧ (cmd db2 2000 7 [DROP, nOth]).length = 2 := by decide +kernel

/-! ## C79 — every command can be carried out -/

/-- For every verb there are a database and arguments with which the command succeeds. -/
def C79_claim : Prop := ∀ (a : List Byte) (verb : Verb), verbs.lookup a = some verb →
  ∃ (v : Rdt.View) (hs : Hashing) (w : World) (db db' : Db) (args : Args) (st : Status),
    Used v hs db ∧ Fair v hs w ∧ run v w db (a :: args) = some (st, db') ∧ st.ok = true

/-- `fork`, `get` and `new` never succeed. `fork` works on the active store, which is the metadata store whenever
a replica has been opened; the query of `get` goes to the branch of the yarn zero; `new` reads an op from a cursor
that was not advanced. -/
theorem C79_never (v : Rdt.View) (hs : Hashing) (w : World) (db db' : Db) (a : List Byte) (args : Args) (st : Status)
    (u : Used v hs db) (ha : a = cFork ∨ a = cGet ∨ a = cNew) (e : run v w db (a :: args) = some (st, db')) :
    st.ok = false := by
  obtain ⟨st0, h, h', verb, hv, ho, hcm⟩ | hf := run_verb e
  · have hz : h.has (branchId 0#64) = false := u.inv.has (opened_close ho)
    have l1 : verbs.lookup cFork = some .fork := by decide
    have l2 : verbs.lookup cGet = some .get := by decide
    have l3 : verbs.lookup cNew = some .new := by decide
    rcases ha with rfl | rfl | rfl
    · rw [l1] at hv; cases hv
      rw [(fork_fails (opened_active ho) hcm).1]; decide
    · rw [l2] at hv; cases hv
      exact (get_fails hz hcm).1
    · rw [l3] at hv; cases hv
      exact (new_fails hcm).1
  · exact hf

/-- `write` succeeds only if there is no op in the file, and then it does nothing. -/
theorem C79_write (v : Rdt.View) (hs : Hashing) (w : World) (db db' : Db) (args : Args) (st : Status)
    (u : Used v hs db) (e : run v w db (cWrite :: args) = some (st, db')) :
    db' = db ∧ (st.ok = true → ∃ cur, w.file (args.headD [45]) = some cur ∧ cur.next.1.ok = false) := by
  have hz := u.inv.zero
  obtain ⟨st0, h, h', verb, hv, ho, hcm⟩ | hf := run_verb e
  · have l1 : verbs.lookup cWrite = some .write := by decide
    rw [l1] at hv; cases hv
    have k := write_keeps (u.inv.has (opened_close ho)) hcm
    refine ⟨?_, k.2⟩
    rcases run_cases hz e with h | ⟨st1, h1, h1', a, rest, verb, ha, hl, ho1, -, hcm1, hd, -⟩
    · exact h
    · cases ha
      rw [l1] at hl; cases hl
      rw [hd, (write_keeps (u.inv.has (opened_close ho1)) hcm1).1, opened_close ho1]
  · exact ⟨C77_failed v w db db' _ st hz e hf, fun x => by rw [hf] at x; cases x⟩

theorem C79_violated : ¬ C79_claim := by
  intro h
  obtain ⟨v, hs, w, db, db', args, st, u, -, e, hok⟩ := h cFork .fork (by decide)
  rw [C79_never v hs w db db' cFork args st u (Or.inl rfl) e] at hok
  cases hok

/-- The commands that can be carried out are the others. Missing from the claim: `fork`, `get`, `new`. -/
theorem C79_exact_partial (a : List Byte) (verb : Verb) (hv : verbs.lookup a = some verb) :
    (∃ (v : Rdt.View) (hs : Hashing) (w : World) (db db' : Db) (args : Args) (st : Status),
      Used v hs db ∧ Fair v hs w ∧ run v w db (a :: args) = some (st, db') ∧ st.ok = true) ↔
    ¬ (verb = .fork ∨ verb = .get ∨ verb = .new) := by
  constructor
  · rintro ⟨v, hs, w, db, db', args, st, u, -, e, hok⟩ hx
    have ha : a = cFork ∨ a = cGet ∨ a = cNew := by
      rcases hx with rfl | rfl | rfl
      · exact Or.inl (lookup_inj hv (by decide))
      · exact Or.inr (Or.inl (lookup_inj hv (by decide)))
      · exact Or.inr (Or.inr (lookup_inj hv (by decide)))
    rw [C79_never v hs w db db' a args st u ha e] at hok
    cases hok
  · intro hx
    have ok : ∀ args, ((cmdSt db2 3000 9 (a :: args)).map Status.ok) = some true →
        ∃ (v : Rdt.View) (hs : Hashing) (w : World) (db db' : Db) (args : Args) (st : Status),
          Used v hs db ∧ Fair v hs w ∧ run v w db (a :: args) = some (st, db') ∧ st.ok = true := by
      intro args h
      unfold cmdSt at h
      match hq : run tView (wAt 3000 9) db2 (a :: args) with
      | none => rw [hq] at h; cases h
      | some q =>
        rw [hq] at h
        exact ⟨tView, tHash, wAt 3000 9, db2, q.2, args, q.1, used2, fairAt _ _, hq, Option.some.inj h⟩
    cases verb with
    | fork => exact absurd (Or.inl rfl) hx
    | get => exact absurd (Or.inr (Or.inl rfl)) hx
    | new => exact absurd (Or.inr (Or.inr rfl)) hx
    | create =>
      obtain rfl : a = cCreate := lookup_inj hv (by decide)
      exact ok [] (by decide +kernel)
    | now =>
      obtain rfl : a = cNow := lookup_inj hv (by decide)
      exact ok [] (by decide +kernel)
    | list =>
      obtain rfl : a = cList := lookup_inj hv (by decide)
      exact ok [] (by decide +kernel)
    | named =>
      obtain rfl : a = cNamed := lookup_inj hv (by decide)
      exact ok [] (by decide +kernel)
    | name =>
      obtain rfl : a = cName := lookup_inj hv (by decide)
      exact ok [nSome, AS, nThing] (by decide +kernel)
    | write =>
      obtain rfl : a = cWrite := lookup_inj hv (by decide)
      exact ok [] (by decide +kernel)
    | recall =>
      obtain rfl : a = cRecall := lookup_inj hv (by decide)
      exact ok [nSome, OF, nSome] (by decide +kernel)
    | hop =>
      obtain rfl : a = cHop := lookup_inj hv (by decide)
      exact ok [ON, nExp] (by decide +kernel)
    | drop =>
      obtain rfl : a = DROP := lookup_inj hv (by decide)
      exact ok [nExp] (by decide +kernel)
    | on =>
      obtain rfl : a = cOn := lookup_inj hv (by decide)
      exact ok [] (by decide +kernel)

example : cmdSt db2 3000 9 [cFork, AS, nThing] = some Status.BADARGS ∧ cmdSt db2 3000 9 [cGet, nLww, OF, nSome] = some Status.NOT_FOUND ∧
    cmdSt db2 3000 9 [cNew] = some Status.BADARGS ∧ cmdSt db2 3000 9 [cNew, nLww] = none ∧
    (cmdSt db2 3000 9 [cWrite]).map Status.ok = some true := by decide +kernel

/-! ## C80 — a replica is initialized once -/

/-- Where there is a replica, `init` is refused and changes nothing. -/
def C80_claim : Prop := ∀ (v : Rdt.View) (hs : Hashing) (w : World) (db db' : Db) (st : Status), Used v hs db →
  Fair v hs w → init w (some db) = some (st, db') → st.ok = false ∧ db' = db

/-- A replica without branches is initialized again. -/
theorem C80_violated : ¬ C80_claim := by
  intro h
  have k : ((init (wAt 3000 0) (some db0)).any fun r => r.1.ok && decide (r.2 ≠ db0)) = true := by decide +kernel
  match hq : init (wAt 3000 0) (some db0) with
  | none => rw [hq] at k; cases k
  | some (st, db') =>
    rw [hq] at k
    simp only [Option.any_some, Bool.and_eq_true, decide_eq_true_eq] at k
    exact k.2 (h tView tHash (wAt 3000 0) db0 db' st used0 (fairAt _ _) hq).2

/-- If there are branches, it is refused and changes nothing; in any case no record is lost. Missing from the
claim: replicas without branches. -/
theorem C80_partial (v : Rdt.View) (hs : Hashing) (w : World) (db db' : Db) (st : Status) (u : Used v hs db)
    (e : init w (some db) = some (st, db')) :
    Grown db db' ∧ (2 ≤ db.length → st = Status.DB_FAIL ∧ db' = db) := (again_inv u.inv e).2

example : 2 ≤ db1.length ∧ (init (wAt 3000 0) (some db1)).map Prod.fst = some Status.DB_FAIL ∧
    (init (wAt 3000 0) (some db0)).map Prod.fst = some Status.OK := by decide +kernel

/-! ## C81 — commands lose nothing -/

/-- A command other than `drop`, whatever it returns, leaves every store in place, with all of its records. -/
theorem C81_grown (v : Rdt.View) (hs : Hashing) (w : World) (db db' : Db) (args : Args) (st : Status)
    (u : Used v hs db) (hw : Fair v hs w) (hl : Lucky w) (ht : InTime db w) (ha : args.head? ≠ some DROP)
    (e : run v w db args = some (st, db')) : Grown db db' := by
  rcases run_cases u.inv.zero e with rfl | ⟨st0, h, h', a, rest, verb, rfl, hv, ho, -, -, -, x⟩
  · exact Grown.refl _
  · refine (effect_inv u.inv hw hl ht ho x).2.1 ?_
    rintro rfl
    exact ha (by rw [lookup_inj hv (show verbs.lookup DROP = some .drop by decide)]; rfl)

/-- `drop` removes one store at most, not the metadata, and leaves the others as they are. -/
theorem C81_drop (v : Rdt.View) (hs : Hashing) (w : World) (db db' : Db) (args : Args) (st : Status)
    (u : Used v hs db) (e : run v w db (DROP :: args) = some (st, db')) :
    db' = db ∨ st = Status.OK ∧ ∃ id, id ≠ Uuid.NIL ∧ db' = db.filter fun s => decide (s.1 ≠ id) := by
  rcases run_cases u.inv.zero e with rfl | ⟨st0, h, h', a, rest, verb, ha, hv, ho, -, hcm, rfl, -⟩
  · exact Or.inl rfl
  · cases ha
    rw [show verbs.lookup DROP = some .drop by decide] at hv
    cases hv
    rcases drop_cases hcm with h1 | ⟨h1, id, h2, h3⟩
    · exact Or.inl (h1.trans (opened_close ho))
    · rw [opened_close ho] at h3
      exact Or.inr ⟨h1, id, h2, h3⟩

example : db2.map Prod.fst = db3.map Prod.fst ∧ (db2.map fun s => s.2.length) ≠ (db3.map fun s => s.2.length) ∧
    (cmd db2 2000 7 [DROP, nOth]).map Prod.fst = [Uuid.NIL, branchId 7#64] ∧ db2.length = 3 := by decide +kernel

/-! ## C82 — the replica can always be opened -/

/-- After any commands, whatever they returned, the replica can be opened. -/
theorem C82_opened (v : Rdt.View) (hs : Hashing) (db : Db) (u : Used v hs db) :
    ∃ h, opened (Rdt.mergeCursors v) db = some (Status.OK, h) ∧ h.close = db ∧ h.has Uuid.NIL = true := by
  obtain ⟨h, e, g⟩ := soundDb_open v u.inv.sound
  exact ⟨h, e, opened_close e, g.main⟩

example : Used tView tHash db3 ∧ (opened mg6 db3).map Prod.fst = some Status.OK := ⟨used3, by decide +kernel⟩

end Ron.Props
