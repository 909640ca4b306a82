import Verif.Model.Families
import Verif.Lemmas.Cli
import Verif.Props.Uuid
/-!
Lemmas about the names of column families.
-/
namespace Ron.Families
open Host Spec

/-- The ids that stores have. -/
def StoreId (id : Uuid) : Prop := id = Uuid.NIL ∨ ∃ y, id = branchId y

theorem branch_fits (y : Word) : (branchId y).origin.toNat < 2 ^ 62 := by
  have : y.payload < 2 ^ 60 := Nat.mod_lt _ (by decide)
  show (BitVec.ofNat 64 (y.payload + 2 * 2 ^ 60)).toNat < _
  rw [BitVec.toNat_ofNat]
  omega

theorem branch_ne_nil (y : Word) : branchId y ≠ Uuid.NIL := by
  intro e
  have := Uuid.time_version NEVER y
  rw [show Uuid.time NEVER y = Uuid.NIL from e] at this
  exact absurd this (by decide)

theorem default_name : ((UuidParser.parse DEFAULT).all fun u => decide (u.version = Uuid.vNAME)) = true := by decide +kernel

theorem time_name {b : Uuid} (hf : b.origin.toNat < 2 ^ 62) (hv : b.version = Uuid.vTIME) : b.str ≠ DEFAULT := by
  have h := (Props.C02_uuid_round_trip b).2 hf
  intro e
  rw [e] at h
  have hd := default_name
  rw [h, Option.all_some] at hd
  have := of_decide_eq_true hd
  rw [hv] at this
  cases this

theorem branch_name (y : Word) : (branchId y).str ≠ DEFAULT := time_name (branch_fits y) (Uuid.time_version NEVER y)

theorem family_back {id : Uuid} (h : StoreId id) : familyId (familyName id) = some id := by
  rcases h with rfl | ⟨y, rfl⟩
  · have : familyName Uuid.NIL = DEFAULT := if_neg (by simp)
    rw [this]
    exact if_pos rfl
  · unfold familyName familyId
    rw [if_pos (branch_ne_nil y), if_neg (branch_name y)]
    exact (Props.C02_uuid_round_trip (branchId y)).2 (branch_fits y)

theorem family_inj {a b : Uuid} (ha : StoreId a) (hb : StoreId b) (e : familyName a = familyName b) : a = b := by
  have h := family_back ha
  rw [e, family_back hb] at h
  exact (Option.some.inj h).symm

/-- What the stores of a database are. -/
structure Named (db : Db) : Prop where
  ids : ∀ s ∈ db, StoreId s.1
  once : (db.map Prod.fst).Nodup

theorem openLoop_all : ∀ (db done : Db), Named (done ++ db) → openLoop done (families db) = some (done ++ db) := by
  intro db
  induction db with
  | nil => intro done _; simp [families, openLoop]
  | cons s db ih =>
    intro done hn
    show (familyId (familyName s.1)).bind _ = _
    rw [family_back (hn.ids s (by simp)), Option.bind_some]
    have hno : (done.any fun x => decide (x.1 = s.1)) = false := by
      rw [List.any_eq_false]
      intro x hx
      simp only [decide_eq_true_eq]
      intro e
      have := hn.once
      rw [List.map_append] at this
      exact (List.nodup_append.1 this).2.2 x.1 (List.mem_map_of_mem hx) s.1 (by simp) e
    rw [hno]
    have := ih (done ++ [s]) (by rw [List.append_assoc]; exact hn)
    rw [List.append_assoc] at this
    exact this

theorem named_names {db : Db} (h : Named db) : ((families db).map Prod.fst).Nodup := by
  unfold families
  rw [List.map_map]
  have h1 := h.once
  have h2 := h.ids
  clear h
  induction db with
  | nil => exact List.nodup_nil
  | cons s db ih =>
    rw [List.map_cons, List.nodup_cons] at h1 ⊢
    refine ⟨fun hm => ?_, ih h1.2 fun x hx => h2 x (List.mem_cons_of_mem _ hx)⟩
    obtain ⟨x, hx, e⟩ := List.mem_map.1 hm
    have := family_inj (h2 x (List.mem_cons_of_mem _ hx)) (h2 s (by simp)) e
    exact h1.1 (this ▸ List.mem_map_of_mem hx)

/-! ### The calls -/

theorem named_of_ids {a b : Db} (h : Named a) (e : b.map Prod.fst = a.map Prod.fst) : Named b := by
  refine ⟨fun s hs => ?_, e ▸ h.once⟩
  have : s.1 ∈ a.map Prod.fst := e ▸ List.mem_map_of_mem hs
  obtain ⟨x, hx, e⟩ := List.mem_map.1 this
  exact e ▸ h.ids x hx

theorem setData_ids (h : Host) (id : Uuid) (d : MemStore) : (h.setData id d).close.map Prod.fst = h.close.map Prod.fst := by
  rw [close_setData, List.map_map]
  apply List.map_congr_left
  intro s _
  simp only [Function.comp]
  split <;> rfl

theorem close_with (h : Host) (n : Word) : ({ h with now := n } : Host).close = h.close := rfl

theorem named_create {mg : Reducer} {hs : Hashing} {wall yarn : Word} {t : Bool} {h h' : Host} {st : Status}
    (hn : Named h.close) (e : h.createBranch mg hs wall yarn t = some (st, h')) : Named h'.close := by
  unfold createBranch at e
  simp only at e
  have hst : (if t = true then (Uuid.time 0#64 yarn, h) else h.now' wall yarn).2.stores = h.stores := by
    split <;> rfl
  generalize (if t = true then (Uuid.time 0#64 yarn, h) else h.now' wall yarn) = n at *
  have hcl : n.2.close = h.close := Cli.close_of_stores hst
  split at e
  · cases e; rw [hcl]; exact hn
  · rename_i hno
    split at e
    · cases e
    · obtain ⟨r, hr, e⟩ := Commit.map_some e
      cases e
      have hbig : Named (h.close ++ [(branchId yarn, newStore)]) := by
        refine ⟨fun s hs => ?_, ?_⟩
        · rcases List.mem_append.1 hs with hs | hs
          · exact hn.ids s hs
          · rw [List.mem_singleton.1 hs]; exact .inr ⟨yarn, rfl⟩
        · rw [List.map_append, List.nodup_append]
          refine ⟨hn.once, by simp, ?_⟩
          intro a ha b hb e
          obtain ⟨s, hs, rfl⟩ := List.mem_map.1 ha
          rw [show b = branchId yarn by simpa using hb] at e
          exact hno ((has_iff _ _).2 ⟨s, hcl ▸ hs, e⟩)
      refine named_of_ids hbig ?_
      rw [close_with, setData_ids, ← hcl]
      unfold close
      simp

theorem _root_.Ron.Spec.Lived.named {mg : Reducer} {hs : Hashing} {P : Host → HostCall → Prop} {h : Host}
    (l : Lived mg hs P h) : Named h.close := by
  induction l with
  | @created wall st st' db h e1 e2 =>
    rw [opened_close e2]
    unfold createReplica at e1
    obtain ⟨o, ho, e1⟩ := Commit.bind_some e1
    split at e1
    · cases e1
    · obtain ⟨r, -, e1⟩ := Commit.map_some e1
      cases e1
      refine named_of_ids (a := [(Uuid.NIL, newStore)]) ⟨fun s hs => ?_, by simp⟩ ?_
      · rw [List.mem_singleton.1 hs]; exact .inl rfl
      · rw [setData_ids, opened_close (st := o.1) ho]
  | @used h h' c st l hc e ih =>
    cases c with
    | setActive w id =>
      simp only [hostCall, setActive] at e
      split at e
      · cases e; exact ih
      · split at e
        · cases e
        · split at e
          · cases e; exact ih
          · cases e
            exact named_of_ids ih (setData_ids _ _ _)
    | create w y t => exact named_create ih e
    | fork w n o =>
      simp only [hostCall, forkBranch] at e
      split at e
      · cases e; exact ih
      · obtain ⟨c, hc, e⟩ := Commit.bind_some e
        have hcn := named_create (st := c.1) ih hc
        split at e
        · cases e; exact hcn
        · split at e
          · split at e
            · cases e
            · obtain ⟨r, -, e⟩ := Commit.bind_some e
              split at e
              · cases e; exact hcn
              · obtain ⟨w, -, e⟩ := Commit.map_some e
                cases e
                exact named_of_ids hcn (setData_ids _ _ _)
          · cases e
    | drop id =>
      simp only [hostCall, Option.some.injEq] at e
      unfold dropStore at e
      split at e
      · cases e; exact ih
      · split at e
        · cases e; exact ih
        · cases e
          have hsub : List.Sublist (({ h with stores := h.stores.filter fun s => decide (s.id ≠ id) } : Host).close) h.close :=
            List.Sublist.map _ List.filter_sublist
          exact ⟨fun s hs => ih.ids s (hsub.subset hs), List.Nodup.sublist (hsub.map _) ih.once⟩
    | receive w y c =>
      simp only [hostCall, Host.receive] at e
      split at e
      · cases e; exact ih
      · split at e
        · cases e; exact ih
        · obtain ⟨r, -, e⟩ := Commit.map_some e
          cases e
          exact named_of_ids ih (setData_ids _ _ _)
    | reopen =>
      rw [opened_close e]
      exact ih

/-! ### The command line -/

theorem named_put {db : Db} (h : Named db) (id : Uuid) (d : MemStore) : Named (Cli.put db id d) :=
  named_of_ids h (Cli.put_ids _ _ _)

theorem _root_.Ron.Spec.Used.named {v : Rdt.View} {hs : Hashing} {db : Db} (u : Used v hs db) : Named db := by
  induction u with
  | @init w st db hw e => 
    unfold Cli.init createReplica at e
    obtain ⟨o, ho, e1⟩ := Commit.bind_some e
    split at e1
    · cases e1
    · obtain ⟨r, -, e1⟩ := Commit.map_some e1
      cases e1
      refine named_of_ids (a := [(Uuid.NIL, newStore)]) ⟨fun s hs => ?_, by simp⟩ ?_
      · rw [List.mem_singleton.1 hs]; exact .inl rfl
      · rw [setData_ids, opened_close (st := o.1) ho]
  | @again w st db db' u hw e ih =>
    unfold Cli.init at e
    split at e
    · rename_i x heq
      cases heq
    · rename_i db0 heq
      cases heq
      split at e
      · split at e
        · cases e
        · simp only at e
          obtain ⟨o, ho, e⟩ := Commit.bind_some e
          split at e
          · cases e
          · obtain ⟨r, -, e⟩ := Commit.map_some e
            cases e
            refine named_of_ids ih ?_
            rw [setData_ids, opened_close (st := o.1) ho]
            rfl
      · cases e; exact ih
  | @run w st db db' args u hw hl ht e ih =>
    rcases Cli.run_cases u.inv.zero e with h | ⟨st0, h, h', a, rest, verb, -, -, ho, -, -, -, x⟩
    · rw [h]; exact ih
    · have hc : h.close = db := opened_close ho
      cases x with
      | same => rw [hc]; exact ih
      | drop id hv hn =>
        rw [hc]
        exact ⟨fun s hs => ih.ids s (List.mem_filter.1 hs).1, ih.once.sublist (List.Sublist.map _ List.filter_sublist)⟩
      | put k f hok hf hk => rw [hc]; exact named_put ih _ _
      | @create _ h1 m f g hv hok hr hm => exact named_put (named_create (by rw [hc]; exact ih) hr) _ _

end Ron.Families
