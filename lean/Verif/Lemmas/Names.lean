import Verif.Spec.Names
import Verif.Lemmas.Lifecycle
import Verif.Lemmas.StoreRun
/-!
The record of names.
-/
namespace Ron
open Commit Spec Rdt

/-- Giving names one by one. -/
theorem addName_body {a b : AOp} (h : a.body = b.body) (n : Names) : addName n a = addName n b := by
  have : a.vals = b.vals := by injection h with _ h; injection h with _ h
  unfold addName
  rw [this]

theorem addNames_body : ∀ {a b : List AOp} (_ : a.map AOp.body = b.map AOp.body) (n : Names),
    a.foldl addName n = b.foldl addName n := by
  intro a
  induction a with
  | nil => intro b h n; cases b with | nil => rfl | cons x xs => cases h
  | cons x xs ih =>
    intro b h n
    cases b with
    | nil => cases h
    | cons y ys =>
      simp only [List.map_cons, List.cons.injEq] at h
      rw [List.foldl_cons, List.foldl_cons, addName_body h.1, ih h.2]

theorem lastNamed_snoc (g : List (Uuid × Uuid)) (k v x : Uuid) :
    lastNamed (g ++ [(k, v)]) x = if x = k then some v else lastNamed g x := by
  unfold lastNamed
  rw [List.filter_append]
  by_cases h : x = k
  · subst h; simp
  · rw [if_neg h, List.filter_cons_of_neg (by simpa using fun e => h e.symm)]; simp

/-- What an op says about names. -/
def nameIn (o : AOp) : Option (Uuid × Uuid) :=
  match o.vals with
  | [.uuid k, .uuid v] => some (k, v)
  | _ => none

theorem givenIn_eq (ops : List AOp) : givenIn ops = ops.filterMap nameIn := rfl

theorem addName_eq (n : Names) (o : AOp) : addName n o = match nameIn o with
    | some g => fun x => if x = g.1 then some g.2 else n x
    | none => n := by
  unfold addName nameIn
  rcases o with ⟨_, _, vals, _⟩
  rcases vals with _ | ⟨_ | _, _ | ⟨_ | _, _ | _⟩⟩ <;> rfl

theorem addNames_last (ops : List AOp) :
    ops.foldl addName (fun _ => none) = lastNamed (givenIn ops) := by
  rw [givenIn_eq, ← List.reverse_reverse ops]
  induction ops.reverse with
  | nil => rfl
  | cons o l ih =>
    rw [List.reverse_cons, List.foldl_append, ih, List.filterMap_append]
    show addName _ o = _
    rw [addName_eq]
    funext x
    cases hn : nameIn o with
    | none =>
      rw [List.filterMap_cons_none hn]
      simp
    | some g =>
      rw [List.filterMap_cons_some hn, List.filterMap_nil, lastNamed_snoc]

theorem idSorted_consistent {l : List AOp} (h : IdSorted l) : Consistent l := by
  intro a ha b hb e
  by_cases hab : a = b
  · rw [hab]
  · exfalso
    have irr : ∀ u : Uuid, Uuid.lt u u ≠ true := fun u => by simp [Uuid.lt]
    obtain ⟨i, hi, rfl⟩ := List.mem_iff_getElem.1 ha
    obtain ⟨j, hj, rfl⟩ := List.mem_iff_getElem.1 hb
    have hp := List.pairwise_iff_getElem.1 h
    rcases Nat.lt_trichotomy i j with hij | rfl | hij
    · exact irr _ (e ▸ hp i j hi hj hij)
    · exact hab rfl
    · exact irr _ (e ▸ hp j i hj hi hij)

/-- The record of names is read in full. -/
theorem names_read (v : View) {s : MemStore} (hn : IdSorted (namesOf s)) :
    ∃ out, Engine.read (mergeCursors v) s NAMES = some (Status.OK, out) ∧
      out.map AOp.body = (namesOf s).map AOp.body := by
  unfold Engine.read
  rw [if_neg (by decide)]
  have hk : NAMES.form = Form.LWW := by decide
  have hb : ById NAMES.form := Or.inl hk
  match hops : Engine.operands s NAMES with
  | [] =>
    refine ⟨[], rfl, ?_⟩
    have : namesOf s = [] := by
      show (Engine.operands s NAMES).flatten = []
      rw [hops]; rfl
    rw [this]
  | f :: fs =>
    have e : namesOf s = (f :: fs).flatten := by
      show (Engine.operands s NAMES).flatten = _
      rw [hops]
    rw [e] at hn ⊢
    simp only
    rw [mergeCursors_withOps v hb]
    obtain ⟨out, h1, h2, h3, -⟩ := merge_id_same v hb (f :: fs)
      (fun i hi => hn.sublist (List.sublist_flatten_of_mem hi)) (idSorted_consistent hn)
    rw [h1]
    have hok : Status.OK.ok = true := by decide
    exact ⟨out, by simp [hok], sorted_unique _ _ h2 hn h3⟩

theorem readNames_start (v : View) {env : Env} (he : env.mg = mergeCursors v) {s : MemStore} (tip : Uuid) (now : Word)
    (hn : IdSorted (namesOf s)) :
    ∃ c, readNames env (start s tip now) = some (Status.OK, lastNamed (givenIn (namesOf s)), c) := by
  obtain ⟨out, h1, h2⟩ := names_read v hn
  have hok : Status.OK.ok = true := by decide
  have hr : Commit.read env (start s tip now) NAMES [] = some (Status.OK, out, start s tip now) := by
    unfold Commit.read
    have : (start s tip now).main = s := rfl
    rw [he, this, h1]
    have hm : MemStore.read (mergeCursors v) (start s tip now).mem NAMES [] = some (Status.OK, [], []) := rfl
    simp only [Option.bind_some, hok, not_true_eq_false, if_false, hm]
    split
    · rename_i h0
      subst h0
      rfl
    · rfl
  refine ⟨start s tip now, ?_⟩
  unfold readNames getFrame
  rw [if_neg (by decide)]
  show (Commit.read env (start s tip now) NAMES []).map _ = _
  rw [hr]
  simp only [Option.map_some, hok, not_true_eq_false, if_false]
  rw [addNames_body h2, addNames_last]

/-- A name put into a store. -/
theorem putName_eq (env : Env) (c : Commit) (key value : Uuid) :
    (putName env c key value).1 = ⟨(c.hostNow env).1, []⟩ ∧ (putName env c key value).2 =
      { (c.hostNow env).2 with
        main := MemStore.insert NAMES [⟨(c.hostNow env).1, Uuid.NIL, [.uuid key, .uuid value], .raw⟩] c.main } := by
  unfold putName Engine.write
  have hne : ¬ (Key.mk' Uuid.NIL Form.LWW = Key.END) := by decide
  have hok : Status.OK.ok = true := by decide
  simp only [hne, false_and, if_false, hok, if_true]
  exact ⟨trivial, rfl⟩

theorem namesOf_insert {s : MemStore} (hs : KeyOrder s) (o : AOp) :
    namesOf (MemStore.insert NAMES [o] s) = namesOf s ++ [o] := by
  unfold namesOf
  have := MemStore.insert_recs hs NAMES NAMES [o]
  rw [if_pos rfl] at this
  show (MemStore.recs NAMES _).flatten = _
  rw [this]
  simp [NAMES]

theorem givenIn_snoc (l : List AOp) (i r k v : Uuid) (t : Term) :
    givenIn (l ++ [⟨i, r, [.uuid k, .uuid v], t⟩]) = givenIn l ++ [(k, v)] := by
  unfold givenIn
  rw [List.filterMap_append]
  rfl

/-- The stamp of a name does not depend on the yarn but for its origin. -/
theorem hostNow_value (env : Env) (c : Commit) : (c.hostNow env).1.value = (clockNow c.now env.wall 0#64).1 := rfl

/-- A store after a name was put into it. -/
theorem putName_names {env : Env} {s : MemStore} {tip : Uuid} {now : Word} (hs : KeyOrder s) (hn : IdSorted (namesOf s))
    (hl : ∀ o ∈ namesOf s, o.id.value.toNat < (clockNow now env.wall 0#64).1.toNat) (key value : Uuid) :
    KeyOrder (putName env (start s tip now) key value).2.main ∧
    IdSorted (namesOf (putName env (start s tip now) key value).2.main) ∧
    givenIn (namesOf (putName env (start s tip now) key value).2.main) = givenIn (namesOf s) ++ [(key, value)] := by
  rw [(putName_eq env _ key value).2]
  refine ⟨MemStore.insert_sorted hs _ _, ?_, ?_⟩
  · show IdSorted (namesOf (MemStore.insert NAMES _ s))
    rw [namesOf_insert hs]
    refine List.pairwise_append.2 ⟨hn, List.pairwise_singleton _ _, ?_⟩
    intro a ha b hb
    rw [List.mem_singleton.1 hb]
    have := hl a ha
    unfold Uuid.lt
    rw [Bool.or_eq_true]
    left
    exact decide_eq_true this
  · show givenIn (namesOf (MemStore.insert NAMES _ s)) = _
    rw [namesOf_insert hs, givenIn_snoc]

/-- A frame of one command. -/
theorem receiveLoop_one {env : Env} {fuel : Nat} {c : Commit} {cur cur' : ACur} {p : Status × Commit}
    (hv : cur.valid = true) (hd : dispatch env c cur = some (p.1, p.2, cur')) (hok : p.1.ok = true)
    (hv' : cur'.valid = false) : receiveLoop env (fuel + 1) c cur = some p := by
  simp [receiveLoop, hv, hd, hok, hv']

/-- A frame of one naming command. -/
theorem receive_name {env : Env} {s : MemStore} {tip : Uuid} {now : Word} {o : AOp} {fin : Status} {name : Uuid}
    {rest : List AVal} (ho : o.id = NAME_UUID) (hv : o.vals = .uuid name :: rest) (hn : name.version = Uuid.vNAME) :
    receive env s tip now ⟨[o], fin, true⟩ = some (Status.OK,
      (putName env (start s tip now) name tip).2.main, (putName env (start s tip now) name tip).2.now) := by
  have hd : dispatch env (start s tip now) ⟨[o], fin, true⟩ =
      some ((putName env (start s tip now) name tip).1, (putName env (start s tip now) name tip).2, ⟨[], fin, true⟩) := by
    unfold dispatch
    simp only [ho]
    rw [if_neg (by decide), if_neg (by decide), if_pos (by decide), if_neg (by decide), if_pos trivial]
    unfold writeName
    simp only [hv, hn, ne_eq, not_true_eq_false, if_false]
    rfl
  have hst : ((putName env (start s tip now) name tip).1).ok = true := by
    rw [(putName_eq env _ name tip).1]
    exact Uuid.time_ok (Uuid.time_version _ _)
  have hval : (⟨[o], fin, true⟩ : ACur).valid = true := rfl
  have hval2 : (⟨[], fin, true⟩ : ACur).valid = false := rfl
  have htip : (putName env (start s tip now) name tip).2.tip = tip := by rw [(putName_eq env _ name tip).2]; rfl
  have hbase : (putName env (start s tip now) name tip).2.base = tip := by rw [(putName_eq env _ name tip).2]; rfl
  have hsave : save (putName env (start s tip now) name tip).2 = (Status.OK, (putName env (start s tip now) name tip).2) := by
    unfold save
    rw [htip, hbase, if_pos rfl]
  revert hst hd hsave
  generalize putName env (start s tip now) name tip = p
  intro hd hst hsave
  unfold receive
  rw [receiveLoop_one hval hd hst hval2, Option.map_some, if_neg (fun h => h hst)]
  simp only [hsave]

end Ron
