import Verif.Lemmas.Names
import Verif.Props.Lifecycle
/-!
Property of the names of versions: C67.
-/
namespace Ron.Props
open Ron Spec Host Commit

/-! ## C67 — a name that was given can be read -/

/-- A name that was given stands for what it was given to; the other names stand for what they stood
for before. -/
def C67_claim : Prop := ∀ (v : Rdt.View) (hs : Hashing) (h h' : Host) (wall : Word) (id name value : Uuid) (st : Status)
  (before : Names), Lived (Rdt.mergeCursors v) hs Careful h → wall.toNat < NEVER.toNat →
  h.readNames (Rdt.mergeCursors v) hs wall id = some (Status.OK, before) →
  h.writeName (Rdt.mergeCursors v) hs wall id name value = (st, h') → st.ok = true →
  ∃ after, h'.readNames (Rdt.mergeCursors v) hs wall id = some (Status.OK, after) ∧ after name = some value ∧
    ∀ other, other ≠ name → after other = before other

/-- A branch in which a version is named; the replica is reopened. -/
def frameN (name : Uuid) : HostCall := frameA [op2 NAME_UUID (formUuid Form.ZERO) [.uuid name]]
def host8 : Host := act (act host2 (frameN (formUuid Form.RGA))) .reopen
def named (h : Host) (name value : Uuid) : Status × Host := h.writeName mg6 tHash 1002#64 (branchId yA) name value
def namesIn (h : Host) (x : Uuid) : Option Uuid :=
  ((h.readNames mg6 tHash 1002#64 (branchId yA)).getD (Status.BAD_STATE, fun _ => none)).2 x
def namesSt (h : Host) : Status :=
  ((h.readNames mg6 tHash 1002#64 (branchId yA)).getD (Status.BAD_STATE, fun _ => none)).1

theorem lived8 : Lived mg6 tHash Careful host8 := by
  refine lived_act (lived_act lived2 ?_ (by decide +kernel)) trivial (by decide +kernel)
  intro s hs
  left
  have : (host2.find (branchId yA)).map OpenStore.tip = some (evA 1001) := by decide +kernel
  rw [hs] at this
  rw [Option.some.inj (this : some s.tip = some (evA 1001))]
  decide

/-- A version is named, the replica is reopened, and in the same second an object is named: both
names are given with the same stamp, and the first one is gone. -/
theorem C67_violated : ¬ C67_claim := by
  intro h
  have e1 : (host8.readNames mg6 tHash 1002#64 (branchId yA)).map Prod.fst = some Status.OK := by decide +kernel
  match e : host8.readNames mg6 tHash 1002#64 (branchId yA) with
  | none => rw [e] at e1; cases e1
  | some (st, before) =>
    rw [e] at e1
    obtain rfl : st = Status.OK := Option.some.inj e1
    have e2 : before (formUuid Form.RGA) = some (evA 1001) := by
      have : namesIn host8 (formUuid Form.RGA) = some (evA 1001) := by decide +kernel
      unfold namesIn at this
      rw [e] at this
      exact this
    obtain ⟨after, h1, -, h2⟩ := h tView tHash host8 (named host8 (formUuid Form.LWW) (evA 5)).2 1002#64 (branchId yA)
      (formUuid Form.LWW) (evA 5) (named host8 (formUuid Form.LWW) (evA 5)).1 before lived8 (by decide) e rfl
      (by decide +kernel)
    have e3 : after (formUuid Form.RGA) = none := by
      have : namesIn (named host8 (formUuid Form.LWW) (evA 5)).2 (formUuid Form.RGA) = none := by decide +kernel
      unfold namesIn at this
      rw [show readNames mg6 tHash 1002#64 _ (branchId yA) = _ from h1] at this
      exact this
    have := h2 (formUuid Form.RGA) (by decide)
    rw [e2, e3] at this
    cases this

/-- A name is given: the call is accepted, and so is the frame. -/
theorem C67_accepted (mg : Reducer) (hs : Hashing) (h : Host) (wall : Word) (id name value : Uuid) (s : OpenStore)
    (hf : h.find id = some s) :
    (h.writeName mg hs wall id name value).1.ok = true ∧
    ∀ (yarn : Word) (o : AOp) (fin : Status) (rest : List AVal), id = branchId yarn → o.id = NAME_UUID →
      o.vals = .uuid name :: rest → name.version = Uuid.vNAME →
      h.receive mg hs wall yarn ⟨[o], fin, true⟩ = some (Status.OK, (h.writeName mg hs wall id name s.tip).2) := by
  constructor
  · unfold Host.writeName
    rw [hf]
    simp only
    rw [(putName_eq _ _ name value).1]
    exact Uuid.time_ok (Uuid.time_version _ _)
  · intro yarn o fin rest hi ho hv hn
    subst hi
    unfold Host.receive Host.writeName
    have hne : h.stores.isEmpty = false := by
      have := (find_some hf).1
      match hst : h.stores with
      | [] => rw [hst] at this; cases this
      | _ :: _ => rfl
    rw [hne, hf]
    simp only [Bool.false_eq_true, if_false]
    rw [receive_name ho hv hn]
    rfl

/-- Names that were given with stamps later than those of the names before them are all read: every
name stands for what it was given to last. Missing from the claim: names given with stamps that are
not later, as after reopening. -/
theorem C67_names_partial (v : Rdt.View) (hs : Hashing) (id : Uuid) (h h' : Host) (s : OpenStore)
    (given : List (Uuid × Uuid)) (hf : h.find id = some s) (hk : KeyOrder s.data) (hn : IdSorted (namesOf s.data))
    (hr : Naming (Rdt.mergeCursors v) hs id h given h') (wall : Word) :
    h'.readNames (Rdt.mergeCursors v) hs wall id =
      some (Status.OK, lastNamed (givenIn (namesOf s.data) ++ given)) := by
  have key : ∃ s', h'.find id = some s' ∧ KeyOrder s'.data ∧ IdSorted (namesOf s'.data) ∧
      givenIn (namesOf s'.data) = givenIn (namesOf s.data) ++ given := by
    induction hr with
    | none => exact ⟨s, hf, hk, hn, (List.append_nil _).symm⟩
    | @call h' given s1 wall name value _ hf1 later ih =>
      obtain ⟨s', g1, g2, g3, g4⟩ := ih
      rw [hf1] at g1
      cases g1
      have hi := (find_some hf1).2
      have q := putName_names (env := h'.env (Rdt.mergeCursors v) hs wall) (tip := s1.tip) g2 g3 later name value
      refine ⟨{ s1 with data := (putName (h'.env (Rdt.mergeCursors v) hs wall) (start s1.data s1.tip h'.now) name value).2.main },
        ?_, q.1, q.2.1, ?_⟩
      · unfold Host.writeName
        rw [hf1]
        simp only
        have q' := find_setData_same hf1 (putName (h'.env (Rdt.mergeCursors v) hs wall) (start s1.data s1.tip h'.now) name value).2.main
        rw [← hi] at q'
        rw [← hi]
        exact q'
      · rw [q.2.2, g4, List.append_assoc]
    | @frame h' h'' given s1 st wall yarn o fin name rest _ hf1 hi later ho hv hnm he ih =>
      obtain ⟨s', g1, g2, g3, g4⟩ := ih
      rw [hf1] at g1
      cases g1
      have hi2 := (find_some hf1).2
      have q := putName_names (env := h'.env (Rdt.mergeCursors v) hs wall) (tip := s1.tip) g2 g3 later name s1.tip
      have he2 := (C67_accepted (Rdt.mergeCursors v) hs h' wall id name s1.tip s1 hf1).2 yarn o fin rest hi ho hv hnm
      rw [he] at he2
      cases he2
      refine ⟨{ s1 with data := (putName (h'.env (Rdt.mergeCursors v) hs wall) (start s1.data s1.tip h'.now) name s1.tip).2.main },
        ?_, q.1, q.2.1, ?_⟩
      · unfold Host.writeName
        rw [hf1]
        simp only
        have q' := find_setData_same hf1 (putName (h'.env (Rdt.mergeCursors v) hs wall) (start s1.data s1.tip h'.now) name s1.tip).2.main
        rw [← hi2] at q'
        rw [← hi2]
        exact q'
      · rw [q.2.2, g4, List.append_assoc]
    | other _ hf1 hf2 hk2 hsame ih =>
      obtain ⟨s', g1, g2, g3, g4⟩ := ih
      rw [hf1] at g1
      cases g1
      exact ⟨_, hf2, hk2, by rw [hsame]; exact g3, by rw [hsame]; exact g4⟩
  obtain ⟨s', g1, g2, g3, g4⟩ := key
  unfold Host.readNames
  rw [g1]
  simp only
  obtain ⟨c, hc⟩ := readNames_start v (env := h'.env (Rdt.mergeCursors v) hs wall) rfl s'.tip h'.now g3
  rw [hc, g4]
  rfl

/-- Within a session the stamps are later: if no name is later than the clock shows, then the next
one is given with a later stamp, and still no name is later than the clock shows. -/
theorem C67_session (mg : Reducer) (hs : Hashing) (h : Host) (id : Uuid) (s : OpenStore) (wall : Word)
    (hf : h.find id = some s) (hk : KeyOrder s.data) (hnow : h.now.toNat < NEVER.toNat)
    (hle : ∀ o ∈ namesOf s.data, o.id.value.toNat ≤ h.now.toNat) :
    (∀ o ∈ namesOf s.data, o.id.value.toNat < (clockNow h.now wall 0#64).1.toNat) ∧
    ∀ name value, ∃ s', (h.writeName mg hs wall id name value).2.find id = some s' ∧
      ∀ o ∈ namesOf s'.data, o.id.value.toNat ≤ (h.writeName mg hs wall id name value).2.now.toNat := by
  have hlt : h.now.toNat < (clockNow h.now wall 0#64).1.toNat := by
    have hN : NEVER.toNat < 2 ^ 60 := by decide
    unfold clockNow Word.inc
    simp only
    split
    · assumption
    · rw [BitVec.toNat_add]
      simp only [BitVec.toNat_ofNat]
      omega
  refine ⟨fun o ho => Nat.lt_of_le_of_lt (hle o ho) hlt, fun name value => ?_⟩
  have hi := (find_some hf).2
  unfold Host.writeName
  rw [hf]
  simp only
  rw [hi]
  refine ⟨_, find_setData_same hf _, ?_⟩
  simp only [(putName_eq _ _ name value).2]
  intro o ho
  have e := namesOf_insert hk
    ⟨((start s.data s.tip h.now).hostNow (h.env mg hs wall)).1, Uuid.NIL, [.uuid name, .uuid value], .raw⟩
  have ho' : o ∈ namesOf (MemStore.insert NAMES _ s.data) := ho
  rw [e] at ho'
  show o.id.value.toNat ≤ (clockNow h.now wall 0#64).1.toNat
  rcases List.mem_append.1 ho' with ho | ho
  · exact Nat.le_of_lt (Nat.lt_of_le_of_lt (hle o ho) hlt)
  · rw [List.mem_singleton.1 ho]
    exact Nat.le_refl _

/-- In a frame, a name is given to the last event that was accepted: to the tip of the commit as it is then, not to the
one the frame began with. -/
theorem C67_tip (env : Env) (c : Commit) (o : AOp) (os : List AOp) (fin : Status) (name : Uuid) (rest : List AVal)
    (ho : o.id = NAME_UUID) (hv : o.vals = .uuid name :: rest) (hn : name.version = Uuid.vNAME) :
    ∃ st c' stamp, dispatch env c ⟨o :: os, fin, true⟩ = some (st, c', ⟨os, fin, true⟩) ∧ st.ok = true ∧
      c'.tip = c.tip ∧ c'.mem = c.mem ∧
      (KeyOrder c.main → namesOf c'.main = namesOf c.main ++ [⟨stamp, Uuid.NIL, [.uuid name, .uuid c.tip], .raw⟩]) := by
  have hd : dispatch env c ⟨o :: os, fin, true⟩ =
      some ((putName env c name c.tip).1, (putName env c name c.tip).2, ⟨os, fin, true⟩) := by
    unfold dispatch
    simp only [ho]
    rw [if_neg (by decide), if_neg (by decide), if_pos (by decide), if_neg (by decide), if_pos trivial]
    unfold Commit.writeName
    simp only [hv, hn, ne_eq, not_true_eq_false, if_false]
  refine ⟨_, _, (c.hostNow env).1, hd, ?_, ?_, ?_, ?_⟩
  · rw [(putName_eq env _ name c.tip).1]
    exact Uuid.time_ok (Uuid.time_version _ _)
  · rw [(putName_eq env _ name c.tip).2]; rfl
  · rw [(putName_eq env _ name c.tip).2]; rfl
  · intro hk
    rw [(putName_eq env _ name c.tip).2]
    exact namesOf_insert hk _

-- A frame with an event and a name for it.
example : namesIn (act host2 (frameA [op2 (evA 1002) (evA 1001), op2 NAME_UUID (formUuid Form.ZERO) [.uuid (formUuid Form.RGA)]]))
    (formUuid Form.RGA) = some (evA 1002) := by decide +kernel

/-- Two names given in one session, in a branch in which nothing had a name. -/
def host9 : Host := (named host2 (formUuid Form.LWW) (evA 5)).2
def host10 : Host := (named host9 (formUuid Form.RGA) (evA 6)).2
example : ∃ s, host2.find (branchId yA) = some s ∧ namesOf s.data = [] ∧
    Naming mg6 tHash (branchId yA) host2 [(formUuid Form.LWW, evA 5), (formUuid Form.RGA, evA 6)] host10 ∧
    namesIn host10 (formUuid Form.LWW) = some (evA 5) ∧ namesIn host10 (formUuid Form.RGA) = some (evA 6) := by
  have a1 : (host2.find (branchId yA)).isSome = true := by decide +kernel
  have a2 : (host9.find (branchId yA)).isSome = true := by decide +kernel
  obtain ⟨s, hs⟩ := Option.isSome_iff_exists.1 a1
  obtain ⟨t, ht⟩ := Option.isSome_iff_exists.1 a2
  have b1 : (host2.find (branchId yA)).map (fun s => namesOf s.data) = some [] := by decide +kernel
  have b2 : (host9.find (branchId yA)).map (fun s => (namesOf s.data).map fun o => o.id.value) = some [1002#64] := by
    decide +kernel
  rw [hs] at b1
  rw [ht] at b2
  have b1' : namesOf s.data = [] := Option.some.inj b1
  have b2' : (namesOf t.data).map (fun o => o.id.value) = [1002#64] := Option.some.inj b2
  refine ⟨s, hs, b1', ?_, by decide +kernel, by decide +kernel⟩
  refine .call (given := [(formUuid Form.LWW, evA 5)]) 1002#64 _ _ (.call (given := []) 1002#64 _ _ (.none _) hs ?_) ht ?_
  · rw [b1']; intro o ho; cases ho
  · intro o ho
    have : o.id.value ∈ (namesOf t.data).map (fun o => o.id.value) := List.mem_map_of_mem ho
    rw [b2', List.mem_singleton] at this
    rw [this]
    show _ < (clockNow host9.now 1002#64 0#64).1.toNat
    decide +kernel

end Ron.Props
