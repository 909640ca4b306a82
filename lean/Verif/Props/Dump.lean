import Verif.Lemmas.Dump
import Verif.Props.Cli
/-!
C90: the listing of a branch.
-/
namespace Ron.Props
open Ron Cli Host Spec

/-! ## C90 — a listing shows the whole branch -/

/-- A listing that is reported to be good is that of the store that was asked for, and it is whole. -/
def C90_claim : Prop := ∀ (v : Rdt.View) (hs : Hashing) (w : World) (h : Host) (args : Args) (st : Status)
  (l : List (Key × Frame)), Lived (Rdt.mergeCursors v) hs Careful h → Fair v hs w →
  dump w h args = some (st, l) → st.ok = true →
  ∃ b s, Asked w h args b ∧ h.find b = some s ∧ Listed (Rdt.mergeCursors v) s.data l ∧ Whole s.data l

/-- The branch of the yarn of the tests, `~+0000000007`, and an event of it, `1+0000000007`. -/
def nBranch : List Byte := [126, 43, 48, 48, 48, 48, 48, 48, 48, 48, 48, 55]
def nInside : List Byte := [49, 43, 48, 48, 48, 48, 48, 48, 48, 48, 48, 55]

/-- A record that can not be merged ends the listing, the status is `OK`. -/
theorem C90_violated : ¬ C90_claim := by
  intro h
  have k : ((dump (wAt 2000 1) host6e [nBranch]).any fun r => r.1.ok &&
      (UuidParser.parse nBranch).any (fun u => decide (u = branchId yA)) &&
      ((host6e.readNames mg6 tHash (BitVec.ofNat 64 2000) Uuid.NIL).all fun n => decide (n.2 (branchId yA) = none)) &&
      ((host6e.find (branchId yA)).any fun s => !(stored (Key.mk' (evA 1015) Form.RGA) s.data).isEmpty &&
        !((r.2.map Prod.fst).contains (Key.mk' (evA 1015) Form.RGA)))) = true := by decide +kernel
  match hq : dump (wAt 2000 1) host6e [nBranch] with
  | none => rw [hq] at k; cases k
  | some (st, l) =>
    rw [hq] at k
    simp only [Option.any_some, Bool.and_eq_true] at k
    obtain ⟨⟨⟨k1, k2⟩, k3⟩, k4⟩ := k
    obtain ⟨b, s, ⟨u, hu, hb⟩, hf, -, hw⟩ := h tView tHash (wAt 2000 1) host6e [nBranch] st l lived6 (fairAt _ _) hq k1
    rw [hu] at k2
    have eu : u = branchId yA := by simpa using k2
    subst eu
    have eb : branchId yA = b := by
      rcases hb with e | ⟨st', names, h1, -, h2⟩
      · exact e
      · rw [show host6e.readNames mg6 tHash (BitVec.ofNat 64 2000) Uuid.NIL = some (st', names) from h1] at k3
        have : names (branchId yA) = none := by simpa using k3
        rw [this] at h2
        cases h2
    subst eb
    rw [hf] at k4
    simp only [Option.any_some, Bool.and_eq_true, Bool.not_eq_true', List.isEmpty_eq_false_iff] at k4
    obtain ⟨f, hm⟩ := hw _ k4.1
    have : (l.map Prod.fst).contains (Key.mk' (evA 1015) Form.RGA) = true :=
      List.contains_iff_mem.2 (List.mem_map_of_mem (f := Prod.fst) hm)
    rw [this] at k4
    cases k4.2

/-- A branch can be asked for by any of its events elsewhere; here the assertion fails. -/
def C90_answers_claim : Prop := ∀ (v : Rdt.View) (hs : Hashing) (w : World) (h : Host) (a : List Byte) (u : Uuid),
  Lived (Rdt.mergeCursors v) hs Careful h → Fair v hs w → UuidParser.parse a = some u → u.version = Uuid.vTIME →
  h.has (branchId u.origin) = true → dump w h [a] ≠ none

theorem C90_answers_violated : ¬ C90_answers_claim := by
  intro h
  have k : ((UuidParser.parse nInside).any fun u => decide (u.version = Uuid.vTIME) && host6e.has (branchId u.origin) &&
      (dump (wAt 2000 1) host6e [nInside]).isNone) = true := by decide +kernel
  match hq : UuidParser.parse nInside with
  | none => rw [hq] at k; cases k
  | some u =>
    rw [hq] at k
    simp only [Option.any_some, Bool.and_eq_true, decide_eq_true_eq, Option.isNone_iff_eq_none] at k
    exact h tView tHash (wAt 2000 1) host6e nInside u lived6 (fairAt _ _) hq k.1.1 k.1.2 k.2

/-- What is listed is right: it is the store that was asked for, the keys come in order, each once, the frames are merged,
and no record before the last one listed is left out. What is left out begins with a record that can not be merged; so if
all of them can be, the listing is whole. Missing: the records after one that can not be merged. -/
theorem C90_listed_partial (v : Rdt.View) (hs : Hashing) (w : World) (h : Host) (args : Args) (st : Status)
    (l : List (Key × Frame)) (lv : Lived (Rdt.mergeCursors v) hs Careful h) (hw : Fair v hs w)
    (e : dump w h args = some (st, l)) (hok : st.ok = true) :
    ∃ b s, Asked w h args b ∧ h.find b = some s ∧ Listed (Rdt.mergeCursors v) s.data l ∧ UpTo s.data l ∧ l ≠ [] ∧
      ((∀ k, stored k s.data ≠ [] → ∃ f, MergedAt (Rdt.mergeCursors v) s.data k f) → Whole s.data l) := by
  unfold dump at e
  obtain ⟨b, hb, e⟩ := Commit.bind_some e
  split at e
  · rename_i hn
    cases e
    exact absurd hok hn
  · rename_i hn
    have hbok : b.1.ok = true := by simpa using hn
    split at e
    · cases e
    · rename_i s hf
      rw [hw.mg] at e
      obtain ⟨rest, h1, h2, h3, h4⟩ := dumpStore_some e
      have hsorted := (lv.sound.good s (find_some hf).1).sorted
      obtain ⟨p1, p2⟩ := listed_of hsorted h1 h2
      refine ⟨b.2.1, s, ?_, hf, p1, p2, h4 hok, fun hall => ?_⟩
      · match args, hb with
        | [], hb => rw [if_pos rfl] at hb; cases hb; rfl
        | a :: args, hb => rw [if_neg (by simp)] at hb; exact scanOn_asked hb hbok
      · intro k hk
        have hm := stored_ne.1 hk
        match rest, h1, h3 with
        | [], h1, _ =>
          rw [h1, List.append_nil] at hm
          obtain ⟨r, hr, rfl⟩ := List.mem_map.1 hm
          exact ⟨r.2, hr⟩
        | j :: rest, h1, h3 =>
          exact absurd (hall j (stored_ne.2 (by rw [h1]; simp))) (h3 j rfl)

/-- A store that is open is listed when its records can all be merged: the active one, and any other by its id. -/
theorem C90_answers_partial (v : Rdt.View) (hs : Hashing) (w : World) (h : Host) (args : Args) (s : OpenStore) (b : Uuid)
    (lv : Lived (Rdt.mergeCursors v) hs Careful h) (hw : Fair v hs w) (hf : h.find b = some s)
    (ha : (args = [] ∧ b = h.active) ∨ ∃ a rest y, args = a :: rest ∧ b = branchId y ∧
      UuidParser.parse a = some b)
    (hm : ∀ k, stored k s.data ≠ [] → ∃ f, MergedAt (Rdt.mergeCursors v) s.data k f) :
    ∃ l, dump w h args = some (Status.OK, l) ∧ Listed (Rdt.mergeCursors v) s.data l ∧ Whole s.data l := by
  have g := lv.sound.good s (find_some hf).1
  have hne : s.data ≠ [] := by
    obtain ⟨t, ht, -⟩ := g.tip
    intro hn
    rw [hn] at ht
    cases ht
  obtain ⟨l, h1, h2⟩ := dumpStore_all hne fun k hk => hm k (stored_ne.2 hk)
  obtain ⟨rest, q1, q2, -, -⟩ := dumpStore_some h1
  refine ⟨l, ?_, (listed_of g.sorted q1 q2).1, fun k hk => ?_⟩
  · unfold dump
    rcases ha with ⟨rfl, rfl⟩ | ⟨a, rest, y, rfl, hy, hp⟩
    · rw [if_pos rfl, Option.bind_some, if_neg (not_not_intro (show Status.OK.ok = true by decide))]
      simp only [hf, hw.mg]
      exact h1
    · have hh : h.has (branchId b.origin) = true := by
        rw [hy, branch_origin, ← hy]
        unfold Host.has
        rw [hf]
        rfl
      have hs : scanOn w h h.active (ON :: a :: rest) = some (Status.OK, b, rest) := by
        simp only [scanOn]
        rw [if_neg (by simp), hp]
        have hv : b.version = Uuid.vTIME := by rw [hy]; exact Uuid.time_version _ _
        have he : b.isError = false := by
          match hb : b.isError with
          | false => rfl
          | true =>
            have ho : b.origin = Word.MAX_VALUE := by simpa [Uuid.isError] using hb
            have : b.version = 0 := by unfold Uuid.version; rw [ho]; decide
            rw [this] at hv
            cases hv
        have hr : resolveName w h b CAMEL true = some (Status.OK, b) := by
          unfold resolveName
          rw [if_pos (by rw [hv]; decide)]
        show (if b.isError = true then _ else _) = _
        rw [he, if_neg (by simp), hr]
        show some (if ¬ Status.OK.ok = true then _ else if _ then _ else _) = _
        rw [if_neg (by decide), if_neg (by simp [hh])]
      rw [if_neg (by simp), hs, Option.bind_some, if_neg (not_not_intro (show Status.OK.ok = true by decide))]
      simp only [hf, hw.mg]
      exact h1
  · have := stored_ne.1 hk
    rw [← h2] at this
    obtain ⟨r, hr, rfl⟩ := List.mem_map.1 this
    exact ⟨r.2, hr⟩

/-- The records of a branch that merges are all listed, by the id of the branch; so are those of the main store. -/
example : ((dump (wAt 2000 1) host6b [nBranch]).any fun r => r.1.ok && (host6b.find (branchId yA)).any fun s =>
      decide (r.2.map Prod.fst = keys s.data) && decide (r.2.length = 8)) = true ∧
    ((dump (wAt 2000 1) host6b []).any fun r => r.1.ok && decide (r.2.length = 4)) = true ∧
    ((dump (wAt 2000 1) host6e [nBranch]).any fun r => r.1.ok && (host6e.find (branchId yA)).any fun s =>
      decide ((keys s.data).length = 13) && decide (r.2.length = 11)) = true := by decide +kernel

/-- All of the records of that branch can be merged. -/
example : ((host6b.find (branchId yA)).any fun s => (keys s.data).all fun k =>
    (mg6 k.form (withOps (stored k s.data))).any fun r => r.1.ok) = true := by decide +kernel

end Ron.Props
