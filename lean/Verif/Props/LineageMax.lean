import Verif.Props.MaxStore
import Verif.Props.LineageSame
/-!
C102 for max registers.
-/
namespace Ron.Props
open Ron Rdt Spec Commit MemStore

/-- With two ops at least and no empty input, a cursor past the end is not looked at. -/
theorem last_ops {inputs : List (List AOp)} (hne : ∀ i ∈ inputs, i ≠ []) (h2 : 2 ≤ inputs.flatten.length) :
    ∃ x xs, (Rdt.maxRest inputs).getLast? = some (x :: xs) := by
  match inputs, h2 with
  | [i], h2 =>
    simp only [List.flatten_cons, List.flatten_nil, List.append_nil] at h2
    match i, h2 with
    | x :: y :: zs, _ =>
      simp only [Rdt.maxRest]
      split
      · exact ⟨y, zs, rfl⟩
      · exact ⟨x, y :: zs, rfl⟩
  | i :: j :: rest, _ => exact last_two hne (by simp)

theorem oneKind_same {a b : List AOp} (h : SameEvents a b) (k : OneKind b) : OneKind a := by
  rcases k with k | k
  · refine .inl fun o ho => ?_
    obtain ⟨x, hx, e⟩ := (h o.body).1 ⟨o, ho, rfl⟩
    have := k x hx
    unfold NumberOp at this ⊢
    rwa [show o.vals = x.vals from congrArg (·.2.2) e.symm]
  · refine .inr fun o ho => ?_
    obtain ⟨x, hx, e⟩ := (h o.body).1 ⟨o, ho, rfl⟩
    have := k x hx
    unfold UuidOp at this ⊢
    rwa [show o.vals = x.vals from congrArg (·.2.2) e.symm]

theorem highest_same {out a b : List AOp} (h : SameEvents a b) (g : Highest out a) : Highest out b := by
  refine ⟨fun o ho => ?_, fun x hx => ?_⟩
  · obtain ⟨y, hy, e⟩ := g.1 o ho
    obtain ⟨z, hz, e'⟩ := (h y.body).1 ⟨y, hy, rfl⟩
    exact ⟨z, hz, e'.trans e⟩
  · obtain ⟨y, hy, e⟩ := (h x.body).2 ⟨x, hx, rfl⟩
    obtain ⟨o, ho, hle⟩ := g.2 y hy
    refine ⟨o, ho, Nat.le_trans (Nat.le_of_eq ?_) hle⟩
    unfold height
    rw [show x.vals = y.vals from congrArg (·.2.2) e.symm]

/-- The state of a max register reads as the greatest of its updates, if it has any. -/
theorem C102_maximum_partial (v : Rdt.View) (H : List Chain) (note : Uuid → List Nat) (s : MemStore) (L : Lineage H)
    (K : Holds H note s) (c : Chain) (hc : c ∈ H) (hf : uuid2form c.rdt = Form.MAX)
    (hk : OneKind (eventsIn H c.object)) (h2 : 2 ≤ (eventsIn H c.object).length) :
    ∃ out, Engine.read (Rdt.mergeCursors v) s (Key.ofUuids c.object c.rdt) = some (Status.OK, out) ∧
      Highest out (eventsIn H c.object) := by
  have hform : (Key.ofUuids c.object c.rdt).form = Form.MAX := by rw [← hf]; exact form_mk _ _
  have hne : Key.ofUuids c.object c.rdt ≠ Key.END := key_ne_end (by rw [hf]; decide)
  have hb := state_bodies L K hc
  have hsome := state_some L K hc
  rw [← Rdt.withOps_flatten] at hb
  have hse := same_of_bodies hb
  have hlen : (withOps (Engine.operands s (Key.ofUuids c.object c.rdt))).flatten.length = (eventsIn H c.object).length := by
    have := congrArg List.length hb
    rwa [List.length_map, List.length_map] at this
  obtain ⟨x, xs, hl⟩ := last_ops (inputs := withOps (Engine.operands s (Key.ofUuids c.object c.rdt)))
    (fun i hi => (mem_withOps.1 hi).2) (by rw [hlen]; exact h2)
  obtain ⟨out, e, -, ho⟩ := highest_merge v _ (oneKind_same hse hk) x xs hl
  refine ⟨out, ?_, highest_same hse ho⟩
  unfold Engine.read
  rw [if_neg hne]
  split
  · rename_i h0
    rw [h0] at hsome; cases hsome
  · rw [hform, e]; rfl

theorem in_length {H G : List Chain} (L : Lineage H) (L' : Lineage G) (h : SameEvents (eventsOf H) (eventsOf G)) (obj : Uuid) :
    (eventsIn H obj).length = (eventsIn G obj).length := by
  have nd : ∀ {J : List Chain}, Lineage J → ((eventsIn J obj).map AOp.body).Nodup := by
    intro J L
    have := L.in_nodup obj
    rw [show (eventsIn J obj).map AOp.id = ((eventsIn J obj).map AOp.body).map (·.1) by rw [List.map_map]; rfl] at this
    exact List.Pairwise.of_map _ (fun a b h e => h (by rw [e])) this
  have := ((List.perm_ext_iff_of_nodup (nd L) (nd L')).2 fun b => by
    rw [List.mem_map, List.mem_map]
    exact L.objects_same L' h obj b).length_eq
  rwa [List.length_map, List.length_map] at this

/-- They read the same maxima. -/
theorem C102_maxima_partial (v v' : Rdt.View) (H G : List Chain) (note note' : Uuid → List Nat) (s t : MemStore)
    (L : Lineage H) (K : Holds H note s) (L' : Lineage G) (K' : Holds G note' t)
    (h : SameEvents (eventsOf H) (eventsOf G)) (c : Chain) (hc : c ∈ H) (hf : uuid2form c.rdt = Form.MAX)
    (hk : OneKind (eventsIn H c.object)) (h2 : 2 ≤ (eventsIn H c.object).length) :
    ∃ out out', Engine.read (Rdt.mergeCursors v) s (Key.ofUuids c.object c.rdt) = some (Status.OK, out) ∧
      Engine.read (Rdt.mergeCursors v') t (Key.ofUuids c.object c.rdt) = some (Status.OK, out') ∧
      Highest out (eventsIn H c.object) ∧ Highest out' (eventsIn H c.object) := by
  obtain ⟨d, hd, hdh⟩ := (Lineage.known_same h).1 ⟨c, hc, c.head, List.mem_cons_self, rfl⟩
  obtain ⟨e1, e2⟩ := L.agree L' h _ _ (Nat.lt_succ_self _) c hc d hd ⟨c.head, List.mem_cons_self, rfl⟩ hdh
  have hs := L.objects_same L' h c.object
  have h2' : 2 ≤ (eventsIn G c.object).length := by rw [← in_length L L' h]; exact h2
  obtain ⟨out, h1, h2⟩ := C102_maximum_partial v H note s L K c hc hf hk h2
  rw [e1] at h2'
  have hk' := oneKind_same (fun b => (hs b).symm) hk
  rw [e1] at hk'
  obtain ⟨out', g1, g2⟩ := C102_maximum_partial v' G note' t L' K' d hd (by rw [← e2]; exact hf) hk' h2'
  rw [← e1, ← e2] at g1
  rw [← e1] at g2
  exact ⟨out, out', h1, g1, h2, highest_same (fun b => (hs b).symm) g2⟩

theorem proper_max : Proper (op2 (evA 11) (formUuid Form.MAX)) [] ∧ Proper (op2 (evA 12) (evA 11) [.int 7]) [] ∧
    Proper (op2 (evA 13) (evA 11) [.int 5]) [] := by
  refine ⟨⟨?_, ?_, ?_, ?_, ?_, ?_, ?_⟩, ⟨?_, ?_, ?_, ?_, ?_, ?_, ?_⟩, ⟨?_, ?_, ?_, ?_, ?_, ?_, ?_⟩⟩ <;>
    (try unfold Stamp) <;> (try unfold ChainedTo) <;> (try unfold ChainedTo) <;> decide +kernel

example : ∃ H note s c, Lineage H ∧ Holds H note s ∧ c ∈ H ∧ uuid2form c.rdt = Form.MAX ∧ OneKind (eventsIn H c.object) ∧
    2 ≤ (eventsIn H c.object).length := by
  have f2 := fed_run fed_st1 (tip := Uuid.NIL) proper_max.1 (Or.inl rfl) (by decide +kernel)
  rw [if_pos (by decide +kernel)] at f2
  have f3 := fed_run f2 (tip := Uuid.NIL) proper_max.2.1 (Or.inl rfl) (by decide +kernel)
  rw [if_pos (by decide +kernel)] at f3
  have f4 := fed_run f3 (tip := Uuid.NIL) proper_max.2.2 (Or.inl rfl) (by decide +kernel)
  rw [if_pos (by decide +kernel)] at f4
  obtain ⟨H, note, e, L, K⟩ := C101_history _ _ _ f4
  simp only [fed1, List.cons_append, List.nil_append] at e
  have ho : ∀ o, (∃ c ∈ H, o ∈ c.ops) ↔
      o ∈ [[op2 (evA 10) (formUuid Form.YARN)], [op2 (evA 11) (formUuid Form.MAX)], [op2 (evA 12) (evA 11) [.int 7]],
        [op2 (evA 13) (evA 11) [.int 5]]].flatten := by
    intro o
    rw [← e, List.mem_flatten]
    constructor
    · rintro ⟨c, hc, ho⟩; exact ⟨_, List.mem_map.2 ⟨c, hc, rfl⟩, ho⟩
    · rintro ⟨l, hl, ho⟩
      obtain ⟨c, hc, rfl⟩ := List.mem_map.1 hl
      exact ⟨c, hc, ho⟩
  obtain ⟨c, hc, hx⟩ := (ho (op2 (evA 11) (formUuid Form.MAX))).2 (by simp)
  obtain ⟨d, hd, hy⟩ := (ho (op2 (evA 12) (evA 11) [.int 7])).2 (by simp)
  have hcc : c.object = evA 11 ∧ c.rdt = formUuid Form.MAX := by
    rcases L.cause c hc _ hx with ⟨-, h1, h2⟩ | ⟨h1, -⟩
    · exact ⟨h1, h2⟩
    · exact absurd h1 (by decide)
  have hdd : d.object = evA 11 := by
    rcases L.cause d hd _ hy with ⟨h1, -⟩ | ⟨-, -, d', hd', hh, h4, -⟩
    · exact absurd h1 (by decide)
    · have := L.unique hd' hc hh ⟨_, hx, rfl⟩
      rw [h4, this, hcc.1]
  refine ⟨H, note, _, c, L, K, hc, by rw [hcc.2]; decide, .inl fun o h => ?_, ?_⟩
  · obtain ⟨c', hc', -, hx'⟩ := Lineage.mem_in.1 h
    have := (ho o).1 ⟨c', hc', hx'⟩
    simp only [List.flatten_cons, List.flatten_nil, List.append_nil, List.mem_append, List.mem_singleton] at this
    rcases this with rfl | rfl | rfl | rfl
    · exact .inl rfl
    · exact .inl rfl
    · exact .inr (.inl ⟨_, _, rfl⟩)
    · exact .inr (.inl ⟨_, _, rfl⟩)
  · have m1 : op2 (evA 11) (formUuid Form.MAX) ∈ eventsIn H c.object := Lineage.mem_in.2 ⟨c, hc, rfl, hx⟩
    have m2 : op2 (evA 12) (evA 11) [.int 7] ∈ eventsIn H c.object :=
      Lineage.mem_in.2 ⟨d, hd, by rw [hdd, hcc.1], hy⟩
    match hl : eventsIn H c.object, m1, m2 with
    | [x], m1, m2 =>
      rw [List.mem_singleton] at m1 m2
      exact absurd (m1.trans m2.symm) (by decide)
    | x :: y :: l, _, _ => simp

end Ron.Props
