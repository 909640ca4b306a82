import Verif.Lemmas.RgaMerge
/-!
Which inputs `RGArrayRDT::Merge` takes in.
-/
namespace Ron
namespace Rdt
open Spec Heap

/-- A property of ops passed on along references holds for everything emitted. -/
theorem rgaLoop_inv (Q : AOp → Prop) : ∀ (fuel : Nat) (h w : List (Cur AOp)) (out : List AOp)
    (w' : List (Cur AOp)), total h + total w < fuel → IsHeap rgaLess h →
    rgaLoop fuel h w = some (out, w') → (∀ x ∈ flat h, Q x) →
    (∀ c ∈ w, ∀ x, Q x → c.1.ref = x.id → ∀ y ∈ c.1 :: c.2, Q y) →
    (∀ x ∈ out, Q x) ∧ ∀ c ∈ w, c ∈ w' ∨ ∃ x ∈ out, c.1.ref = x.id := by
  intro fuel
  induction fuel with
  | zero => intro h w out w' hf; omega
  | succ fuel ih =>
    intro h w out w' hf hh he hQ hw
    cases h with
    | nil =>
      unfold rgaLoop at he
      cases he
      exact ⟨by simp, fun c hc => .inl hc⟩
    | cons c t =>
      obtain ⟨h1, sk, e1, a1, a3, a4, a5⟩ := nextFrom_any (same := sameId) rgaOrder c.1
        (total (c :: t) + 1) (c :: t) (by simp) (by omega) hh
        (by intro c' t' e; cases e; exact same_refl _)
      have hlen := a3.length_eq
      rw [List.length_append, flat_length, flat_length] at hlen
      have hpos : 0 < sk.length := List.length_pos_iff.2 a5
      obtain ⟨h2, w2, e2, b1, b2, b3⟩ := attach_spec (fun o => decide (o.ref = c.1.id)) w h1 a1
      have ht := total_perm b2
      rw [total_append] at ht
      have htf := total_filter (fun o => decide (o.ref = c.1.id)) w
      unfold rgaLoop at he
      rw [e1] at he
      simp only [Option.bind_some, e2] at he
      cases e3 : rgaLoop fuel h2 w2 with
      | none => rw [e3] at he; cases he
      | some r =>
        rw [e3] at he
        simp only [Option.map_some, Option.some.injEq, Prod.mk.injEq] at he
        obtain ⟨rfl, rfl⟩ := he
        have hQc : Q c.1 := hQ c.1 (by simp [flat])
        have hQ2 : ∀ x ∈ flat h2, Q x := by
          intro x hx
          unfold flat at hx
          rw [List.mem_flatMap] at hx
          obtain ⟨d, hd, hxd⟩ := hx
          have := b2.mem_iff.1 hd
          rw [List.mem_append] at this
          rcases this with h | h
          · exact hQ x (a3.mem_iff.1 (List.mem_append_right _ (mem_flat h hxd)))
          · obtain ⟨hdw, hp⟩ := List.mem_filter.1 h
            exact hw d hdw c.1 hQc (of_decide_eq_true hp) x hxd
        obtain ⟨g1, g2⟩ := ih h2 w2 r.1 r.2 (by rw [b3]; omega) b1 e3 hQ2
          (fun d hd => hw d (by rw [b3] at hd; exact (List.mem_filter.1 hd).1))
        refine ⟨?_, ?_⟩
        · intro x hx
          simp only [List.mem_cons] at hx
          rcases hx with rfl | hx
          · exact hQc
          · exact g1 x hx
        · intro d hd
          by_cases hp : d.1.ref = c.1.id
          · exact .inr ⟨c.1, by simp, hp⟩
          · rcases g2 d (by rw [b3]; exact List.mem_filter.2 ⟨hd, by simp [hp]⟩) with h | ⟨x, hx, h⟩
            · exact .inl h
            · exact .inr ⟨x, by simp [hx], h⟩

theorem mem_valid {inputs : List (List AOp)} {c : Cur AOp} :
    c ∈ valid inputs ↔ c.1 :: c.2 ∈ inputs := by
  induction inputs with
  | nil => simp [valid]
  | cons i is ih =>
    cases i with
    | nil => simp [valid, ih]
    | cons o os =>
      simp only [valid, List.mem_cons, ih, List.cons.injEq]
      constructor
      · rintro (rfl | h)
        · exact .inl ⟨rfl, rfl⟩
        · exact .inr h
      · rintro (⟨h1, h2⟩ | h)
        · exact .inl (Prod.ext h1 h2)
        · exact .inr h

/-- An input is left out exactly if it does not hang together with the others. -/
theorem rgaMerge_attached (inputs : List (List AOp)) :
    ∃ out w, rgaMerge (valid inputs) = some (out, w) ∧ (∀ x ∈ out, x ∈ inputs.flatten) ∧
      ∀ o os, o :: os ∈ inputs → ((o, os) ∉ w ↔ Attached inputs (o :: os)) ∧
        ((o, os) ∉ w → ∀ y ∈ o :: os, ∃ x ∈ out, x.id = y.id) := by
  obtain ⟨out, w, e, h1, h2, h3⟩ := rgaMerge_any (valid inputs)
  refine ⟨out, w, e, fun x hx => by rw [← flat_valid]; exact h1 x hx, ?_⟩
  have all : ∀ c ∈ valid inputs, c ∉ w → ∀ y ∈ c.1 :: c.2, ∃ x ∈ out, x.id = y.id := fun c hc hw =>
    (h2 c hc).resolve_left hw
  cases hi : valid inputs with
  | nil =>
    intro o os ho
    have := (mem_valid (c := (o, os))).2 ho
    rw [hi] at this; simp at this
  | cons c0 cs0 =>
    have hm : ∃ m, minId (valid inputs) = some m := by rw [hi]; exact ⟨_, rfl⟩
    obtain ⟨m, hm⟩ := hm
    obtain ⟨⟨cm, hcm, em⟩, hleast⟩ := minId_spec _ m hm
    have he := e
    unfold rgaMerge at he
    rw [hm] at he
    simp only at he
    obtain ⟨hp2, w2, e2, b1, b2, b3⟩ := attach_spec (fun o => decide (o.id = m)) (valid inputs) []
      (by intro i _ a b ha; simp at ha)
    have ht := total_perm b2
    rw [List.nil_append] at ht b2
    have htf := total_filter (fun o => decide (o.id = m)) (valid inputs)
    rw [e2] at he
    simp only [Option.bind_some] at he
    -- ops of attached inputs
    let Q : AOp → Prop := fun x => ∃ j, Attached inputs j ∧ x ∈ j
    have hbase : ∀ c ∈ valid inputs, c.1.id = m → Attached inputs (c.1 :: c.2) := by
      intro c hc hid
      refine .least _ _ (mem_valid.1 hc) ?_
      intro p ps hp
      rw [hid]
      exact hleast (p, ps) (mem_valid.2 hp)
    obtain ⟨g1, g2⟩ := rgaLoop_inv Q (total (valid inputs) + 1) hp2 w2 out w
      (by rw [b3]; omega) b1 he
      (by
        intro x hx
        unfold flat at hx
        rw [List.mem_flatMap] at hx
        obtain ⟨d, hd, hxd⟩ := hx
        obtain ⟨hdi, hdp⟩ := List.mem_filter.1 (b2.mem_iff.1 hd)
        exact ⟨_, hbase d hdi (of_decide_eq_true hdp), hxd⟩)
      (by
        rintro c hc x ⟨j, hj, hx⟩ hr y hy
        rw [b3] at hc
        exact ⟨_, .ref c.1 c.2 j x hj hx (mem_valid.1 (List.mem_filter.1 hc).1) hr, hy⟩)
    -- a piece with the least id does not wait
    have hnw : ∀ c ∈ w, c.1.id ≠ m := by
      obtain ⟨out', w', e', _, _, _, k4⟩ := rgaLoop_any (total (valid inputs) + 1) hp2 w2
        (by rw [b3]; omega) b1
      rw [he] at e'
      simp only [Option.some.injEq, Prod.mk.injEq] at e'
      obtain ⟨rfl, rfl⟩ := e'
      intro c hc
      have := (k4 c hc).1
      rw [b3] at this
      simpa using (List.mem_filter.1 this).2
    intro o os ho
    have hov := (mem_valid (c := (o, os))).2 ho
    refine ⟨⟨fun hnot => ?_, fun hatt => ?_⟩, all (o, os) hov⟩
    · by_cases hid : o.id = m
      · exact hbase (o, os) hov hid
      · have hw2 : (o, os) ∈ w2 := by rw [b3]; exact List.mem_filter.2 ⟨hov, by simp [hid]⟩
        rcases g2 _ hw2 with h | ⟨x, hx, h⟩
        · exact absurd h hnot
        · obtain ⟨j, hj, hxj⟩ := g1 x hx
          exact .ref o os j x hj hxj ho h
    · -- by induction on the way the input is attached
      have : ∀ i, Attached inputs i → ∀ o os, i = o :: os → (o, os) ∉ w := by
        intro i hi
        induction hi with
        | least o os hmem hl =>
          intro o' os' e hw
          cases e
          refine hnw _ hw ?_
          have a := hl cm.1 cm.2 (mem_valid.1 hcm)
          have b := hleast _ ((mem_valid (c := (o, os))).2 hmem)
          rw [em] at a
          rcases uuid_lin.tri o.id m with h | h | h
          · rw [h] at b; cases b
          · exact h
          · rw [h] at a; cases a
        | ref o os j p hj hp hmem hr ih =>
          intro o' os' e hw
          cases e
          cases j with
          | nil => simp at hp
          | cons q qs =>
            have hjm : q :: qs ∈ inputs := by cases hj <;> assumption
            have hq := ih q qs rfl
            obtain ⟨x, hx, ex⟩ := all (q, qs) ((mem_valid (c := (q, qs))).2 hjm) hq p hp
            exact (h3 _ hw).2 x hx (ex.trans hr.symm)
      exact this _ hatt o os rfl

end Rdt
end Ron
