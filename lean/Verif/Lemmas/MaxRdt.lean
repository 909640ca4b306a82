import Verif.Lemmas.MergeAny
/-!
`MaxRDT`.
-/
namespace Ron
namespace Rdt
open Heap Spec

theorem place_map (i : Nat) : ∀ (j : Nat) (l : List AOp), (place i j l).map (·.1) = l
  | _, [] => rfl
  | j, o :: os => by simp [place, place_map i (j + 1) os]

theorem places_map : ∀ (i : Nat) (l : List (List AOp)),
    (places i l).map (fun p => p.map (·.1)) = l
  | _, [] => rfl
  | i, x :: xs => by simp [places, place_map, places_map (i + 1) xs]

theorem scan_mem (v : View) : ∀ (ops : List Placed) (m : Placed),
    maxScan v m ops = m ∨ maxScan v m ops ∈ ops := by
  intro ops
  induction ops with
  | nil => intro m; exact .inl rfl
  | cons o os ih =>
    intro m
    show maxScan v (if maxLess v m o then o else m) os = m ∨ _
    rcases ih (if maxLess v m o then o else m) with h | h
    · by_cases hl : maxLess v m o = true
      · rw [if_pos hl] at h; right; rw [show maxScan v m (o :: os) = maxScan v (if maxLess v m o then o else m) os from rfl, if_pos hl, h]; simp
      · rw [if_neg hl] at h; left; rw [if_neg hl]; exact h
    · right; exact List.mem_cons_of_mem _ h

theorem scans_mem (v : View) : ∀ (ls : List (List Placed)) (m : Placed),
    ls.foldl (maxScan v) m = m ∨ ls.foldl (maxScan v) m ∈ ls.flatten := by
  intro ls
  induction ls with
  | nil => intro m; exact .inl rfl
  | cons l ls ih =>
    intro m
    rw [List.foldl_cons]
    rcases ih (maxScan v m l) with h | h
    · rw [h]
      rcases scan_mem v l m with h2 | h2
      · exact .inl h2
      · exact .inr (by simp [h2])
    · exact .inr (by simp only [List.flatten_cons, List.mem_append]; exact .inr h)

/-- Any comparison key that `maxLess` respects is maximal at the pick. -/
theorem scan_max (v : View) (P : Placed → Prop) (key : Placed → Nat)
    (hk : ∀ a b, P a → P b → if maxLess v a b then key a ≤ key b else key b ≤ key a) :
    ∀ (ops : List Placed) (m : Placed), P m → (∀ o ∈ ops, P o) →
    P (maxScan v m ops) ∧ key m ≤ key (maxScan v m ops) ∧
      ∀ o ∈ ops, key o ≤ key (maxScan v m ops) := by
  intro ops
  induction ops with
  | nil => intro m hm _; exact ⟨hm, Nat.le_refl _, by simp⟩
  | cons o os ih =>
    intro m hm ho
    have h0 := hk m o hm (ho o (by simp))
    show P (maxScan v (if maxLess v m o then o else m) os) ∧
      key m ≤ key (maxScan v (if maxLess v m o then o else m) os) ∧
      ∀ x ∈ o :: os, key x ≤ key (maxScan v (if maxLess v m o then o else m) os)
    by_cases hl : maxLess v m o = true
    · rw [if_pos hl] at h0 ⊢
      obtain ⟨a, b, c⟩ := ih o (ho o (by simp)) fun x hx => ho x (by simp [hx])
      refine ⟨a, Nat.le_trans h0 b, ?_⟩
      intro x hx
      simp only [List.mem_cons] at hx
      rcases hx with rfl | hx
      · exact b
      · exact c x hx
    · rw [if_neg hl] at h0 ⊢
      obtain ⟨a, b, c⟩ := ih m hm fun x hx => ho x (by simp [hx])
      refine ⟨a, b, ?_⟩
      intro x hx
      simp only [List.mem_cons] at hx
      rcases hx with rfl | hx
      · exact Nat.le_trans h0 b
      · exact c x hx

theorem scans_max (v : View) (P : Placed → Prop) (key : Placed → Nat)
    (hk : ∀ a b, P a → P b → if maxLess v a b then key a ≤ key b else key b ≤ key a) :
    ∀ (ls : List (List Placed)) (m : Placed), P m → (∀ o ∈ ls.flatten, P o) →
    key m ≤ key (ls.foldl (maxScan v) m) ∧
      ∀ o ∈ ls.flatten, key o ≤ key (ls.foldl (maxScan v) m) := by
  intro ls
  induction ls with
  | nil => intro m _ _; exact ⟨Nat.le_refl _, by simp⟩
  | cons l ls ih =>
    intro m hm ho
    obtain ⟨a, b, c⟩ := scan_max v P key hk l m hm fun o h => ho o (by simp [h])
    obtain ⟨d, e⟩ := ih (maxScan v m l) a fun o h => ho o (by
      rw [List.flatten_cons, List.mem_append]; exact .inr h)
    rw [List.foldl_cons]
    refine ⟨Nat.le_trans b d, fun o h => ?_⟩
    rw [List.flatten_cons, List.mem_append] at h
    rcases h with h | h
    · exact Nat.le_trans (c o h) d
    · exact e o h

/-- The ops `maxPick` looks at when no exhausted cursor is read. -/
theorem pick_spec (v : View) (ins : List (List Placed)) (last : Placed) (lasts : List Placed)
    (hl : ins.getLast? = some (last :: lasts)) :
    (∃ p ∈ ins.flatten, maxPick v ins = p.1) ∧
    ∀ (P : Placed → Prop) (key : Placed → Nat),
      (∀ a b, P a → P b → if maxLess v a b then key a ≤ key b else key b ≤ key a) →
      (∀ o ∈ ins.flatten, P o) →
      ∃ p ∈ ins.flatten, maxPick v ins = p.1 ∧ ∀ o ∈ ins.flatten, key o ≤ key p := by
  obtain ⟨ini, rfl⟩ : ∃ ini, ins = ini ++ [last :: lasts] := by
    rcases List.eq_nil_or_concat ins with h | ⟨ini, x, h⟩
    · rw [h] at hl; simp at hl
    · rw [List.concat_eq_append] at h
      rw [h, List.getLast?_concat] at hl
      cases hl
      exact ⟨ini, h⟩
  have hp : maxPick v (ini ++ [last :: lasts]) =
      ((lasts :: ini.reverse).foldl (maxScan v) last).1 := by
    unfold maxPick
    rw [List.getLast?_concat]
    simp only [List.dropLast_concat]
  have hmem : ∀ o, o ∈ (ini ++ [last :: lasts]).flatten ↔
      o = last ∨ o ∈ (lasts :: ini.reverse).flatten := by
    intro o
    simp only [List.flatten_append, List.mem_append, List.flatten_cons, List.mem_flatten,
      List.mem_reverse, List.flatten_nil, List.append_nil, List.mem_cons]
    constructor
    · rintro (h | h | h)
      · exact .inr (.inr h)
      · exact .inl h
      · exact .inr (.inl h)
    · rintro (h | h | h)
      · exact .inr (.inl h)
      · exact .inr (.inr h)
      · exact .inl h
  have hin : (lasts :: ini.reverse).foldl (maxScan v) last ∈ (ini ++ [last :: lasts]).flatten := by
    rw [hmem]
    rcases scans_mem v (lasts :: ini.reverse) last with h | h
    · exact .inl h
    · exact .inr h
  refine ⟨⟨_, hin, hp⟩, fun P key hk hP => ⟨_, hin, hp, fun o ho => ?_⟩⟩
  obtain ⟨a, b⟩ := scans_max v P key hk (lasts :: ini.reverse) last (hP _ ((hmem _).2 (.inl rfl)))
    fun o h => hP o ((hmem o).2 (.inr h))
  rcases (hmem o).1 ho with rfl | h
  · exact a
  · exact b o h

/-- The header, if `MaxRDT` writes it first. -/
def maxHeader : List (List AOp) → List AOp
  | (o :: _) :: _ => if o.ref = MAX_UUID then [o] else []
  | _ => []

/-- The ops of which `MaxRDT` keeps one. -/
def maxRest : List (List AOp) → List (List AOp)
  | (o :: os) :: rest => if o.ref = MAX_UUID then os :: rest else (o :: os) :: rest
  | x => x

/-- An exhausted cursor is read only if the last of the remaining inputs is empty. -/
theorem max_spec (v : View) (inputs : List (List AOp)) (x : AOp) (xs : List AOp)
    (hl : (maxRest inputs).getLast? = some (x :: xs)) :
    ∃ m, (max v ABuilder.empty inputs).release = punctuate (maxHeader inputs ++ [m]) ∧
      m ∈ (maxRest inputs).flatten ∧
      ∀ (P : AOp → Prop) (key : AOp → Nat),
        (∀ a b : Placed, P a.1 → P b.1 →
          if maxLess v a b then key a.1 ≤ key b.1 else key b.1 ≤ key a.1) →
        (∀ o ∈ (maxRest inputs).flatten, P o) → ∀ o ∈ (maxRest inputs).flatten, key o ≤ key m := by
  -- the general step
  have core : ∀ (ins : List (List Placed)) (rest : List (List AOp)),
      ins.map (fun p => p.map (·.1)) = rest → rest.getLast? = some (x :: xs) →
      maxPick v ins ∈ rest.flatten ∧
      ∀ (P : AOp → Prop) (key : AOp → Nat),
        (∀ a b : Placed, P a.1 → P b.1 →
          if maxLess v a b then key a.1 ≤ key b.1 else key b.1 ≤ key a.1) →
        (∀ o ∈ rest.flatten, P o) → ∀ o ∈ rest.flatten, key o ≤ key (maxPick v ins) := by
    intro ins rest he hl
    subst he
    rw [List.getLast?_map] at hl
    have hfl : ∀ o, o ∈ (ins.map (fun p => p.map (·.1))).flatten ↔ ∃ p ∈ ins.flatten, p.1 = o := by
      intro o
      rw [← List.map_flatten, List.mem_map]
    cases hg : ins.getLast? with
    | none => rw [hg] at hl; cases hl
    | some l =>
      rw [hg] at hl
      have hl := Option.some.inj hl
      cases l with
      | nil => cases hl
      | cons p ps =>
        obtain ⟨⟨q, hq, e⟩, h2⟩ := pick_spec v ins p ps hg
        refine ⟨(hfl _).2 ⟨q, hq, e.symm⟩, fun P key hk hP o ho => ?_⟩
        obtain ⟨q', hq', e', h3⟩ := h2 (fun a => P a.1) (fun a => key a.1) (fun a b ha hb => hk a b ha hb)
          (fun a ha => hP a.1 ((hfl _).2 ⟨a, ha, rfl⟩))
        obtain ⟨r, hr, rfl⟩ := (hfl o).1 ho
        rw [e']
        exact h3 r hr
  have hpl := places_map 0 inputs
  cases inputs with
  | nil => simp [maxRest] at hl
  | cons i rest =>
    cases i with
    | nil =>
      obtain ⟨h1, h2⟩ := core (places 0 ([] :: rest)) _ hpl hl
      exact ⟨_, rfl, h1, h2⟩
    | cons o os =>
      by_cases hr : o.ref = MAX_UUID
      · have e1 : maxRest ((o :: os) :: rest) = os :: rest := if_pos hr
        have e2 : maxHeader ((o :: os) :: rest) = [o] := if_pos hr
        rw [e1] at hl ⊢
        rw [e2]
        obtain ⟨h1, h2⟩ := core (place 0 1 os :: places 1 rest) (os :: rest)
          (by simp [place_map, places_map]) hl
        refine ⟨_, ?_, h1, h2⟩
        show (if o.ref = MAX_UUID then _ else _ : ABuilder).release = _
        rw [if_pos hr]; rfl
      · have e1 : maxRest ((o :: os) :: rest) = (o :: os) :: rest := if_neg hr
        have e2 : maxHeader ((o :: os) :: rest) = [] := if_neg hr
        rw [e1] at hl ⊢
        rw [e2]
        obtain ⟨h1, h2⟩ := core (places 0 ((o :: os) :: rest)) _ hpl hl
        refine ⟨_, ?_, h1, h2⟩
        show (if o.ref = MAX_UUID then _ else _ : ABuilder).release = _
        rw [if_neg hr]; rfl

end Rdt
end Ron
