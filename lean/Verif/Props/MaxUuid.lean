import Verif.Props.Merge
import Verif.Lemmas.Converge
/-!
C34 for values that are UUIDs and for ops without values.
-/
namespace Ron.Props
open Ron Rdt Spec

theorem rank_le {a b : Uuid} (h : Uuid.lt a b = false) : b.rank ≤ a.rank := by
  unfold Uuid.rank
  unfold Uuid.lt at h
  simp only [Bool.or_eq_false_iff, Bool.and_eq_false_iff, decide_eq_false_iff_not] at h
  have h1 := a.origin.isLt
  have h2 := b.origin.isLt
  have h3 : a.value.toNat = b.value.toNat → a.value = b.value := BitVec.eq_of_toNat_eq
  rcases h with ⟨h4, h5 | h5⟩
  · have : a.value.toNat ≠ b.value.toNat := fun e => h5 (h3 e)
    omega
  · by_cases e : a.value.toNat = b.value.toNat
    · omega
    · omega

theorem max_out (v : View) (inputs : List (List AOp)) {m : AOp}
    (e : (Rdt.max v ABuilder.empty inputs).release = punctuate (maxHeader inputs ++ [m])) :
    ∃ out m', mergeCursors v Form.MAX inputs = some (Status.OK, out) ∧ m' ∈ out ∧ m'.body = m.body := by
  obtain ⟨m', hm', hb⟩ : ∃ m' ∈ punctuate (maxHeader inputs ++ [m]), m'.body = m.body :=
    mem_body (punctuate_body _).symm (by simp)
  refine ⟨_, m', ?_, hm', hb⟩
  show some (Status.OK, if Status.OK.ok then (Rdt.max v ABuilder.empty inputs).release else []) = _
  rw [show Status.OK.ok = true by decide, if_pos rfl, e]

theorem last_of {inputs : List (List AOp)} (hne : ∀ i ∈ inputs, i ≠ []) (h0 : inputs ≠ []) :
    ∃ x xs, inputs.getLast? = some (x :: xs) := by
  rcases List.eq_nil_or_concat inputs with h | ⟨ini, l, h⟩
  · exact absurd h h0
  · rw [List.concat_eq_append] at h
    cases l with
    | nil => exact absurd rfl (hne [] (by rw [h]; simp))
    | cons x xs => exact ⟨x, xs, by rw [h, List.getLast?_concat]⟩

theorem rest_plain {inputs : List (List AOp)} (hr : ∀ o ∈ inputs.flatten, o.ref ≠ MAX_UUID) :
    maxRest inputs = inputs := by
  cases inputs with
  | nil => rfl
  | cons i rest =>
    cases i with
    | nil => rfl
    | cons x xs =>
      simp only [maxRest]
      rw [if_neg (hr x (by simp))]

/-- Updates that write UUIDs: an op with the greatest one is kept, whatever the order of the inputs. The
frames of updates have no header here. -/
theorem C34_uuids_partial (v : View) (inputs : List (List AOp)) (hne : ∀ i ∈ inputs, i ≠ []) (h0 : inputs ≠ [])
    (hr : ∀ o ∈ inputs.flatten, o.ref ≠ MAX_UUID)
    (hu : ∀ o ∈ inputs.flatten, ∃ x r, o.vals = .uuid x :: r) :
    ∃ out m x r, mergeCursors v Form.MAX inputs = some (Status.OK, out) ∧ m ∈ out ∧ m.vals = .uuid x :: r ∧
      (∃ o ∈ inputs.flatten, o.body = m.body) ∧
      ∀ o ∈ inputs.flatten, ∀ y r', o.vals = .uuid y :: r' → Uuid.lt x y = false := by
  obtain ⟨z, zs, hlast⟩ := last_of hne h0
  rw [← rest_plain hr] at hlast
  obtain ⟨m, e, hm, hmax⟩ := max_spec v inputs z zs hlast
  rw [rest_plain hr] at hm hmax
  let key : AOp → Nat := fun o => match o.vals with
    | .uuid x :: _ => x.rank
    | _ => 0
  have hkey := hmax (fun o => ∃ x r, o.vals = .uuid x :: r) key (by
    rintro a b ⟨x, r, ha⟩ ⟨y, r', hb⟩
    have ka : key a.1 = x.rank := by simp [key, ha]
    have kb : key b.1 = y.rank := by simp [key, hb]
    have hl : maxLess v a b = Uuid.lt x y := by simp only [maxLess, ha, hb, rawLess]
    rw [ka, kb, hl]
    cases h : Uuid.lt x y
    · rw [if_neg (by decide)]; exact rank_le h
    · rw [if_pos rfl]; exact Nat.le_of_lt (Uuid.rank_lt h)) hu
  obtain ⟨out, m', e', hm', hb⟩ := max_out v inputs e
  obtain ⟨x, r, hx⟩ := hu m hm
  have hv : m'.vals = .uuid x :: r := by rw [← hx]; exact congrArg (·.2.2) hb
  refine ⟨out, m', x, r, e', hm', hv, ⟨m, hm, hb.symm⟩, fun o ho y r' hy => ?_⟩
  have := hkey o ho
  have ko : key o = y.rank := by simp [key, hy]
  have km : key m = x.rank := by simp [key, hx]
  rw [ko, km] at this
  cases h : Uuid.lt x y
  · rfl
  · have := Uuid.rank_lt h; omega

/-- Updates without values: the latest is kept. -/
theorem C34_empty_partial (v : View) (inputs : List (List AOp)) (hne : ∀ i ∈ inputs, i ≠ []) (h0 : inputs ≠ [])
    (hr : ∀ o ∈ inputs.flatten, o.ref ≠ MAX_UUID) (hu : ∀ o ∈ inputs.flatten, o.vals = []) :
    ∃ out m, mergeCursors v Form.MAX inputs = some (Status.OK, out) ∧ m ∈ out ∧
      (∃ o ∈ inputs.flatten, o.body = m.body) ∧ ∀ o ∈ inputs.flatten, Uuid.lt m.id o.id = false := by
  obtain ⟨z, zs, hlast⟩ := last_of hne h0
  rw [← rest_plain hr] at hlast
  obtain ⟨m, e, hm, hmax⟩ := max_spec v inputs z zs hlast
  rw [rest_plain hr] at hm hmax
  have hkey := hmax (fun o => o.vals = []) (fun o => o.id.rank) (by
    intro a b ha hb
    have hl : maxLess v a b = Uuid.lt a.1.id b.1.id := by simp only [maxLess, ha, hb, Uuid.gt]
    rw [hl]
    cases h : Uuid.lt a.1.id b.1.id
    · rw [if_neg (by decide)]; exact rank_le h
    · rw [if_pos rfl]; exact Nat.le_of_lt (Uuid.rank_lt h)) hu
  obtain ⟨out, m', e', hm', hb⟩ := max_out v inputs e
  refine ⟨out, m', e', hm', ⟨m, hm, hb.symm⟩, fun o ho => ?_⟩
  have := hkey o ho
  have hid : m'.id = m.id := congrArg (·.1) hb
  rw [hid]
  cases h : Uuid.lt m.id o.id
  · rfl
  · have := Uuid.rank_lt h; omega

private def u (v o : Nat) : Uuid := ⟨BitVec.ofNat 64 v, BitVec.ofNat 64 o⟩
private def op (i r : Nat) (vals : List AVal := []) : AOp := ⟨u i 7, u r 7, vals, .reduced⟩

example : let ins := [[op 2 1 [.uuid (u 5 1)], op 4 1 [.uuid (u 9 1)]], [op 3 1 [.uuid (u 9 2)]]]
    (∀ o ∈ ins.flatten, o.ref ≠ MAX_UUID) ∧
    (mergeCursors ⟨fun _ _ => false, fun _ => op 0 0⟩ Form.MAX ins).map (fun r => r.2.map AOp.vals) =
      some [[.uuid (u 9 2)]] := by decide +kernel

example : (mergeCursors ⟨fun _ _ => false, fun _ => op 0 0⟩ Form.MAX [[op 2 1, op 4 1], [op 3 1]]).map
    (fun r => r.2.map AOp.id) = some [u 4 7] := by decide +kernel

end Ron.Props
