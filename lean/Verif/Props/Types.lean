import Verif.Model.Rdt
/-!
C57: frames of different types are not merged.
-/
namespace Ron.Props
open Ron Rdt

/-- The type a frame declares: the name its first op refers to, if it does. -/
def declared : List AOp → Option Uuid
  | [] => none
  | o :: _ => if o.ref.version = Uuid.vNAME then some o.ref else none

private def u (v o : Nat) : Uuid := ⟨BitVec.ofNat 64 v, BitVec.ofNat 64 o⟩
private def hdr (i : Nat) (f : Form) : AOp :=
  ⟨u i (2 ^ 61 + 7), ⟨BitVec.ofNat 64 (FORMS.getD f.toNat 0), 0#64⟩, [], .raw⟩
private def op (i r : Nat) : AOp := ⟨u i (2 ^ 61 + 7), u r (2 ^ 61 + 7), [], .reduced⟩

/-- The full claim: a merge of frames is refused exactly if two of them declare different types;
otherwise it is the merge under the declared type. -/
def C57_claim : Prop := ∀ (v : View) (fs : List (List AOp)),
  ((∃ a ∈ fs, ∃ b ∈ fs, ∃ s t, declared a = some s ∧ declared b = some t ∧ s ≠ t) ↔
    mergeFrames v fs = some (Status.BADARGS, [])) ∧
  ∀ a ∈ fs, ∀ t, declared a = some t → (∀ b ∈ fs, ∀ s, declared b = some s → s = t) →
    mergeFrames v fs = mergeCursors v (uuid2form t) (fs.filter fun i => !i.isEmpty)

/-- It is false: a frame whose first op refers to the zero name is taken for one without a type,
but only if it comes first. -/
theorem C57_violated : ¬ C57_claim := by
  intro h
  have := (h ⟨fun _ _ => false, fun _ => op 0 0⟩
    [[⟨u 1 (2 ^ 61 + 7), Uuid.NIL, [], .raw⟩], [hdr 2 Form.LWW]]).1.1
    ⟨_, List.mem_cons_self, [hdr 2 Form.LWW], by simp, Uuid.NIL, (hdr 2 Form.LWW).ref, rfl, rfl, by decide⟩
  revert this
  decide +kernel

private theorem getForm_spec : ∀ (fs : List (List AOp)) (t : Uuid),
    (∀ f ∈ fs, ∀ s, declared f = some s → s.value ≠ 0#64) →
    (t.value ≠ 0#64 →
      ((∃ f ∈ fs, ∃ s, declared f = some s ∧ s ≠ t) → getForm t fs = none) ∧
      ((∀ f ∈ fs, ∀ s, declared f = some s → s = t) → getForm t fs = some (uuid2form t))) ∧
    (t = Uuid.NIL →
      ((∃ a ∈ fs, ∃ b ∈ fs, ∃ s r, declared a = some s ∧ declared b = some r ∧ s ≠ r) → getForm t fs = none) ∧
      ((∀ a ∈ fs, ∀ s, declared a = some s → (∀ b ∈ fs, ∀ r, declared b = some r → r = s) →
        getForm t fs = some (uuid2form s))) ∧
      ((∀ a ∈ fs, declared a = none) → getForm t fs = some Form.ZERO)) := by
  intro fs
  induction fs with
  | nil =>
    intro t _
    refine ⟨fun _ => ⟨by simp, fun _ => rfl⟩, fun e => ⟨by simp, by simp, fun _ => ?_⟩⟩
    subst e; decide
  | cons f fs ih =>
    intro t hn
    have ih := fun t => ih t fun x hx => hn x (by simp [hx])
    match f with
    | [] =>
      have e : ∀ t, getForm t ([] :: fs) = getForm t fs := fun t => rfl
      rw [e]
      have d : declared [] = none := rfl
      simpa [d] using ih t
    | o :: os =>
      by_cases hv : o.ref.version = Uuid.vNAME
      · have d : declared (o :: os) = some o.ref := by simp [declared, hv]
        have h0 : o.ref.value ≠ 0#64 := hn _ List.mem_cons_self _ d
        constructor
        · intro ht
          have hz : t.zero = false := by simpa [Uuid.zero] using ht
          have e : getForm t ((o :: os) :: fs) = if t ≠ o.ref then none else getForm t fs := by
            simp only [getForm, hv, ne_eq, not_true_eq_false, if_false, hz, Bool.false_eq_true]
          rw [e]
          by_cases he : t = o.ref
          · rw [if_neg (by simpa using he)]
            constructor
            · rintro ⟨f, hf, s, hs, hne⟩
              rcases List.mem_cons.1 hf with rfl | hf
              · rw [d] at hs; cases hs; exact absurd he.symm hne
              · exact ((ih t).1 ht).1 ⟨f, hf, s, hs, hne⟩
            · intro h
              exact ((ih t).1 ht).2 fun f hf => h f (by simp [hf])
          · rw [if_pos he]
            refine ⟨fun _ => rfl, fun h => ?_⟩
            exact absurd (h _ List.mem_cons_self _ d).symm he
        · rintro rfl
          have e : getForm Uuid.NIL ((o :: os) :: fs) = getForm o.ref fs := by
            simp only [getForm, hv, ne_eq, not_true_eq_false, if_false]
            rw [if_pos (by decide)]
          rw [e]
          refine ⟨?_, ?_, ?_⟩
          · rintro ⟨a, ha, b, hb, s, r, hs, hr, hne⟩
            apply ((ih o.ref).1 h0).1
            by_cases h1 : s = o.ref
            · rcases List.mem_cons.1 hb with rfl | hb
              · rw [d] at hr; cases hr; exact absurd h1 hne
              · exact ⟨b, hb, r, hr, by rw [← h1]; exact fun h => hne h.symm⟩
            · rcases List.mem_cons.1 ha with rfl | ha
              · rw [d] at hs; cases hs; exact absurd rfl h1
              · exact ⟨a, ha, s, hs, h1⟩
          · intro a ha s hs hall
            have h1 := hall _ List.mem_cons_self _ d
            subst h1
            exact ((ih o.ref).1 h0).2 fun f hf => hall f (by simp [hf])
          · intro h
            have := h _ List.mem_cons_self
            rw [d] at this; cases this
      · have d : declared (o :: os) = none := by simp [declared, hv]
        have e : ∀ t, getForm t ((o :: os) :: fs) = getForm t fs := fun t => by
          simp only [getForm, ne_eq, hv, not_false_eq_true, if_true]
        rw [e]
        simpa [d] using ih t

private theorem filter_mem (fs : List (List AOp)) (f : List AOp) (s : Uuid) (hs : declared f = some s) :
    f ∈ fs.filter (fun i => !i.isEmpty) ↔ f ∈ fs := by
  cases f with
  | nil => cases hs
  | cons o os => simp

/-- Frames that do not refer to the zero name (what the full claim lacks): a merge is refused
exactly if two frames declare different types, in whatever order they come. Otherwise the frames
are merged under the declared type. -/
theorem C57_types_partial (v : View) (fs : List (List AOp))
    (hz : ∀ f ∈ fs, ∀ s, declared f = some s → s.value ≠ 0#64) :
    ((∃ a ∈ fs, ∃ b ∈ fs, ∃ s t, declared a = some s ∧ declared b = some t ∧ s ≠ t) →
      mergeFrames v fs = some (Status.BADARGS, [])) ∧
    (∀ a ∈ fs, ∀ t, declared a = some t → (∀ b ∈ fs, ∀ s, declared b = some s → s = t) →
      mergeFrames v fs = mergeCursors v (uuid2form t) (fs.filter fun i => !i.isEmpty)) ∧
    ((∀ a ∈ fs, declared a = none) →
      mergeFrames v fs = mergeCursors v Form.ZERO (fs.filter fun i => !i.isEmpty)) := by
  have hg := (getForm_spec (fs.filter fun i => !i.isEmpty) Uuid.NIL
    (fun f hf => hz f (List.mem_filter.1 hf).1)).2 rfl
  refine ⟨?_, ?_, ?_⟩
  · rintro ⟨a, ha, b, hb, s, t, hs, ht, hne⟩
    show (match getForm Uuid.NIL (fs.filter fun i => !i.isEmpty) with | none => _ | some f => _) = _
    rw [hg.1 ⟨a, (filter_mem _ _ _ hs).2 ha, b, (filter_mem _ _ _ ht).2 hb, s, t, hs, ht, hne⟩]
  · intro a ha t ht hall
    show (match getForm Uuid.NIL (fs.filter fun i => !i.isEmpty) with | none => _ | some f => _) = _
    rw [hg.2.1 a ((filter_mem _ _ _ ht).2 ha) t ht fun b hb => hall b (List.mem_filter.1 hb).1]
  · intro h
    show (match getForm Uuid.NIL (fs.filter fun i => !i.isEmpty) with | none => _ | some f => _) = _
    rw [hg.2.2 fun b hb => h b (List.mem_filter.1 hb).1]

/-- Two objects of different types, and one type with a patch. -/
example (v : View) : mergeFrames v [[hdr 1 Form.LWW], [hdr 1 Form.RGA]] = some (Status.BADARGS, []) :=
  (C57_types_partial v _ (by
    intro f hf s hs
    rcases List.mem_cons.1 hf with rfl | hf
    · cases hs; decide
    · rcases List.mem_cons.1 hf with rfl | hf
      · cases hs; decide
      · cases hf)).1
    ⟨_, List.mem_cons_self, [hdr 1 Form.RGA], by simp, _, _, rfl, rfl, by decide⟩

example (v : View) : mergeFrames v [[hdr 1 Form.LWW], [op 2 1]] =
    mergeCursors v (uuid2form (hdr 1 Form.LWW).ref) [[hdr 1 Form.LWW], [op 2 1]] := by
  have hd : ∀ b ∈ [[hdr 1 Form.LWW], [op 2 1]], ∀ s, declared b = some s → s = (hdr 1 Form.LWW).ref := by
    intro b hb s hs
    rcases List.mem_cons.1 hb with rfl | hb
    · cases hs; rfl
    · rcases List.mem_cons.1 hb with rfl | hb
      · have e : declared [op 2 1] = none := by decide
        rw [e] at hs; cases hs
      · cases hb
  exact (C57_types_partial v [[hdr 1 Form.LWW], [op 2 1]]
    (fun f hf s hs => by rw [hd f hf s hs]; decide)).2.1 _ List.mem_cons_self _ rfl hd

end Ron.Props
