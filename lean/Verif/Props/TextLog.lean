import Verif.Props.TextFind
/-!
C110: the log of an object, as text, reads as the records put into it.
-/
namespace Ron.Props
open Ron Spec Commit TextFind

/-- C110: the records of a log are chains of the object, in the order they came; what the store gives for them (their
merge of the form LOG, `db/rocks_store.cc:59-83`) reads as the ops of the records one after another. -/
def C110_claim : Prop := ∀ (mx : MaxReducer) (ins : List (List Byte × List OpView)) (text : List Byte),
  (∀ i ∈ ins, Contents i.1 i.2 .endOfFrame) →
  ((ins.map Prod.snd).flatten.Pairwise fun a b => Uuid.lt a.id b.id = true) →
  (∀ i ∈ ins, ∀ o ∈ i.2, o.id.version = Uuid.vTIME) →
  MergesAs mx Form.LOG (ins.map Prod.fst) (Status.OK, text) → Contents text (ins.map Prod.snd).flatten .endOfFrame

/-- C110, of the events only: an event that is found in the log, from the head of a chain in it, is in one of the
records. -/
def C110_found_claim : Prop := ∀ (mx : MaxReducer) (ins : List (List Byte × List OpView)) (text : List Byte)
  (hash : Cursor → Digest → Digest → Digest) (m m' : OpMeta) (id : Uuid),
  (∀ i ∈ ins, Contents i.1 i.2 .endOfFrame) →
  ((ins.map Prod.snd).flatten.Pairwise fun a b => Uuid.lt a.id b.id = true) →
  (∀ i ∈ ins, ∀ o ∈ i.2, o.id.version = Uuid.vTIME) →
  MergesAs mx Form.LOG (ins.map Prod.fst) (Status.OK, text) → (∃ i ∈ ins, ∃ o ∈ i.2, o.id = m.id) → id.value ≠ NEVER →
  Finds hash text m id (Status.OK, m') → ∃ i ∈ ins, ∃ o ∈ i.2, o.id = id

/-! ### it does not -/

/-- The merge of records of a log, with fuel. -/
def logged (frames : List (List Byte)) : Out (Option (Status × List Byte)) :=
  (TextMerge.firsts frames).bind fun cs => TextMerge.mergeCursors noMax 20 Form.LOG cs

theorem logged_merges {frames : List (List Byte)} {r : Status × List Byte} (h : logged frames = .ok (some r)) :
    MergesAs noMax Form.LOG frames r := by
  obtain ⟨cs, h1, h2⟩ := Cursor.bind_ok h
  exact ⟨20, cs, h1, h2⟩

def rgaHead : OpView := ⟨tid 1 1, denote 0 (lit "rga") 0 [], []⟩
def typed (v : Nat) (s : String) : OpView := ⟨tid (v + 1) 1, tid v 1, [.text (lit s)]⟩

/-- An array, a letter put in, and after it another. -/
def typing (s : String) : List (List Byte × List OpView) :=
  [(lit "@0000000001+0000000001 :rga;\n", [rgaHead]),
   (lit "@0000000002+0000000001 :0000000001+0000000001 'a';\n", [typed 1 "a"]),
   (lit s!"@0000000003+0000000001 :0000000002+0000000001 '{s}';\n", [typed 2 s])]

theorem typing_ok (s : String) (h : readOps 20 (lit s!"@0000000003+0000000001 :0000000002+0000000001 '{s}';\n") =
    .ok (some ([typed 2 s], .endOfFrame))) :
    (∀ i ∈ typing s, Contents i.1 i.2 .endOfFrame) ∧
    (((typing s).map Prod.snd).flatten.Pairwise fun a b => Uuid.lt a.id b.id = true) ∧
    (∀ i ∈ typing s, ∀ o ∈ i.2, o.id.version = Uuid.vTIME) := by
  refine ⟨?_, ?_, ?_⟩
  · intro i hi
    simp only [typing, List.mem_cons, List.not_mem_nil, or_false] at hi
    rcases hi with rfl | rfl | rfl
    · exact contents_of 20 (by decide +kernel)
    · exact contents_of 20 (by decide +kernel)
    · exact contents_of 20 h
  · show List.Pairwise _ [rgaHead, typed 1 "a", typed 2 s]
    simp only [List.pairwise_cons, List.mem_cons, List.not_mem_nil, or_false, forall_eq_or_imp, forall_eq]
    exact ⟨⟨by decide, by show Uuid.lt (tid 1 1) (tid 3 1) = true; decide⟩, by show Uuid.lt (tid 2 1) (tid 3 1) = true; decide,
      (fun _ h => nomatch h), List.Pairwise.nil⟩
  · intro i hi o ho
    simp only [typing, List.mem_cons, List.not_mem_nil, or_false] at hi
    rcases hi with rfl | rfl | rfl <;> simp only [List.mem_cons, List.not_mem_nil, or_false] at ho <;> subst ho
    · decide
    · decide
    · show (tid 3 1).version = _; decide

/-- C110 is violated: two letters come in two records, one after another; the second one is in the log as the UUID
`b`. -/
theorem C110_violated : ¬ C110_claim := by
  intro hc
  obtain ⟨h1, h2, h3⟩ := typing_ok "b" (by decide +kernel)
  have h4 : logged ((typing "b").map Prod.fst) = .ok (some (Status.OK,
      lit "@0000000001+0000000001 :rga;\n 'a';\nb;\n")) := by decide +kernel
  have h5 := hc noMax (typing "b") _ h1 h2 h3 (logged_merges h4)
  have h6 : Contents (lit "@0000000001+0000000001 :rga;\n 'a';\nb;\n")
      [rgaHead, typed 1 "a", ⟨tid 3 1, tid 2 1, [.uuid (denote 0 (lit "b") 0 [])]⟩] .endOfFrame :=
    contents_of 20 (by decide +kernel)
  exact absurd (Chains.contents_unique h5 h6).1 (by decide +kernel)

/-- C110 is violated: the second letter is `;`. There is an event in the log, the next one after it, that is in none of
the records. -/
theorem C110_found_violated : ¬ C110_found_claim := by
  intro hc
  obtain ⟨h1, h2, h3⟩ := typing_ok ";" (by decide +kernel)
  have h4 : logged ((typing ";").map Prod.fst) = .ok (some (Status.OK,
      lit "@0000000001+0000000001 :rga;\n 'a';\n;;\n")) := by decide +kernel
  have h6 : Contents (lit "@0000000001+0000000001 :rga;\n 'a';\n;;\n")
      ([] ++ rgaHead :: [typed 1 "a", ⟨tid 3 1, tid 2 1, []⟩, ⟨tid 4 1, tid 3 1, []⟩]) .endOfFrame :=
    contents_of 20 (by decide +kernel)
  obtain ⟨s, m', g1, -, -, -, g2, -⟩ := C109_find (fun _ _ _ => []) _ _ _ _ _ _
    ⟨tid 1 1, denote 0 (lit "rga") 0 [], tid 1 1, [], NEVER, (tid 1 1).value⟩ (tid 4 1) h6 (fun _ h => nomatch h) rfl rfl rfl
    ⟨by decide +kernel, by decide +kernel, by decide +kernel, trivial⟩
  obtain ⟨rfl, -, -⟩ := g2 ⟨⟨tid 4 1, tid 3 1, []⟩, by decide +kernel, rfl⟩
  obtain ⟨i, hi, o, ho, e⟩ := hc noMax (typing ";") _ (fun _ _ _ => []) _ m' (tid 4 1) h1 h2 h3 (logged_merges h4)
    ⟨_, List.mem_cons_self, _, List.mem_cons_self, rfl⟩ (by decide) g1
  simp only [typing, List.mem_cons, List.not_mem_nil, or_false] at hi
  rcases hi with rfl | rfl | rfl <;> simp only [List.mem_cons, List.not_mem_nil, or_false] at ho <;> subst ho <;>
    revert e <;> decide +kernel

/-! ### when it does -/

theorem frameText_terms {prev : Uuid} {s : List Byte} {l : List (Nat × OpView)} (h : FrameText prev s l) :
    ∀ x ∈ l, x.1 = 1 ∨ x.1 ∈ [0, 2, 3] := by
  induction h with
  | stop => intro x hx; cases hx
  | dot => intro x hx; cases hx
  | op h hl hs ih =>
    intro x hx
    rcases List.mem_append.1 hx with hx | hx
    · obtain ⟨o, -, rfl⟩ := List.mem_map.1 hx
      cases h with
      | mk _ _ _ _ _ ht =>
        simp only [termCodes, List.mem_cons, Prod.mk.injEq, List.not_mem_nil, or_false] at ht
        rcases ht with ⟨-, rfl⟩ | ⟨-, rfl⟩ | ⟨-, rfl⟩ | ⟨-, rfl⟩ <;> simp
    · exact ih x hx

/-- No op is folded with another by the builder. -/
def NoRuns (l : List OpView) : Prop := ∀ p ∈ l, ∀ o ∈ l, folds p.id p.vals o = false

theorem copy_clean {all : List OpView} (hm : Mixable all) (hn : NoRuns all) :
    ∀ (l : List (Nat × OpView)) (p : OpView) (closed mid : Bool), p ∈ all → (∀ x ∈ l, x.2 ∈ all ∧ (x.1 = 1 ∨ x.1 ∈ [0, 2, 3])) →
      CleanSteps copyHeadOk p.id p.vals closed mid (copySteps l)
  | [], p, closed, mid, _, _ => by unfold copySteps CleanSteps; trivial
  | (t, o) :: l, p, closed, mid, hp, hl => by
    obtain ⟨h1, h2⟩ := hl _ List.mem_cons_self
    have ih := fun c => copy_clean hm hn l o c (folds p.id p.vals o) h1 fun x hx => hl x (List.mem_cons_of_mem _ hx)
    have hf : folds p.id p.vals o = true → closed = false ∧ (mid = true ∨ copyHeadOk p.vals = true) :=
      fun h => by rw [hn p hp o h1] at h; cases h
    rw [copySteps]
    split
    · unfold CleanSteps
      exact ⟨(hm.2 p hp o h1).1, hf, ih false⟩
    · rename_i ht
      unfold CleanSteps
      refine ⟨(hm.2 p hp o h1).1, hf, ?_⟩
      unfold CleanSteps
      exact ⟨h2.resolve_left ht, ih true⟩

theorem copy_cleanFrom {all : List OpView} (hm : Mixable all) (hn : NoRuns all) :
    ∀ (l : List (Nat × OpView)), (∀ x ∈ l, x.2 ∈ all ∧ (x.1 = 1 ∨ x.1 ∈ [0, 2, 3])) → CleanFrom copyHeadOk (copySteps l)
  | [], _ => by unfold CleanFrom copySteps CleanSteps; trivial
  | (t, o) :: l, hl => by
    obtain ⟨h1, h2⟩ := hl _ List.mem_cons_self
    have ih := fun c m => copy_clean hm hn l o c m h1 fun x hx => hl x (List.mem_cons_of_mem _ hx)
    have hf : folds Uuid.NIL [.uuid Uuid.FATAL] o = true → true = false ∧ (false = true ∨ copyHeadOk [.uuid Uuid.FATAL] = true) :=
      fun h => by rw [(hm.1 o h1).2] at h; cases h
    unfold CleanFrom
    rw [copySteps]
    split
    · unfold CleanSteps
      exact ⟨(hm.1 o h1).1, hf, ih false _⟩
    · rename_i ht
      unfold CleanSteps
      refine ⟨(hm.1 o h1).1, hf, ?_⟩
      unfold CleanSteps
      exact ⟨h2.resolve_left ht, ih true _⟩

/-- C110: if no op is folded with another by the builder (`NoRuns`) and none takes the next id after another without
referring to it (`Mixable`), the log of frames of the grammar is read as the records one after another. Missing from the
claim: the ops of the violations, what copying does not keep (`Copyable`, `C59_violated`), logs of 2^30 bytes or 2^31 ops. -/
theorem C110_partial (mx : MaxReducer) (ins : List (List Byte × List (Nat × OpView))) (hi : ∀ i ∈ ins, Copyable i)
    (hm : Mixable (allOps ins)) (hn : NoRuns (allOps ins)) (hl : (allOps ins).length < 2 ^ 31) :
    ∃ text, MergesAs mx Form.LOG (ins.map Prod.fst) (Status.OK, text) ∧
      (text.length < 2 ^ 30 → Contents text (allOps ins) .endOfFrame) := by
  have e : allOps ins = (ins.map Prod.snd).flatten.map Prod.snd := by
    unfold allOps
    rw [List.map_flatten, List.map_map]; rfl
  refine C84_log_partial mx ins hi (copy_cleanFrom hm hn _ fun x hx => ⟨?_, ?_⟩) ?_
  · rw [e]; exact List.mem_map_of_mem hx
  · obtain ⟨l, hl, hx⟩ := List.mem_flatten.1 hx
    obtain ⟨i, h, rfl⟩ := List.mem_map.1 hl
    exact frameText_terms (hi i h).text x hx
  · rw [e, List.length_map] at hl
    exact hl

/-- Two records of an LWW object, and a record with two ops. -/
def ins110 : List (List Byte × List (Nat × OpView)) :=
  [frame84 [head84, .endChunk 0], frame84 [.op (tid 7 1) (tid 5 1) [.uuid (denote 0 (lit "abc") 0 []), .int 1], .endChunk 0],
   frame84 [.op (tid 8 1) (tid 7 1) [.str (lit "ab")], .op (tid 11 1) (tid 8 1) [.int 2], .endChunk 0]]

-- The hypotheses of `C110_partial`, and what the log is.
example : (∀ i ∈ ins110, Copyable i) ∧ Mixable (allOps ins110) ∧ NoRuns (allOps ins110) ∧ (allOps ins110).length = 4 ∧
    logged (ins110.map Prod.fst) = .ok (some (Status.OK, lit
      "@0000000005+0000000001 :lww;\n@0000000007+0000000001 abc 1;\n 'ab',\n@000000000B+0000000001 2;\n")) := by
  refine ⟨?_, by unfold Mixable; decide +kernel, by unfold NoRuns; decide +kernel, by decide +kernel, by decide +kernel⟩
  intro i hi
  simp only [ins110, List.mem_cons, List.not_mem_nil, or_false] at hi
  rcases hi with rfl | rfl | rfl <;> exact copyable_lit (by decide +kernel)

end Ron.Props
