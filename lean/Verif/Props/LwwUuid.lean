import Verif.Props.LwwState
/-!
C121: the UUIDs of a last-write-wins object.
-/
namespace Ron.Props
open Ron Spec Commit TextReplica TextParser Cursor LwwText

/-- What comes of asking for the UUID when the loops may run long enough. -/
def SaysUuid (state : List Byte) (ts : List (List Byte)) (k u : Uuid) : Prop :=
  ∃ N, ∀ n, N ≤ n → uuidOf n state ts k = .ok (some u)

/-! ### Lemmas -/

theorem lastView_append {a b : List OpView} {k : Uuid} {v : View} (h : LastView (a ++ b) k v) :
    LastView b k v ∨ LastView a k v ∧ ∀ o ∈ b, ∀ w, ¬ ViewWrites o k w := by
  obtain ⟨x, o, y, e, hw, hn⟩ := h
  rcases List.append_eq_append_iff.1 e with ⟨z, h1, h2⟩ | ⟨z, h1, h2⟩
  · exact .inl ⟨z, o, y, h2, hw, hn⟩
  · cases z with
    | nil => exact .inl ⟨[], o, y, h2.symm, hw, hn⟩
    | cons p z =>
      cases h2
      exact .inr ⟨⟨x, o, z, h1, hw, fun p hp => hn p (List.mem_append_left _ hp)⟩,
        fun p hp => hn p (List.mem_append_right _ hp)⟩

theorem lastView_or : ∀ (l : List OpView) (k : Uuid), (∃ v, LastView l k v) ∨ ∀ o ∈ l, ∀ w, ¬ ViewWrites o k w
  | [], _ => .inr fun _ h => nomatch h
  | o :: l, k => by
    rcases lastView_or l k with ⟨v, a, p, b, rfl, hw, hn⟩ | hn
    · exact .inl ⟨v, o :: a, p, b, rfl, hw, hn⟩
    · by_cases ho : ∃ v, ViewWrites o k v
      · obtain ⟨v, hv⟩ := ho
        exact .inl ⟨v, [], o, l, rfl, hv, hn⟩
      · refine .inr fun p hp w hw => ?_
        rcases List.mem_cons.1 hp with rfl | hp
        · exact ho ⟨w, hw⟩
        · exact hn p hp w hw

theorem updateFrames_view : ∀ {ts : List (List Byte)} {opss : List (List OpView)} (m : LwwText.Vals),
    Same2 (fun t ops => Contents t ops .endOfFrame) ts opss →
    ∃ m' N, (∀ n, N ≤ n → updateFrames n m ts = .ok (some m')) ∧
      ∀ k, ((∀ o ∈ opss.flatten, ∀ v, ¬ ViewWrites o k v) → m' k = m k) ∧
        ∀ v, LastView opss.flatten k v → ∃ c a, m' k = some a ∧ viewAtom c a = .ok v
  | _, _, m, .nil => by
    refine ⟨m, 0, fun _ _ => rfl, fun k => ⟨fun _ => rfl, ?_⟩⟩
    rintro v ⟨a, o, b, e, -⟩
    cases a <;> cases e
  | t :: _, ops :: opss, m, .cons ⟨N, l, h1, h2⟩ h => by
    obtain ⟨m1, g1, g2⟩ := updates_view m h2
    obtain ⟨m', N', k1, k2⟩ := updateFrames_view m1 h
    refine ⟨m', N + N', fun n hN => ?_, fun k => ⟨fun hn => ?_, fun v hv => ?_⟩⟩
    · unfold updateFrames updateFrame
      rw [iterate_more h1 n (by omega)]
      simp only [Out.bind]
      rw [g1]
      exact k1 n (by omega)
    · rw [List.flatten_cons] at hn
      rw [(k2 k).1 fun o ho => hn o (List.mem_append_right _ ho)]
      exact (g2 k).1 fun o ho => hn o (List.mem_append_left _ ho)
    · rw [List.flatten_cons] at hv
      rcases lastView_append hv with hv | ⟨hv, hn⟩
      · exact (k2 k).2 v hv
      · obtain ⟨c, -, a, a1, a2⟩ := (g2 k).2 v hv
        exact ⟨c, a, by rw [(k2 k).1 hn]; exact a1, a2⟩

theorem uuidOf_eq {state : List Byte} {ts : List (List Byte)} {m : LwwText.Vals} {N : Nat}
    (h : ∀ n, N ≤ n → updateFrames n (fun _ => none) (state :: ts) = .ok (some m)) (k : Uuid) :
    SaysUuid state ts k (LwwText.uuid m k) :=
  ⟨N, fun n hn => by unfold uuidOf; rw [h n hn]; rfl⟩

/-- C121: an object is made of a frame and gets other ones by `Update`. The UUID of a key is the one that was written last,
whichever frame it is in. -/
theorem C121_last (state : List Byte) (ts : List (List Byte)) (ops : List OpView) (opss : List (List OpView)) (k u : Uuid)
    (h : Contents state ops .endOfFrame) (hts : Same2 (fun t ops => Contents t ops .endOfFrame) ts opss)
    (hl : LastView (ops ++ opss.flatten) k (.uuid u)) : SaysUuid state ts k u := by
  obtain ⟨m, N, h1, h2⟩ := updateFrames_view (fun _ => none) (Same2.cons h hts)
  obtain ⟨c, a, a1, a2⟩ := (h2 k).2 _ (by rw [List.flatten_cons]; exact hl)
  obtain ⟨v1, v2, -⟩ := view_key a2
  have ht : Atom.type a = Atom.tUUID := Decidable.byContradiction fun ht => v2 ht u rfl
  have := uuidOf_eq h1 k
  unfold LwwText.uuid at this
  rw [a1] at this
  simp only at this
  rw [if_pos ht] at this
  have e := v1 ht
  injection e with e
  rw [e]
  exact this

/-- C121: if what was written last is no UUID, or nothing was written, the answer is the zero UUID, whatever was written
before. -/
theorem C121_none (state : List Byte) (ts : List (List Byte)) (ops : List OpView) (opss : List (List OpView)) (k : Uuid)
    (h : Contents state ops .endOfFrame) (hts : Same2 (fun t ops => Contents t ops .endOfFrame) ts opss)
    (hl : ∀ u, ¬ LastView (ops ++ opss.flatten) k (.uuid u)) : SaysUuid state ts k Uuid.NIL := by
  obtain ⟨m, N, h1, h2⟩ := updateFrames_view (fun _ => none) (Same2.cons h hts)
  have h3 := uuidOf_eq h1 k
  unfold LwwText.uuid at h3
  rw [List.flatten_cons] at h2
  rcases lastView_or (ops ++ opss.flatten) k with ⟨v, hv⟩ | hn
  · obtain ⟨c, a, a1, a2⟩ := (h2 k).2 _ hv
    obtain ⟨v1, -, -⟩ := view_key a2
    rw [a1] at h3
    simp only at h3
    rwa [if_neg fun ht => hl a (by rw [v1 ht] at hv; exact hv)] at h3
  · rw [(h2 k).1 hn] at h3
    exact h3

/-! ### Registers read from stores of texts -/

theorem lastView_uuid {R : Reading} {ops : List OpView} {k u : Uuid} (hs : IdSorted (ops.map R.op))
    (h : LastWrite (ops.map R.op) k (.uuid u)) : LastView ops k (.uuid u) := by
  obtain ⟨o', ho', ⟨more, hw⟩, hm⟩ := h
  obtain ⟨o, ho, rfl⟩ := List.mem_map.1 ho'
  have hw : o.vals.map R.val = .uuid k :: .uuid u :: more := hw
  cases hv : o.vals with
  | nil => rw [hv] at hw; cases hw
  | cons v vs =>
    rw [hv] at hw
    obtain ⟨e1, e2⟩ := List.cons.inj hw
    cases vs with
    | nil => cases e2
    | cons w vs =>
      obtain ⟨e2, e3⟩ := List.cons.inj e2
      obtain rfl := val_uuid e1
      obtain rfl := val_uuid e2
      obtain ⟨a, b, rfl⟩ := List.append_of_mem ho
      refine ⟨a, o, b, rfl, ⟨vs, hv⟩, fun p hp w hpw => ?_⟩
      rw [List.map_append, List.map_cons] at hs
      have h1 := (List.pairwise_cons.1 (List.pairwise_append.1 hs).2.1).1 (R.op p) (List.mem_map_of_mem hp)
      obtain ⟨m, hpv⟩ := hpw
      have h2 := hm (R.op p) (List.mem_map_of_mem (List.mem_append_right _ (List.mem_cons_of_mem _ hp))) (R.val w)
        ⟨m.map R.val, show p.vals.map R.val = _ by rw [hpv]; rfl⟩
      rw [h1] at h2
      cases h2

/-- C120 for UUIDs: if the state of a register can be written, the UUID of a key is the one the last event for this key
writes. -/
theorem C120_uuid_partial (R : Reading) (mx : MaxReducer) (H : List Chain) (note : Uuid → List Nat) (A : List Entry) (c : Chain)
    (L : Lineage H) (hT : TellsAs true R H note A) (hs : Short mx (A.map Entry.bytes)) (hc : c ∈ H)
    (hf : uuid2form c.rdt = Form.LWW) (hw : Written A c) :
    ∃ state, ReadsText mx A (Key.ofUuids c.object c.rdt) state ∧
      ∀ k u, LastWrite (eventsIn H c.object) k (.uuid u) → SaysUuid state [] k u := by
  obtain ⟨state, l, h1, h2, -, -, h3⟩ := object_state L hT hs hc (.inl (.inl hf)) hw
  obtain ⟨g1, g2⟩ := h3.2 (by rw [hf]; decide)
  refine ⟨state, h1, fun k u hx => ?_⟩
  have hv := lastView_uuid g1 (lastWrite_same (fun b => (g2 b).symm) hx)
  exact C121_last state [] _ [] k u (C20_frames_partial state h2.size _ h2.text).1 .nil
    (by rw [List.flatten_nil, List.append_nil]; exact hv)

/-! ### Concrete objects -/

def text121 : List Byte := lit "@3+A :2+A str abc;"

/-- The name `abc`. -/
def abc121 : Uuid := ⟨0x09669c0000000000#64, 0#64⟩

/-- The ops of a frame whose last one writes the UUID. -/
def ends121 (t : List Byte) (u : Uuid) : Option (List OpView × OpView) :=
  match readOps 20 t with
  | .ok (some (ops, .endOfFrame)) =>
    match ops.getLast? with
    | some o => if o.vals = [.uuid str119, .uuid u] then some (ops.dropLast, o) else none
    | none => none
  | _ => none

theorem ends121_reads {t : List Byte} {u : Uuid} (h : (ends121 t u).isSome = true) :
    ∃ ops o, Contents t (ops ++ [o]) .endOfFrame ∧ o.vals = [.uuid str119, .uuid u] := by
  unfold ends121 at h
  split at h
  · rename_i ops hr
    split at h
    · rename_i o ho
      split at h
      · rename_i hv
        refine ⟨ops.dropLast, o, contents_of 20 ?_, hv⟩
        rw [hr]
        obtain ⟨ys, e⟩ := List.getLast?_eq_some_iff.1 ho
        rw [e, List.dropLast_concat]
      · cases h
    · cases h
  · cases h

/-- A string of the first frame is replaced by a UUID of another one: the UUID is read. -/
example : ∃ ops more, Contents state119 ops .endOfFrame ∧ Same2 (fun t ops => Contents t ops .endOfFrame) [text121] [more] ∧
    LastView (ops ++ [more].flatten) str119 (.uuid abc121) ∧
    uuidOf 20 state119 [text121] str119 = .ok (some abc121) := by
  obtain ⟨ops, o, h1, -⟩ := ends119_reads (t := state119) (s := lit "one") (by decide +kernel)
  obtain ⟨more, p, k1, k2⟩ := ends121_reads (t := text121) (u := abc121) (by decide +kernel)
  refine ⟨_, _, h1, .cons k1 .nil, ?_, by decide +kernel⟩
  rw [List.flatten_cons, List.flatten_nil, List.append_nil, ← List.append_assoc]
  exact last119 k2

/-- A UUID of the first frame is replaced by a string: the answer is the zero UUID. -/
example : ∃ ops more, Contents (lit "@1+A :lww, @2+A :1+A str abc;") ops .endOfFrame ∧
    Same2 (fun t ops => Contents t ops .endOfFrame) [text119] [more] ∧
    (∀ u, ¬ LastView (ops ++ [more].flatten) str119 (.uuid u)) ∧
    uuidOf 20 (lit "@1+A :lww, @2+A :1+A str abc;") [text119] str119 = .ok (some Uuid.NIL) := by
  obtain ⟨ops, o, h1, -⟩ := ends121_reads (t := lit "@1+A :lww, @2+A :1+A str abc;") (u := abc121) (by decide +kernel)
  obtain ⟨more, p, k1, k2⟩ := ends119_reads (t := text119) (s := lit "two") (by decide +kernel)
  refine ⟨_, _, h1, .cons k1 .nil, fun u hu => ?_, by decide +kernel⟩
  rw [List.flatten_cons, List.flatten_nil, List.append_nil, ← List.append_assoc] at hu
  rcases lastView_append hu with ⟨a, q, b, e, ⟨m, hw⟩, -⟩ | ⟨-, hn⟩
  · cases a with
    | nil =>
      cases e
      rw [k2] at hw
      cases hw
    | cons x a =>
      injection e with _ e
      cases a <;> cases e
  · exact hn p List.mem_cons_self _ ⟨[], k2⟩

/-- A register with a key that has a UUID, then another one. -/
def good121 : List (AOp × List AOp) :=
  [(op2 (tA 1) (formUuid Form.YARN), []),
   (op2 (tA 2) (formUuid Form.LWW), [op2 (tA 3) (tA 2) [.uuid (formUuid Form.RGA), .uuid (tA 2)]]),
   (op2 (tA 8) (tA 3) [.uuid (formUuid Form.RGA), .uuid (tA 3)], [])]

/-- A store that meets the hypotheses. -/
example : ∃ H note c, Lineage H ∧ TellsAs true ascii H note (texts (fold111 newStore Uuid.NIL good121)) ∧
    Short noMax ((texts (fold111 newStore Uuid.NIL good121)).map Entry.bytes) ∧ c ∈ H ∧ uuid2form c.rdt = Form.LWW ∧
    Written (texts (fold111 newStore Uuid.NIL good121)) c ∧
    LastWrite (eventsIn H c.object) (formUuid Form.RGA) (.uuid (tA 3)) := by
  obtain ⟨H, note, L, hT, e⟩ := tellsAs_lit good121 (by
    refine fed111_proper fun x hx => ?_
    simp only [good121, List.mem_cons, List.not_mem_nil, or_false] at hx
    unfold Stamp
    rcases hx with rfl | rfl | rfl <;> (try unfold ChainedTo) <;> (try unfold ChainedTo) <;> unfold op2 <;> decide +kernel)
    (by decide +kernel) (by decide +kernel)
  obtain ⟨c, h1, h2, h3, h4⟩ := made_has L e (x := good121[1]) (by decide +kernel) (by decide +kernel)
  have hx := wrote_lit L e (y := good121[2]) (by decide +kernel) (by decide +kernel) h1
    (h4 (op2 (tA 3) (tA 2) [.uuid (formUuid Form.RGA), .uuid (tA 2)]) (by decide +kernel)) _ List.mem_cons_self
  exact ⟨H, note, c, L, hT, short_lit 20 (by decide +kernel), h1, by rw [h3]; decide +kernel,
    .inl ⟨by rw [h3]; unfold IdForm; decide +kernel, by rw [h2, h3]; exact ⟨by decide +kernel, by decide +kernel, by decide +kernel⟩⟩,
    last_lit e hx ⟨[], rfl⟩ (by decide +kernel)⟩

end Ron.Props
