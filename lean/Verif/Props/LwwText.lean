import Verif.Model.LwwText
import Verif.Props.Compare
/-!
C119: the strings of a last-write-wins object.
-/
namespace Ron.Props
open Spec Cursor LwwText

/-- The op writes the value for the key. -/
def ViewWrites (o : OpView) (k : Uuid) (v : View) : Prop := ∃ more, o.vals = .uuid k :: v :: more

/-- The last op that writes the key writes this value. -/
def LastView (ops : List OpView) (k : Uuid) (v : View) : Prop :=
  ∃ a o b, ops = a ++ o :: b ∧ ViewWrites o k v ∧ ∀ p ∈ b, ∀ w, ¬ ViewWrites p k w

/-- What comes of asking for the string when the loops may run long enough. -/
def SaysString (state : List Byte) (ts : List (List Byte)) (k : Uuid) (r : List Byte) : Prop :=
  ∃ N, ∀ n, N ≤ n → stringOf n state ts k = .ok (some r)

/-- C119: an object is made of a frame and gets another one by `Update`. The string of a key is the one that was written
last. -/
def C119_claim : Prop := ∀ (state text : List Byte) (ops more : List OpView) (k : Uuid) (t : List Byte),
  Contents state ops .endOfFrame → Contents text more .endOfFrame → LastView (ops ++ more) k (.text t) →
  SaysString state [text] k t

/-! ### Lemmas -/

theorem iterate_more : ∀ {n : Nat} {c : Cursor} {r : List Cursor × NextStatus}, iterate n c = .ok (some r) →
    ∀ m, n ≤ m → iterate m c = .ok (some r)
  | 0, _, _, h, _, _ => nomatch h
  | _ + 1, _, _, _, 0, hm => absurd hm (by omega)
  | n + 1, c, r, h, m + 1, hm => by
    unfold iterate at h ⊢
    obtain ⟨x, e, h⟩ := bind_ok h
    rw [e]
    simp only [Out.bind]
    split at h
    · obtain ⟨y, e2, h⟩ := bind_ok h
      cases y with
      | none => cases h
      | some y =>
        rw [iterate_more e2 m (by omega)]
        exact h
    · exact h

theorem iterate_bufs {buf : List Byte} : ∀ {n : Nat} {c : Cursor} {l : List Cursor} {st : NextStatus}, Basic buf c →
    iterate n c = .ok (some (l, st)) → ∀ d ∈ l, d.buf = buf
  | 0, _, _, _, _, h => nomatch h
  | n + 1, c, l, st, b, h => by
    unfold iterate at h
    obtain ⟨x, e, h⟩ := bind_ok h
    split at h
    · obtain ⟨y, e2, h⟩ := bind_ok h
      cases y with
      | none => cases h
      | some y =>
        cases h
        have b' := (next_cases b e).1
        intro d hd
        rcases List.mem_cons.1 hd with rfl | hd
        · exact b'.buf
        · exact iterate_bufs b' e2 d hd
    · cases h
      exact fun _ h => nomatch h

theorem parsed_ok {c : Cursor} {a : Atom} {v : View} (h : viewAtom c a = .ok v) : ∃ x, parsed c a = .ok x := by
  unfold viewAtom at h
  unfold parsed
  split at h
  · rename_i e
    rw [if_pos e]
    obtain ⟨d, h1, h⟩ := bind_ok h
    obtain ⟨i, h2, h⟩ := bind_ok h
    exact ⟨_, by rw [h1]; simp only [Out.bind]; rw [h2]⟩
  · rename_i e
    rw [if_neg e]
    split at h
    · rename_i e
      rw [if_pos e]
      obtain ⟨d, h1, h⟩ := bind_ok h
      exact ⟨_, by rw [h1]; rfl⟩
    · rename_i e
      rw [if_neg e]
      split
      · exact ⟨_, rfl⟩
      · exact ⟨_, rfl⟩

theorem view_key {c : Cursor} {a : Atom} {v : View} (h : viewAtom c a = .ok v) :
    (a.type = Atom.tUUID → v = .uuid a) ∧ (a.type ≠ Atom.tUUID → ∀ k, v ≠ .uuid k) ∧
      ∀ t, v = .text t → a.type = Atom.tSTRING ∧ readString c.buf a = .ok t := by
  unfold viewAtom at h
  split at h
  · rename_i e
    obtain ⟨d, h1, h⟩ := bind_ok h
    obtain ⟨i, h2, h⟩ := bind_ok h
    cases h
    exact ⟨fun h => absurd (e.symm.trans h) (by decide), (fun _ _ h => nomatch h), (fun _ h => nomatch h)⟩
  · split at h
    · rename_i e
      obtain ⟨d, h1, h⟩ := bind_ok h
      cases h
      exact ⟨fun h => absurd (e.symm.trans h) (by decide), (fun _ _ h => nomatch h), (fun _ h => nomatch h)⟩
    · split at h
      · rename_i e
        obtain ⟨d, h1, h⟩ := bind_ok h
        cases h
        exact ⟨fun h => absurd (e.symm.trans h) (by decide), (fun _ _ h => nomatch h), fun _ h => by cases h; exact ⟨e, h1⟩⟩
      · rename_i e1 e2 e3
        cases h
        have h4 : Atom.type a < 4 := by unfold Atom.type; have := a.origin.isLt; omega
        have : Atom.type a = Atom.tUUID := by
          have : ∀ t, t < 4 → t ≠ Atom.tINT → t ≠ Atom.tFLOAT → t ≠ Atom.tSTRING → t = Atom.tUUID := by decide
          exact this _ h4 e1 e2 e3
        exact ⟨fun _ => rfl, fun h => absurd this h, (fun _ h => nomatch h)⟩

theorem update_view {c : Cursor} {o : OpView} (m : LwwText.Vals) (h : viewOp c = .ok o) :
    ∃ m1, LwwText.update m c = .ok m1 ∧ ∀ k, (∀ v, ViewWrites o k v → ∃ a, m1 k = some a ∧ viewAtom c a = .ok v) ∧
      ((∀ v, ¬ ViewWrites o k v) → m1 k = m k) := by
  unfold viewOp at h
  split at h
  · rename_i id ref vals e
    obtain ⟨vs, h1, h⟩ := bind_ok h
    cases h
    unfold LwwText.update
    rw [e]
    cases vals with
    | nil =>
      refine ⟨m, rfl, fun k => ⟨?_, fun _ => rfl⟩⟩
      rintro v ⟨more, hw⟩
      rw [show vs = [] by cases h1; rfl] at hw
      cases hw
    | cons a vals =>
      obtain ⟨va, vs', h2, h3, rfl⟩ := collect_cons h1
      cases vals with
      | nil =>
        refine ⟨m, rfl, fun k => ⟨?_, fun _ => rfl⟩⟩
        rintro v ⟨more, hw⟩
        rw [show vs' = [] by cases h3; rfl] at hw
        cases hw
      | cons b vals =>
        obtain ⟨vb, vs'', h4, h5, rfl⟩ := collect_cons h3
        obtain ⟨x, hx⟩ := parsed_ok h4
        obtain ⟨k1, k2, -⟩ := view_key h2
        simp only
        by_cases ht : Atom.type a = Atom.tUUID
        · rw [if_pos ht, hx]
          refine ⟨_, rfl, fun k => ⟨?_, fun hn => ?_⟩⟩
          · rintro v ⟨more, hw⟩
            rw [k1 ht] at hw
            cases hw
            exact ⟨b, if_pos rfl, h4⟩
          · refine if_neg fun e => hn vb ⟨vs'', ?_⟩
            rw [k1 ht, e]
        · rw [if_neg ht]
          refine ⟨m, rfl, fun k => ⟨?_, fun _ => rfl⟩⟩
          rintro v ⟨more, hw⟩
          injection hw with hw _
          exact absurd hw (k2 ht k)
  · cases h

theorem updates_view : ∀ {l : List Cursor} {ops : List OpView} (m : LwwText.Vals), collect viewOp l = .ok ops →
    ∃ m', updates m l = .ok m' ∧ ∀ k, ((∀ o ∈ ops, ∀ v, ¬ ViewWrites o k v) → m' k = m k) ∧
      ∀ v, LastView ops k v → ∃ c ∈ l, ∃ a, m' k = some a ∧ viewAtom c a = .ok v
  | [], ops, m, h => by
    cases h
    refine ⟨m, rfl, fun k => ⟨fun _ => rfl, ?_⟩⟩
    rintro v ⟨a, o, b, e, -⟩
    cases a <;> cases e
  | c :: l, ops, m, h => by
    obtain ⟨o, os, h1, h2, rfl⟩ := collect_cons h
    obtain ⟨m1, g1, g2⟩ := update_view m h1
    obtain ⟨m', k1, k2⟩ := updates_view m1 h2
    refine ⟨m', by unfold updates; rw [g1]; exact k1, fun k => ⟨fun hn => ?_, ?_⟩⟩
    · rw [(k2 k).1 fun p hp => hn p (List.mem_cons_of_mem _ hp)]
      exact (g2 k).2 (hn o List.mem_cons_self)
    · rintro v ⟨a, p, b, e, hw, hb⟩
      cases a with
      | nil =>
        cases e
        obtain ⟨x, x1, x2⟩ := (g2 k).1 v hw
        exact ⟨c, List.mem_cons_self, x, by rw [(k2 k).1 hb]; exact x1, x2⟩
      | cons q a =>
        cases e
        obtain ⟨d, hd, x⟩ := (k2 k).2 v ⟨a, p, b, rfl, hw, hb⟩
        exact ⟨d, List.mem_cons_of_mem _ hd, x⟩

theorem updateFrames_keep : ∀ {ts : List (List Byte)} {opss : List (List OpView)} (m : LwwText.Vals) (k : Uuid),
    Same2 (fun t ops => Contents t ops .endOfFrame) ts opss → (∀ ops ∈ opss, ∀ o ∈ ops, ∀ v, ¬ ViewWrites o k v) →
    ∃ m' N, (∀ n, N ≤ n → updateFrames n m ts = .ok (some m')) ∧ m' k = m k
  | _, _, m, k, .nil, _ => ⟨m, 0, fun _ _ => rfl, rfl⟩
  | t :: _, ops :: _, m, k, .cons ⟨N, l, h1, h2⟩ h, hn => by
    obtain ⟨m1, g1, g2⟩ := updates_view m h2
    obtain ⟨m', N', k1, k2⟩ := updateFrames_keep m1 k h fun x hx => hn x (List.mem_cons_of_mem _ hx)
    refine ⟨m', N + N', fun n hN => ?_, k2.trans ((g2 k).1 (hn ops List.mem_cons_self))⟩
    unfold updateFrames updateFrame
    rw [iterate_more h1 n (by omega)]
    simp only [Out.bind]
    rw [g1]
    exact k1 n (by omega)

/-- C119: it is so for keys that are written by the frame the object is made of, whatever other frames it gets that do not
write the key. Missing from the claim: strings of these frames. -/
theorem C119_partial (state : List Byte) (ts : List (List Byte)) (ops : List OpView) (opss : List (List OpView)) (k : Uuid)
    (t : List Byte) (h : Contents state ops .endOfFrame) (hts : Same2 (fun t ops => Contents t ops .endOfFrame) ts opss)
    (hl : LastView ops k (.text t)) (hn : ∀ ops ∈ opss, ∀ o ∈ ops, ∀ v, ¬ ViewWrites o k v) :
    SaysString state ts k t := by
  obtain ⟨N, l, h1, h2⟩ := h
  obtain ⟨m, g1, g2⟩ := updates_view (fun _ => none) h2
  obtain ⟨m', N', k1, k2⟩ := updateFrames_keep m k hts hn
  obtain ⟨c, hc, a, a1, a2⟩ := (g2 k).2 _ hl
  obtain ⟨-, -, hs⟩ := view_key a2
  obtain ⟨s1, s2⟩ := hs t rfl
  rw [iterate_bufs (Basic.init state) h1 c hc] at s2
  refine ⟨N + N', fun n hN => ?_⟩
  unfold stringOf updateFrames updateFrame
  rw [iterate_more h1 n (by omega)]
  simp only [Out.bind]
  rw [g1]
  simp only
  rw [k1 n (by omega)]
  simp only [LwwText.string]
  rw [k2, a1]
  simp only
  rw [if_pos s1, s2]

/-- C119: a string that came by `Update` is looked up in the frame the object is made of. What is read is what stands there
at the place that the string has in its own frame, if the frame is long enough. -/
theorem C119_other (state text : List Byte) (ops more : List OpView) (k : Uuid) (t : List Byte)
    (h : Contents state ops .endOfFrame) (ht : Contents text more .endOfFrame) (hl : LastView more k (.text t)) :
    ∃ a, Cursor.readString text a = .ok t ∧
      ∃ N, ∀ n, N ≤ n → stringOf n state [text] k = (Cursor.readString state a).bind fun s => .ok (some s) := by
  obtain ⟨N, l, h1, h2⟩ := h
  obtain ⟨m, g1, -⟩ := updates_view (fun _ => none) h2
  obtain ⟨N', l', k1, k2⟩ := ht
  obtain ⟨m', j1, j2⟩ := updates_view m k2
  obtain ⟨c, hc, a, a1, a2⟩ := (j2 k).2 _ hl
  obtain ⟨-, -, hs⟩ := view_key a2
  obtain ⟨s1, s2⟩ := hs t rfl
  rw [iterate_bufs (Basic.init text) k1 c hc] at s2
  refine ⟨a, s2, N + N', fun n hN => ?_⟩
  unfold stringOf updateFrames updateFrame
  rw [iterate_more h1 n (by omega)]
  simp only [Out.bind]
  rw [g1]
  simp only
  unfold updateFrames updateFrame
  rw [iterate_more k1 n (by omega)]
  simp only [Out.bind]
  rw [j1]
  simp only [updateFrames, LwwText.string]
  rw [a1]
  simp only
  rw [if_pos s1]

/-- The name `str`. -/
def str119 : Uuid := ⟨0x0df8d80000000000#64, 0#64⟩

def state119 : List Byte := lit "@1+A :lww, @2+A :1+A str 'one';"
def text119 : List Byte := lit "@3+A :2+A str 'two';"

theorem last119 {ops : List OpView} {o : OpView} {k : Uuid} {v : View} {more : List View}
    (h : o.vals = .uuid k :: v :: more) : LastView (ops ++ [o]) k v :=
  ⟨ops, o, [], rfl, ⟨more, h⟩, fun _ h => nomatch h⟩

/-- The ops of a frame whose last one writes the string. -/
def ends119 (t : List Byte) (s : List Byte) : Option (List OpView × OpView) :=
  match readOps 20 t with
  | .ok (some (ops, .endOfFrame)) =>
    match ops.getLast? with
    | some o => if o.vals = [.uuid str119, .text s] then some (ops.dropLast, o) else none
    | none => none
  | _ => none

theorem ends119_reads {t s : List Byte} (h : (ends119 t s).isSome = true) :
    ∃ ops o, Contents t (ops ++ [o]) .endOfFrame ∧ o.vals = [.uuid str119, .text s] := by
  unfold ends119 at h
  split at h
  · rename_i ops hr
    split at h
    · rename_i o ho
      split at h
      · rename_i hv
        refine ⟨ops.dropLast, o, contents_of 20 ?_, hv⟩
        rw [hr]
        obtain ⟨ys, e⟩ := List.getLast?_eq_some_iff.1 ho
        rw [e, List.dropLast_concat]
      · cases h
    · cases h
  · cases h

/-- C119 is violated: `two` is written after `one`, and what is read is ` :1`. -/
theorem C119_violated : ¬ C119_claim := by
  intro hc
  obtain ⟨ops, o, h1, -⟩ := ends119_reads (t := state119) (s := lit "one") (by decide +kernel)
  obtain ⟨more, p, k1, k2⟩ := ends119_reads (t := text119) (s := lit "two") (by decide +kernel)
  obtain ⟨N, h⟩ := hc _ _ _ _ str119 (lit "two") h1 k1 (by rw [← List.append_assoc]; exact last119 k2)
  have e : stringOf 20 state119 [text119] str119 = .ok (some (lit " :1")) := by decide +kernel
  have hm : ∀ n m, 20 ≤ n → stringOf n state119 [text119] str119 = .ok (some m) → m = lit " :1" := by
    intro n m hn hs
    have f1 : iterate n (init state119) = iterate 20 (init state119) := by
      obtain ⟨x, hx⟩ : ∃ x, iterate 20 (init state119) = .ok (some x) := by
        have : (match iterate 20 (init state119) with | .ok (some _) => true | _ => false) = true := by decide +kernel
        split at this
        · exact ⟨_, by assumption⟩
        · cases this
      rw [hx, iterate_more hx n hn]
    have f2 : iterate n (init text119) = iterate 20 (init text119) := by
      obtain ⟨x, hx⟩ : ∃ x, iterate 20 (init text119) = .ok (some x) := by
        have : (match iterate 20 (init text119) with | .ok (some _) => true | _ => false) = true := by decide +kernel
        split at this
        · exact ⟨_, by assumption⟩
        · cases this
      rw [hx, iterate_more hx n hn]
    have : stringOf n state119 [text119] str119 = stringOf 20 state119 [text119] str119 := by
      unfold stringOf updateFrames updateFrame
      rw [f1]
      unfold updateFrames updateFrame
      rw [f2]
      rfl
    rw [this, e] at hs
    cases hs
    rfl
  have := hm (N + 20) _ (by omega) (h _ (by omega))
  exact absurd this (by decide +kernel)

/-- And a string that ends after the end of the first frame is an invalid read. -/
example : stringOf 20 (lit "@1+A :lww;") [text119] str119 = .ub := by decide +kernel

/-- The string of the first frame is read, although a frame came after it that writes another key. -/
example : ∃ ops more, Contents state119 ops .endOfFrame ∧
    Same2 (fun t ops => Contents t ops .endOfFrame) [lit "@3+A :2+A abc 'two';"] [more] ∧ LastView ops str119 (.text (lit "one")) ∧
    (∀ o ∈ more, ∀ v, ¬ ViewWrites o str119 v) ∧
    stringOf 20 state119 [lit "@3+A :2+A abc 'two';"] str119 = .ok (some (lit "one")) := by
  obtain ⟨ops, o, h1, h2⟩ := ends119_reads (t := state119) (s := lit "one") (by decide +kernel)
  have h3 : (match readOps 20 (lit "@3+A :2+A abc 'two';") with
    | .ok (some ([o], .endOfFrame)) => decide (o.vals.head? ≠ some (.uuid str119))
    | _ => false) = true := by decide +kernel
  split at h3
  · rename_i p hp
    refine ⟨_, [p], h1, .cons (contents_of 20 hp) .nil, last119 h2, fun q hq v => ?_, by decide +kernel⟩
    rintro ⟨m, hm⟩
    rw [List.mem_singleton.1 hq] at hm
    rw [hm] at h3
    exact absurd rfl (of_decide_eq_true h3)
  · cases h3

end Ron.Props
