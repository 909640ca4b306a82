import Verif.Model.Lww
import Verif.Spec.Lww
import Verif.Lemmas.Rdt
/-!
Last-write-wins objects: C29, C53.
-/
namespace Ron.Props
open Ron Rdt Spec

/-- Test data. -/
private def u (v o : Nat) : Uuid := ⟨BitVec.ofNat 64 v, BitVec.ofNat 64 o⟩
private def key (n : Nat) : Uuid := u n 0
private def wr (i r : Nat) (k : Nat) (v : AVal) : AOp := ⟨u i 7, u r 7, [.uuid (key k), v], .reduced⟩
private def hd (i : Nat) : AOp := ⟨u i 7, u 5 0, [], .header⟩
private def noView : View := ⟨fun _ _ => false, fun _ => hd 0⟩

/-! ## C29 — last write wins -/

private theorem writes_fun {o : AOp} {k : Uuid} {v w : AVal} (h : Writes o k v) (h' : Writes o k w) :
    v = w := by
  obtain ⟨_, e⟩ := h; obtain ⟨_, e'⟩ := h'
  rw [e] at e'; simp at e'; exact e'.1

private theorem update_hit {m : Lww.Vals} {o : AOp} {k : Uuid} {v : AVal} (h : Writes o k v) :
    Lww.update m o k = some v := by
  obtain ⟨more, e⟩ := h
  unfold Lww.update; rw [e]; simp

private theorem update_miss {m : Lww.Vals} {o : AOp} {k : Uuid} (h : ∀ v, ¬ Writes o k v) :
    Lww.update m o k = m k := by
  unfold Lww.update
  generalize hv : o.vals = l
  split
  · next k' v more =>
    have : k ≠ k' := by rintro rfl; exact h v ⟨more, hv⟩
    simp [this]
  · rfl

/-- The object holds what the last op for the key in the frame writes. -/
private theorem obj_last (ops : List AOp) (k : Uuid) :
    (∃ a o b v, ops = a ++ o :: b ∧ Writes o k v ∧ (∀ p ∈ b, ∀ w, ¬ Writes p k w) ∧
      Lww.obj ops k = some v) ∨ (Unwritten ops k ∧ Lww.obj ops k = none) := by
  suffices h : ∀ (ops : List AOp) (m : Lww.Vals),
      (∃ a o b v, ops = a ++ o :: b ∧ Writes o k v ∧ (∀ p ∈ b, ∀ w, ¬ Writes p k w) ∧
        ops.foldl Lww.update m k = some v) ∨ (Unwritten ops k ∧ ops.foldl Lww.update m k = m k) from
    h ops _
  intro ops
  induction ops with
  | nil => intro m; exact .inr ⟨fun o ho => by simp at ho, rfl⟩
  | cons o os ih =>
    intro m
    rcases ih (Lww.update m o) with ⟨a, p, b, v, e, hw, hb, h⟩ | ⟨hno, h⟩
    · exact .inl ⟨o :: a, p, b, v, by rw [e]; rfl, hw, hb, h⟩
    · by_cases hw : ∃ v, Writes o k v
      · obtain ⟨v, hw⟩ := hw
        exact .inl ⟨[], o, os, v, rfl, hw, hno, by rw [List.foldl_cons, h, update_hit hw]⟩
      · have hw : ∀ v, ¬ Writes o k v := fun v h => hw ⟨v, h⟩
        refine .inr ⟨?_, by rw [List.foldl_cons, h, update_miss hw]⟩
        intro p hp
        rcases List.mem_cons.1 hp with rfl | hp
        · exact hw
        · exact hno p hp

private theorem same_writes {o p : AOp} {k : Uuid} {v : AVal} (h : o.body = p.body) (hw : Writes o k v) :
    Writes p k v := by
  obtain ⟨more, e⟩ := hw
  have : o.vals = p.vals := congrArg (fun b => b.2.2) h
  exact ⟨more, by rw [← this]; exact e⟩

/-- Last writes depend on the events only. -/
private theorem last_same {a b : List AOp} (h : SameEvents a b) {k : Uuid} {v : AVal}
    (hl : LastWrite a k v) : LastWrite b k v := by
  obtain ⟨o, ho, hw, hmax⟩ := hl
  obtain ⟨o', ho', e⟩ := (h o.body).1 ⟨o, ho, rfl⟩
  refine ⟨o', ho', same_writes e.symm hw, fun p hp w hpw => ?_⟩
  obtain ⟨p', hp', e'⟩ := (h p.body).2 ⟨p, hp, rfl⟩
  rw [body_id e, ← body_id e']
  exact hmax p' hp' w (same_writes e'.symm hpw)

private theorem sorted_last {ops : List AOp} (hs : IdSorted ops) {a b : List AOp} {o : AOp} {k : Uuid} {v : AVal}
    (e : ops = a ++ o :: b) (hw : Writes o k v) (hb : ∀ p ∈ b, ∀ w, ¬ Writes p k w) :
    LastWrite ops k v := by
  subst e
  refine ⟨o, by simp, hw, fun p hp w hpw => ?_⟩
  rcases List.mem_append.1 hp with h | h
  · have := (List.pairwise_append.1 hs).2.2 p h o (by simp)
    exact uuid_lin.asymm this
  · rcases List.mem_cons.1 h with rfl | h
    · exact uuid_lin.irrefl _
    · exact absurd hpw (hb p h w)

/-- With consistent ids the last write is unique. -/
private theorem last_unique {ops : List AOp} (hc : Consistent ops) {k : Uuid} {v w : AVal}
    (h : LastWrite ops k v) (h' : LastWrite ops k w) : v = w := by
  obtain ⟨o, ho, hw, hm⟩ := h
  obtain ⟨p, hp, hw', hm'⟩ := h'
  have e : o.id = p.id := by
    by_cases e : o.id = p.id
    · exact e
    · have := uuid_lin.of_not (hm p hp w hw') e
      rw [hm' o ho v hw] at this; cases this
  exact writes_fun (same_writes (hc o ho p hp e) hw) hw'

/-- Reading any key of the merge of any frames gives the last write among all the ops of all the
frames, and nothing if there is none. -/
theorem C29_last_write_partial (v : View) (inputs : List (List AOp)) (hs : ∀ i ∈ inputs, IdSorted i)
    (hc : Consistent inputs.flatten) :
    ∃ out, mergeCursors v Form.LWW inputs = some (Status.OK, out) ∧ ∀ k,
      (∀ x, Lww.obj out k = some x ↔ LastWrite inputs.flatten k x) ∧
      (Lww.obj out k = none ↔ Unwritten inputs.flatten k) := by
  obtain ⟨out, e, h1, h2, _⟩ := merge_id_same v (f := Form.LWW) (.inl rfl) inputs hs hc
  refine ⟨out, e, fun k => ?_⟩
  have no : Unwritten out k ↔ Unwritten inputs.flatten k := by
    constructor <;> intro h o ho w hw
    · obtain ⟨p, hp, e⟩ := (h2 o.body).2 ⟨o, ho, rfl⟩
      exact h p hp w (same_writes e.symm hw)
    · obtain ⟨p, hp, e⟩ := (h2 o.body).1 ⟨o, ho, rfl⟩
      exact h p hp w (same_writes e.symm hw)
  rcases obj_last out k with ⟨a, o, b, x, ho, hw, hb, he⟩ | ⟨hn, he⟩
  · have hl := last_same h2 (sorted_last h1 ho hw hb)
    refine ⟨fun y => ?_, ?_⟩
    · rw [he]
      constructor
      · intro h; cases h; exact hl
      · intro h; rw [last_unique hc hl h]
    · rw [he]
      constructor
      · intro h; cases h
      · intro h
        obtain ⟨o, ho, hw, _⟩ := hl
        exact absurd hw (h o ho x)
  · refine ⟨fun y => ?_, ?_⟩
    · rw [he]
      constructor
      · intro h; cases h
      · rintro ⟨o, ho, hw, _⟩
        exact absurd hw (no.1 hn o ho y)
    · rw [he]; exact ⟨fun _ => no.1 hn, fun _ => rfl⟩

/-- Merging in more frames whose writes for the key are all older than some write that is there
already does not change what is read. -/
theorem C29_older_writes_partial (v : View) (inputs older : List (List AOp)) (k : Uuid) (x : AVal)
    (hs : ∀ i ∈ inputs ++ older, IdSorted i) (hc : Consistent (inputs ++ older).flatten)
    (hx : LastWrite inputs.flatten k x)
    (ho : ∀ p ∈ older.flatten, ∀ w, Writes p k w →
      ∃ o ∈ inputs.flatten, (∃ y, Writes o k y) ∧ Uuid.lt p.id o.id = true) :
    ∃ a b, mergeCursors v Form.LWW inputs = some (Status.OK, a) ∧
      mergeCursors v Form.LWW (inputs ++ older) = some (Status.OK, b) ∧
      Lww.obj a k = some x ∧ Lww.obj b k = some x := by
  have hfl : (inputs ++ older).flatten = inputs.flatten ++ older.flatten := List.flatten_append
  obtain ⟨a, ea, ha⟩ := C29_last_write_partial v inputs (fun i hi => hs i (List.mem_append_left _ hi))
    (fun p hp q hq => hc p (by rw [hfl]; exact List.mem_append_left _ hp) q
      (by rw [hfl]; exact List.mem_append_left _ hq))
  obtain ⟨b, eb, hb⟩ := C29_last_write_partial v (inputs ++ older) hs hc
  refine ⟨a, b, ea, eb, ((ha k).1 x).2 hx, ((hb k).1 x).2 ?_⟩
  obtain ⟨o, hoi, hw, hm⟩ := hx
  refine ⟨o, by rw [hfl]; exact List.mem_append_left _ hoi, hw, fun p hp w hpw => ?_⟩
  rw [hfl] at hp
  rcases List.mem_append.1 hp with hp | hp
  · exact hm p hp w hpw
  · obtain ⟨q, hq, ⟨y, hqy⟩, hlt⟩ := ho p hp w hpw
    cases hop : Uuid.lt o.id p.id
    · rfl
    · have := uuid_lin.trans _ _ _ hop hlt
      rw [hm q hq y hqy] at this; cases this

/-- The typed accessors give the value that is there: UUIDs and strings; of a float its bits as a signed
integer. If there is none of the type, the zero UUID, NaN or, for strings, a failed assertion. The
untyped one gives the value if it has the type asked for, and the zero UUID otherwise. -/
theorem C29_accessors_partial (m : Lww.Vals) (k : Uuid) :
    (∀ x, m k = some (.uuid x) → Lww.uuid m k = x) ∧
    (∀ cps, m k = some (.str cps) → Lww.string m k = some (cps.flatMap utf8append)) ∧
    (∀ w : Word, m k = some (.float w) → Lww.number m k = some w.toInt) ∧
    (m k = none → Lww.uuid m k = Uuid.NIL ∧ Lww.number m k = none ∧ Lww.string m k = none) ∧
    (∀ v, m k = some v → (Lww.typeOf v ≠ .float → Lww.number m k = none) ∧
      (Lww.typeOf v ≠ .str → Lww.string m k = none) ∧ (Lww.typeOf v ≠ .uuid → Lww.uuid m k = Uuid.NIL)) ∧
    (∀ v t, m k = some v → Lww.atom m k t = if Lww.typeOf v = t then v else .uuid Uuid.NIL) := by
  refine ⟨fun x h => ?_, fun c h => ?_, fun w h => ?_, fun h => ⟨?_, ?_, ?_⟩, fun v h => ⟨fun t => ?_, fun t => ?_, fun t => ?_⟩,
    fun v t h => by simp [Lww.atom, h]⟩
  · simp [Lww.uuid, Lww.atom, h, Lww.typeOf]
  · simp [Lww.string, Lww.atom, h, Lww.typeOf]
  · simp [Lww.number, Lww.atom, h, Lww.typeOf]
  · simp [Lww.uuid, Lww.atom, h]
  · simp [Lww.number, Lww.atom, h]
  · simp [Lww.string, Lww.atom, h]
  · simp [Lww.number, Lww.atom, h, t]
  · simp [Lww.string, Lww.atom, h, t]
  · simp [Lww.uuid, Lww.atom, h, t]

/-- The claim for numbers: reading gives the number written. -/
def C29_claim : Prop := ∀ (ops : List AOp) (k : Uuid) (w : Word) (m e : Int), IdSorted ops →
  LastWrite ops k (.float w) → ieee w = some (m, e) →
  ∃ n, Lww.number (Lww.obj ops) k = some n ∧ n * 2 ^ (1075 : Nat) = m * 2 ^ (e + 1075).toNat

/-- It fails: the bits of the number are taken for an integer. `1.0` reads as
`4607182418800017408`. -/
theorem C29_violated : ¬ C29_claim := by
  intro h
  have hl : LastWrite [wr 2 1 9 (.float 0x3ff0000000000000#64)] (key 9) (.float 0x3ff0000000000000#64) := by
    refine ⟨_, List.mem_singleton.2 rfl, ⟨[], rfl⟩, fun p hp w _ => ?_⟩
    rw [List.mem_singleton.1 hp]; exact uuid_lin.irrefl _
  obtain ⟨n, h1, h2⟩ := h [wr 2 1 9 (.float 0x3ff0000000000000#64)] (key 9) 0x3ff0000000000000#64
    (2 ^ 52) (-52) (List.pairwise_singleton _ _) hl (by decide)
  have e : Lww.number (Lww.obj [wr 2 1 9 (.float 0x3ff0000000000000#64)]) (key 9) =
      some 4607182418800017408 := by decide +kernel
  rw [e] at h1
  cases h1
  revert h2
  decide +kernel

example : (mergeCursors noView Form.LWW [[hd 1, wr 2 1 9 (.int 5), wr 4 2 8 (.int 1)], [wr 3 1 9 (.int 6)]]).map
    (fun r => (Lww.obj r.2 (key 9), Lww.obj r.2 (key 8), Lww.obj r.2 (key 7))) =
    some (some (.int 6), some (.int 1), none) := by decide +kernel

example : IdSorted [hd 1, wr 2 1 9 (.int 5), wr 4 2 8 (.int 1)] ∧ IdSorted [wr 3 1 9 (.int 6)] ∧
    Consistent ([hd 1, wr 2 1 9 (.int 5), wr 4 2 8 (.int 1)] ++ [wr 3 1 9 (.int 6)]) := by
  unfold IdSorted Consistent; decide

/-! ## C53 — compaction -/

/-- The claim: whenever the third atoms are UUIDs with their origins, compaction works and every
key reads the same before and after. -/
def C53_claim : Prop := ∀ (data : List Byte) (ops : List Lww.Raw),
  IdSorted (ops.map Lww.Raw.op) →
  (∀ o ∈ ops, o.op.vals = [] ∨ ∃ k more, o.op.vals = .uuid k :: more ∧ o.korigin = k.origin) →
  ∃ out, Lww.gc data ops = some out ∧
    ∀ k, Lww.obj out k = Lww.obj (ops.map Lww.Raw.op) k

/-- It fails: a key that is a name has the origin zero, which is read as an empty range, so all
names are the same key. The op for `9` is dropped because there is a later one for `8`. -/
theorem C53_violated : ¬ C53_claim := by
  intro h
  obtain ⟨out, h1, h2⟩ := h [] [⟨hd 1, 0#64⟩, ⟨wr 2 1 9 (.int 5), 0#64⟩, ⟨wr 3 2 8 (.int 6), 0#64⟩]
    (by unfold IdSorted; decide) (by
      intro o ho
      simp only [List.mem_cons, List.not_mem_nil, or_false] at ho
      rcases ho with rfl | rfl | rfl
      · exact .inl rfl
      · exact .inr ⟨_, _, rfl, rfl⟩
      · exact .inr ⟨_, _, rfl, rfl⟩)
  have e : Lww.gc [] [⟨hd 1, 0#64⟩, ⟨wr 2 1 9 (.int 5), 0#64⟩, ⟨wr 3 2 8 (.int 6), 0#64⟩] =
      some [wr 3 2 8 (.int 6)] := by decide +kernel
  rw [e] at h1
  cases h1
  have := h2 (key 9)
  revert this
  decide +kernel

/-- The op takes part in compaction. -/
private def Keyed (data : List Byte) (o : Lww.Raw) : Prop :=
  o.op.vals = [] ∨ ∃ s, Lww.keySlice data o.korigin = some s

private theorem lastIds_total (data : List Byte) : ∀ (ops : List Lww.Raw) (m : List Byte → Uuid),
    (∀ o ∈ ops, Keyed data o) → ∃ m', Lww.lastIds data ops m = some m' ∧
      ∀ s, (∀ o ∈ ops, o.op.vals ≠ [] → Lww.keySlice data o.korigin ≠ some s) → m' s = m s := by
  intro ops
  induction ops with
  | nil => intro m _; exact ⟨m, rfl, fun _ _ => rfl⟩
  | cons o os ih =>
    intro m hk
    have hk' := fun p hp => hk p (List.mem_cons_of_mem _ hp)
    cases hv : o.op.vals with
    | nil =>
      obtain ⟨m', e, h⟩ := ih m hk'
      exact ⟨m', by simp only [Lww.lastIds, hv, e], fun s hs => h s fun p hp => hs p (List.mem_cons_of_mem _ hp)⟩
    | cons x xs =>
      rcases hk o (by simp) with h0 | ⟨k, h0⟩
      · rw [hv] at h0; cases h0
      · obtain ⟨m', e, h⟩ := ih (fun x => if x = k then o.op.id else m x) hk'
        refine ⟨m', by simp only [Lww.lastIds, hv, h0, e], fun s hs => ?_⟩
        rw [h s fun p hp => hs p (List.mem_cons_of_mem _ hp)]
        have : s ≠ k := by
          rintro rfl; exact hs o (by simp) (by rw [hv]; simp) h0
        simp [this]

private theorem lastIds_at (data : List Byte) : ∀ (a b : List Lww.Raw) (o : Lww.Raw) (s : List Byte)
    (m m' : List Byte → Uuid), (∀ p ∈ a ++ o :: b, Keyed data p) → o.op.vals ≠ [] →
    Lww.keySlice data o.korigin = some s →
    (∀ p ∈ b, p.op.vals ≠ [] → Lww.keySlice data p.korigin ≠ some s) →
    Lww.lastIds data (a ++ o :: b) m = some m' → m' s = o.op.id := by
  intro a
  induction a with
  | nil =>
    intro b o s m m' hk hv hs hb h
    obtain ⟨m2, e, h2⟩ := lastIds_total data b (fun x => if x = s then o.op.id else m x)
      (fun p hp => hk p (by simp [hp]))
    cases hv' : o.op.vals with
    | nil => exact absurd hv' hv
    | cons x xs =>
      simp only [List.nil_append, Lww.lastIds, hv', hs, e, Option.some.injEq] at h
      rw [← h, h2 s hb]; simp
  | cons q a ih =>
    intro b o s m m' hk hv hs hb h
    have hk' := fun p hp => hk p (List.mem_cons_of_mem _ hp)
    cases hq : q.op.vals with
    | nil =>
      simp only [List.cons_append, Lww.lastIds, hq] at h
      exact ih b o s _ m' hk' hv hs hb h
    | cons x xs =>
      rcases hk q (by simp) with h0 | ⟨k, h0⟩
      · rw [hq] at h0; cases h0
      · simp only [List.cons_append, Lww.lastIds, hq, h0] at h
        exact ih b o s _ m' hk' hv hs hb h

private theorem filterOps_append (data : List Byte) (m : List Byte → Uuid) :
    ∀ (a b : List Lww.Raw), (∀ p ∈ a ++ b, Keyed data p) →
    ∃ x y, Lww.filterOps data m a = some x ∧ Lww.filterOps data m b = some y ∧
      Lww.filterOps data m (a ++ b) = some (x ++ y) ∧ (∀ p ∈ x, p ∈ a.map Lww.Raw.op) ∧
      ∀ p ∈ y, p ∈ b.map Lww.Raw.op := by
  have total : ∀ (b : List Lww.Raw), (∀ p ∈ b, Keyed data p) →
      ∃ y, Lww.filterOps data m b = some y ∧ ∀ p ∈ y, p ∈ b.map Lww.Raw.op := by
    intro b
    induction b with
    | nil => intro _; exact ⟨[], rfl, by simp⟩
    | cons o os ih =>
      intro hk
      obtain ⟨y, e, hy⟩ := ih fun p hp => hk p (List.mem_cons_of_mem _ hp)
      cases hv : o.op.vals with
      | nil => exact ⟨y, by simp only [Lww.filterOps, hv, e], fun p hp => List.mem_cons_of_mem _ (hy p hp)⟩
      | cons x xs =>
        rcases hk o (by simp) with h0 | ⟨k, h0⟩
        · rw [hv] at h0; cases h0
        · refine ⟨if m k = o.op.id then o.op :: y else y, by simp only [Lww.filterOps, hv, h0, e, Option.map_some], ?_⟩
          intro p hp
          split at hp
          · rcases List.mem_cons.1 hp with rfl | hp
            · simp
            · exact List.mem_cons_of_mem _ (hy p hp)
          · exact List.mem_cons_of_mem _ (hy p hp)
  intro a
  induction a with
  | nil =>
    intro b hk
    obtain ⟨y, e, hy⟩ := total b hk
    exact ⟨[], y, rfl, e, e, by simp, hy⟩
  | cons o os ih =>
    intro b hk
    obtain ⟨x, y, e1, e2, e3, h1, h2⟩ := ih b fun p hp => hk p (List.mem_cons_of_mem _ hp)
    cases hv : o.op.vals with
    | nil =>
      exact ⟨x, y, by simp only [Lww.filterOps, hv, e1], e2,
        by simp only [List.cons_append, Lww.filterOps, hv, e3],
        fun p hp => List.mem_cons_of_mem _ (h1 p hp), h2⟩
    | cons z zs =>
      rcases hk o (by simp) with h0 | ⟨k, h0⟩
      · rw [hv] at h0; cases h0
      · refine ⟨if m k = o.op.id then o.op :: x else x, y,
          by simp only [Lww.filterOps, hv, h0, e1, Option.map_some], e2, ?_, ?_, h2⟩
        · simp only [List.cons_append, Lww.filterOps, hv, h0, e3, Option.map_some]
          split <;> rfl
        · intro p hp
          split at hp
          · rcases List.mem_cons.1 hp with rfl | hp
            · simp
            · exact List.mem_cons_of_mem _ (h1 p hp)
          · exact List.mem_cons_of_mem _ (h1 p hp)

private theorem obj_none {ops : List AOp} {k : Uuid} (h : Unwritten ops k) : Lww.obj ops k = none := by
  rcases obj_last ops k with ⟨a, o, b, v, e, hw, _⟩ | ⟨_, h⟩
  · exact absurd hw (h o (by rw [e]; simp) v)
  · exact h

private theorem obj_some {a b : List AOp} {o : AOp} {k : Uuid} {v : AVal} (hw : Writes o k v)
    (hb : ∀ p ∈ b, ∀ w, ¬ Writes p k w) : Lww.obj (a ++ o :: b) k = some v := by
  have : ∀ (b : List AOp) (m : Lww.Vals), (∀ p ∈ b, ∀ w, ¬ Writes p k w) →
      b.foldl Lww.update m k = m k := by
    intro b
    induction b with
    | nil => intro m _; rfl
    | cons p ps ih =>
      intro m h
      rw [List.foldl_cons, ih _ fun q hq => h q (List.mem_cons_of_mem _ hq), update_miss (h p (by simp))]
  unfold Lww.obj
  rw [List.foldl_append, List.foldl_cons, this b _ hb, update_hit hw]

/-- What holds: if the ranges of the keys lie in the frame and tell the keys apart, then
compaction keeps every read. (They do neither for strings, where the type flags make the range
too large, nor for names, where all ranges are empty.) -/
theorem C53_reads_partial (data : List Byte) (ops : List Lww.Raw)
    (hk : ∀ o ∈ ops, o.op.vals = [] ∨ ∃ k w more s, o.op.vals = .uuid k :: w :: more ∧
      Lww.keySlice data o.korigin = some s)
    (hinj : ∀ o ∈ ops, ∀ p ∈ ops, ∀ k l a b, o.op.vals = .uuid k :: a → p.op.vals = .uuid l :: b →
      Lww.keySlice data o.korigin = Lww.keySlice data p.korigin → k = l) :
    ∃ out, Lww.gc data ops = some out ∧ (∀ o ∈ out, o ∈ ops.map Lww.Raw.op) ∧
      ∀ k, Lww.obj out k = Lww.obj (ops.map Lww.Raw.op) k := by
  have hky : ∀ o ∈ ops, Keyed data o := by
    intro o ho
    rcases hk o ho with h | ⟨k, w, more, s, _, h⟩
    · exact .inl h
    · exact .inr ⟨s, h⟩
  obtain ⟨m, em, _⟩ := lastIds_total data ops (fun _ => Uuid.NIL) hky
  obtain ⟨_, out, _, eo, _, _, hsub⟩ := filterOps_append data m [] ops hky
  refine ⟨out, by simp only [Lww.gc, em, Option.bind_some]; exact eo, hsub, fun k => ?_⟩
  rcases obj_last (ops.map Lww.Raw.op) k with ⟨a, o, b, v, e, hw, hb, h⟩ | ⟨hn, h⟩
  · rw [h]
    obtain ⟨a', ob, rfl, rfl, hob⟩ := List.map_eq_append_iff.1 e
    obtain ⟨r, b', rfl, rfl, rfl⟩ := List.map_eq_cons_iff.1 hob
    obtain ⟨more, hv⟩ := hw
    have hr : r ∈ a' ++ r :: b' := by simp
    obtain ⟨s, hs⟩ : ∃ s, Lww.keySlice data r.korigin = some s := by
      rcases hk r hr with h0 | ⟨_, _, _, s, _, hs⟩
      · rw [hv] at h0; cases h0
      · exact ⟨s, hs⟩
    have hlast : ∀ p ∈ b', p.op.vals ≠ [] → Lww.keySlice data p.korigin ≠ some s := by
      intro p hp hpv hps
      have hp' : p ∈ a' ++ r :: b' := by simp [hp]
      rcases hk p hp' with h0 | ⟨l, w, mo, _, hl, _⟩
      · exact hpv h0
      · have := hinj r hr p hp' k l _ _ hv hl (by rw [hs, hps])
        subst this
        exact hb p.op (List.mem_map_of_mem hp) w ⟨mo, hl⟩
    have hm := lastIds_at data a' b' r s _ m hky (by rw [hv]; simp) hs hlast em
    obtain ⟨x, y, _, e2, e3, _, _⟩ := filterOps_append data m a' (r :: b') hky
    rw [e3] at eo
    cases eo
    obtain ⟨_, z, _, ez, _, _, hz⟩ := filterOps_append data m [] b' (fun p hp => hky p (by simp at hp; simp [hp]))
    simp only [Lww.filterOps, hv, hs, ez, hm, if_true, Option.map_some, Option.some.injEq] at e2
    rw [← e2]
    exact obj_some ⟨more, hv⟩ fun p hp w => hb p (hz p hp) w
  · rw [h]
    exact obj_none fun o ho v => hn o (hsub o ho) v

/-- A frame whose ranges tell the keys apart: only keys with an origin of the form of a range. -/
example : let d : List Byte := [1, 2, 3, 4]
    let k1 : Uuid := u 9 0x100000000
    let k2 : Uuid := u 8 0x200000001
    Lww.gc d [⟨⟨u 2 7, u 1 7, [.uuid k1, .int 5], .reduced⟩, k1.origin⟩,
        ⟨⟨u 3 7, u 2 7, [.uuid k2, .int 6], .reduced⟩, k2.origin⟩,
        ⟨⟨u 4 7, u 3 7, [.uuid k1, .int 7], .reduced⟩, k1.origin⟩] =
      some [⟨u 3 7, u 2 7, [.uuid k2, .int 6], .reduced⟩, ⟨u 4 7, u 3 7, [.uuid k1, .int 7], .reduced⟩] := by
  decide +kernel

end Ron.Props
