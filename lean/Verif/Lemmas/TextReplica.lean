import Verif.Lemmas.Groups
import Verif.Model.TextReplica
import Verif.Props.Lineage
import Verif.Props.TextLog
import Verif.Spec.TextReplica
/-!
A store of texts gives what the store that it says gives.
-/
namespace Ron.TextReplica
open Ron Spec Commit TextFind

variable {R : Reading} {A : List Entry} {s : MemStore} {H : List Chain} {wh : Bool} {note : Uuid → List Nat}
  {mx : MaxReducer} {v : Rdt.View} {env : Env} {tip : Uuid} {now : Word}

/-! ### Lists that are the same in each place -/

theorem same2_filter {α β : Type} {P : α → β → Prop} {p : α → Bool} {q : β → Bool} (h : ∀ a b, P a b → p a = q b) :
    ∀ {l : List α} {m : List β}, Same2 P l m → Same2 P (l.filter p) (m.filter q)
  | _, _, .nil => .nil
  | a :: l, b :: m, .cons h1 h2 => by
    have ih := same2_filter h h2
    rw [List.filter_cons, List.filter_cons, h a b h1]
    split
    · exact .cons h1 ih
    · exact ih

theorem same2_last {α β : Type} {P : α → β → Prop} : ∀ {l : List α} {m : List β}, Same2 P l m → ∀ {b}, m.getLast? = some b →
    ∃ a, l.getLast? = some a ∧ P a b
  | _, _, .nil, b, h => by cases h
  | [a], [b'], .cons h1 .nil, b, h => by cases h; exact ⟨a, rfl, h1⟩
  | a :: a' :: l, b1 :: b' :: m, .cons h1 (.cons h2 h3), b, h => by
    rw [List.getLast?_cons_cons] at h ⊢
    exact same2_last (.cons h2 h3) h

theorem same2_map {α β γ δ : Type} {P : α → β → Prop} {Q : γ → δ → Prop} {f : α → γ} {g : β → δ}
    (h : ∀ a b, P a b → Q (f a) (g b)) : ∀ {l : List α} {m : List β}, Same2 P l m → Same2 Q (l.map f) (m.map g)
  | _, _, .nil => .nil
  | _ :: _, _ :: _, .cons h1 h2 => .cons (h _ _ h1) (same2_map h h2)

theorem same2_mem {α β : Type} {P : α → β → Prop} : ∀ {l : List α} {m : List β}, Same2 P l m → ∀ a ∈ l, ∃ b ∈ m, P a b
  | _, _, .nil, a, h => by cases h
  | a' :: l, b :: m, .cons h1 h2, a, h => by
    rcases List.mem_cons.1 h with rfl | h
    · exact ⟨b, List.mem_cons_self, h1⟩
    · obtain ⟨x, hx, hp⟩ := same2_mem h2 a h
      exact ⟨x, List.mem_cons_of_mem _ hx, hp⟩

theorem nodup_length {α : Type} : ∀ {l m : List α}, l.Nodup → (∀ x ∈ l, x ∈ m) → l.length ≤ m.length
  | [], _, _, _ => Nat.zero_le _
  | a :: l, m, h1, h2 => by
    obtain ⟨p, q, rfl⟩ := List.append_of_mem (h2 a List.mem_cons_self)
    obtain ⟨h3, h4⟩ := List.nodup_cons.1 h1
    have := nodup_length (m := p ++ q) h4 (fun x hx => by
      have := h2 x (List.mem_cons_of_mem _ hx)
      rcases List.mem_append.1 this with h | h
      · exact List.mem_append_left _ h
      · rcases List.mem_cons.1 h with rfl | h
        · exact absurd hx h3
        · exact List.mem_append_right _ h)
    simp only [List.length_append, List.length_cons] at this ⊢
    omega

/-! ### The records of a key -/

theorem operands_bytes (A : List Entry) (k : Key) : operands (A.map Entry.bytes) k = (entriesAt A k).map Prod.fst := by
  unfold operands entriesAt
  rw [List.filter_map, List.map_map, List.map_map]
  rfl

/-- What a record says. -/
def Says1 (R : Reading) (i : List Byte × List (Nat × OpView)) (f : Frame) : Prop :=
  Copyable i ∧ f.map AOp.body = i.2.map fun x => (R.op x.2).body

theorem says_at (h : Says R A s) (k : Key) : Same2 (Says1 R) (entriesAt A k) (stored k s) := by
  unfold entriesAt stored
  have hf := same2_filter (p := fun a : Entry => decide (a.1 = k)) (q := fun r : Key × Frame => decide (r.1 = k))
    (fun a b h => by rw [h.1]) (show Same2 (fun (a : Entry) (r : Key × Frame) => a.1 = r.1 ∧ Copyable a.2 ∧
      r.2.map AOp.body = a.2.2.map fun x => (R.op x.2).body) A s from h)
  exact same2_map (fun a b h => h.2) hf

theorem says_copyable (h : Says R A s) (k : Key) : ∀ i ∈ entriesAt A k, Copyable i := fun i hi => by
  obtain ⟨f, -, hf⟩ := same2_mem (says_at h k) i hi
  exact hf.1

theorem says_ops {l : List (List Byte × List (Nat × OpView))} {fs : List Frame} (h : Same2 (Says1 R) l fs) :
    (allOps l).map (fun o => (R.op o).body) = fs.flatten.map AOp.body := by
  induction h with
  | nil => rfl
  | @cons i f l fs h1 _ ih =>
    unfold allOps at ih ⊢
    rw [List.map_cons, List.flatten_cons, List.map_append, ih, List.flatten_cons, List.map_append, h1.2, List.map_map]
    rfl

/-- An op of a record is one of a frame of the key. -/
theorem says_op (h : Says R A s) {k : Key} {o : OpView} (ho : o ∈ opsAt A k) :
    ∃ f, (k, f) ∈ s ∧ ∃ x ∈ f, x.body = (R.op o).body := by
  have := says_ops (says_at h k)
  have hm : (R.op o).body ∈ (stored k s).flatten.map AOp.body := by
    rw [← this]; exact List.mem_map_of_mem (f := fun o => (R.op o).body) ho
  obtain ⟨x, hx, e⟩ := List.mem_map.1 hm
  obtain ⟨f, hf, hx⟩ := List.mem_flatten.1 hx
  exact ⟨f, mem_stored.1 hf, x, hx, e⟩

/-! ### Reading -/

theorem cursors_mono {n : Nat} {f : Form} {cs : List Cursor} {r : Status × List Byte}
    (e : TextMerge.mergeCursors mx n f cs = .ok (some r)) (j : Nat) : TextMerge.mergeCursors mx (n + j) f cs = .ok (some r) := by
  unfold TextMerge.mergeCursors at e ⊢
  obtain ⟨x, e1, e⟩ := Cursor.bind_ok e
  cases x with
  | none => cases e
  | some y => rw [TextMerge.master_mono e1 j, Op.obind]; exact e

/-- What is merged is read. -/
theorem read_ok {k : Key} (hk : k ≠ Key.END) (hne : entriesAt A k ≠ []) {text : List Byte}
    (h : Props.MergesAs mx k.form ((entriesAt A k).map Prod.fst) (Status.OK, text)) :
    ∃ N, ∀ n, N ≤ n → read mx n (A.map Entry.bytes) k = .ok (some (Status.OK, text)) := by
  obtain ⟨N, cs, e1, e2⟩ := h
  refine ⟨N, fun n hn => ?_⟩
  obtain ⟨j, rfl⟩ : ∃ j, n = N + j := ⟨n - N, by omega⟩
  unfold read
  rw [if_neg hk, operands_bytes]
  match hm : (entriesAt A k).map Prod.fst with
  | [] => rw [List.map_eq_nil_iff] at hm; exact absurd hm hne
  | f :: fs =>
    rw [hm] at e1
    simp only
    rw [e1, Op.obind, cursors_mono e2 j, Op.obind]
    rfl

/-- Texts that are read are shorter than 2^30 bytes. -/
def Short (mx : MaxReducer) (s : TStore) : Prop :=
  ∀ n k text, read mx n s k = .ok (some (Status.OK, text)) → text.length < 2 ^ 30

/-- The record of the beginning of a chain. -/
theorem index_text (hS : Says R A s) (L : Sound H) (K : Retains wh H note s) (hs : Short mx (A.map Entry.bytes))
    {c : Chain} (hc : c ∈ H) : ∃ text w, (∃ N, ∀ n, N ≤ n →
        read mx n (A.map Entry.bytes) (Key.mk' c.head.id Form.META) = .ok (some (Status.OK, text))) ∧
      Contents text [⟨c.head.id, formUuid Form.META, [.uuid c.object, .uuid c.rdt, w]⟩] .endOfFrame := by
  have hst : stored (Key.mk' c.head.id Form.META) s = [[c.entry note]] := by
    rw [K.index _ (form_mk _ _), filter_head L hc]; rfl
  have h := says_at hS (Key.mk' c.head.id Form.META)
  have hcop := says_copyable hS (Key.mk' c.head.id Form.META)
  rw [hst] at h
  generalize he : entriesAt A (Key.mk' c.head.id Form.META) = l at h hcop
  cases h with
  | @cons i _ _ _ h1 h2 =>
    cases h2
    obtain ⟨h1, h3⟩ := h1
    match hi : i.2, h3 with
    | [], h3 => cases h3
    | _ :: _ :: _, h3 => simp at h3
    | [x], h3 =>
      simp only [List.map_cons, List.map_nil, List.cons.injEq, and_true] at h3
      have hx : ∃ w, x.2 = ⟨c.head.id, formUuid Form.META, [.uuid c.object, .uuid c.rdt, w]⟩ := by
        obtain ⟨t, id, ref, vals⟩ := x
        simp only [Chain.entry, AOp.body, Reading.op, Prod.mk.injEq] at h3
        obtain ⟨rfl, rfl, h3⟩ := h3
        match vals, h3 with
        | [], h3 => cases h3
        | [_], h3 => simp at h3
        | [_, _], h3 => simp at h3
        | _ :: _ :: _ :: _ :: _, h3 => simp at h3
        | [a, b, w], h3 =>
          simp only [List.map_cons, List.map_nil, List.cons.injEq, and_true] at h3
          obtain ⟨h4, h5, -⟩ := h3
          cases a <;> cases h4
          cases b <;> cases h5
          exact ⟨w, rfl⟩
      obtain ⟨w, hx⟩ := hx
      have hinc : c.head.id ≠ Uuid.NIL.inc := by
        intro e
        have := (L.proper c hc).stamp.2
        rw [e] at this
        revert this
        decide +kernel
      obtain ⟨text, g1, -, -, g2⟩ := Props.C84_union_partial mx Form.META (.inr (.inr (.inr rfl))) [i] hcop
        (by
          intro j hj
          rw [List.mem_singleton.1 hj, hi]
          exact List.pairwise_singleton _ _)
        (by
          intro j hj y hy j' hj' z hz _
          rw [List.mem_singleton.1 hj, hi] at hy
          rw [List.mem_singleton.1 hj', hi] at hz
          rw [List.mem_singleton.1 hy, List.mem_singleton.1 hz])
        [x.2]
        ⟨List.pairwise_singleton _ _, fun o => ⟨fun ho => ⟨i, List.mem_singleton.2 rfl, x, by rw [hi]; exact List.mem_singleton.2 rfl,
          (List.mem_singleton.1 ho).symm⟩, fun ⟨j, hj, y, hy, e⟩ => by
            rw [List.mem_singleton.1 hj, hi] at hy
            rw [← e, List.mem_singleton.1 hy]; exact List.mem_singleton.2 rfl⟩⟩
        (by
          unfold CleanFrom mergedSteps CleanSteps
          rw [hx]
          refine ⟨fun e => absurd e hinc, fun e => ?_, ?_⟩
          · unfold folds at e
            rw [show alike _ _ = false from rfl, Bool.and_false] at e
            cases e
          · show CleanSteps _ _ _ _ _ [.endChunk 0]
            unfold CleanSteps
            exact ⟨by decide, by unfold CleanSteps; trivial⟩)
        (by show 1 < 2 ^ 31; decide)
      have hr := read_ok (A := A) (k := Key.mk' c.head.id Form.META) (text := text) (Key.mk_ne_end (by decide))
        (by rw [he]; exact List.cons_ne_nil _ _) (by rw [he, form_mk]; exact g1)
      refine ⟨text, w, hr, ?_⟩
      obtain ⟨N, hr⟩ := hr
      rw [← hx]
      exact g2 (hs N _ text (hr N (Nat.le_refl _)))

/-- The log of an object. -/
theorem log_text (hS : Says R A s) (hL : Unfolded A) (hs : Short mx (A.map Entry.bytes)) {k : Key} (hk : k.form = Form.LOG)
    (hne : entriesAt A k ≠ []) : ∃ text, (∃ N, ∀ n, N ≤ n → read mx n (A.map Entry.bytes) k = .ok (some (Status.OK, text))) ∧
      Contents text (opsAt A k) .endOfFrame := by
  obtain ⟨text, g1, g2⟩ := Props.C110_partial mx (entriesAt A k) (says_copyable hS k) (hL.mix k (.inl hk)) (hL.runs k hk)
    (hL.few k)
  have hr := read_ok (A := A) (k := k) (text := text) (by
    intro e
    rw [e] at hk
    exact absurd hk (by decide)) hne (by rw [hk]; exact g1)
  refine ⟨text, hr, ?_⟩
  obtain ⟨N, hr⟩ := hr
  exact g2 (hs N _ text (hr N (Nat.le_refl _)))

/-- The frames of the keys below those of metadata: they have ops, none of which is a record of metadata. -/
theorem low_ops (L : Sound H) (K : Retains wh H note s) {k : Key} (hl : k.form.toNat < Form.META.toNat) {f : Frame}
    (hf : (k, f) ∈ s) : f ≠ [] ∧ ∀ o ∈ f, o.ref ≠ formUuid Form.META := by
  by_cases hz : k.form = Form.ZERO
  · obtain ⟨-, i, hi⟩ := K.tips _ hf hz
    simp only at hi
    subst hi
    refine ⟨List.cons_ne_nil _ _, fun o ho => ?_⟩
    rw [List.mem_singleton.1 ho]
    show formUuid Form.ZERO ≠ formUuid Form.META
    decide +kernel
  · by_cases hlog : k.form = Form.LOG
    · refine ⟨log_full K hf hlog, fun o ho => ?_⟩
      obtain ⟨c, hc, -, x, hx, e⟩ := log_ops K hf hlog ho
      have := ops_not_meta (L.proper c hc) x hx
      rwa [show x.ref = o.ref from congrArg (fun b : Uuid × Uuid × List AVal => b.2.1) e] at this
    · have hmeta : k.form ≠ Form.META := by
        intro e
        rw [e] at hl
        omega
      obtain ⟨h1, h2⟩ := (K.state k hlog hmeta hz).part f (mem_stored.2 hf)
      refine ⟨h1, fun o ho => ?_⟩
      obtain ⟨c, hc, x, hx, e⟩ := h2 o ho
      have := ops_not_meta (L.proper c (List.mem_filter.1 hc).1) x hx
      rwa [show x.ref = o.ref from congrArg (fun b : Uuid × Uuid × List AVal => b.2.1) e] at this

/-- A key below those of metadata that has records: there is an op, and it is not a record of metadata. -/
theorem low_text (hS : Says R A s) (hL : Unfolded A) (L : Sound H) (K : Retains wh H note s)
    (hs : Short mx (A.map Entry.bytes)) {k : Key} (hl : k.form.toNat < Form.META.toNat) (hne : entriesAt A k ≠ []) :
    ∃ text o ops, (∃ N, ∀ n, N ≤ n → read mx n (A.map Entry.bytes) k = .ok (some (Status.OK, text))) ∧
      Contents text (o :: ops) .endOfFrame ∧ o.ref ≠ formUuid Form.META := by
  have hend : k ≠ Key.END := by
    intro e
    rw [e] at hl
    revert hl
    decide
  have hcop := says_copyable hS k
  have hat := says_at hS k
  have hfull : ∀ i ∈ entriesAt A k, i.2 ≠ [] := by
    intro i hi e
    obtain ⟨f, hf, -, hb⟩ := same2_mem hat i hi
    rw [e] at hb
    exact (low_ops L K hl (mem_stored.1 hf)).1 (List.map_eq_nil_iff.1 hb)
  have href : ∀ o ∈ opsAt A k, o.ref ≠ formUuid Form.META := by
    intro o ho
    obtain ⟨f, hf, x, hx, e⟩ := says_op hS ho
    have := (low_ops L K hl hf).2 x hx
    rwa [show x.ref = o.ref from congrArg (fun b : Uuid × Uuid × List AVal => b.2.1) e] at this
  have hmem : ∀ i ∈ entriesAt A k, ∀ x ∈ i.2, x.2 ∈ opsAt A k := fun i hi x hx =>
    List.mem_flatten.2 ⟨_, List.mem_map_of_mem hi, List.mem_map_of_mem hx⟩
  obtain ⟨i0, hi0⟩ := List.exists_mem_of_ne_nil _ hne
  obtain ⟨x0, hx0⟩ := List.exists_mem_of_ne_nil _ (hfull i0 hi0)
  have fin : ∀ {text : List Byte} {ops : List OpView}, Props.MergesAs mx k.form ((entriesAt A k).map Prod.fst) (Status.OK, text) →
      (text.length < 2 ^ 30 → Contents text ops .endOfFrame) → ops ≠ [] → (∀ o ∈ ops, o ∈ opsAt A k) →
      ∃ text o ops, (∃ N, ∀ n, N ≤ n → read mx n (A.map Entry.bytes) k = .ok (some (Status.OK, text))) ∧
        Contents text (o :: ops) .endOfFrame ∧ o.ref ≠ formUuid Form.META := by
    intro text ops g1 g2 g3 g4
    have hr := read_ok (A := A) (k := k) (text := text) hend hne g1
    match ops, g2, g3, g4 with
    | o :: ops, g2, _, g4 =>
      refine ⟨text, o, ops, hr, ?_, href o (g4 o List.mem_cons_self)⟩
      obtain ⟨N, hr⟩ := hr
      exact g2 (hs N _ text (hr N (Nat.le_refl _)))
  by_cases hz : k.form = Form.ZERO
  · rcases List.eq_nil_or_concat (entriesAt A k) with e | ⟨pre, i, e⟩
    · exact absurd e hne
    · rw [List.concat_eq_append] at e
      have hi : i ∈ entriesAt A k := by rw [e]; simp
      have hfil : ((entriesAt A k).filter fun i => !i.2.isEmpty) = entriesAt A k := by
        rw [List.filter_eq_self]
        intro j hj
        simp [hfull j hj]
      obtain ⟨f, hf, -, hb⟩ := same2_mem hat i hi
      obtain ⟨hk0, t, ht⟩ := K.tips _ (mem_stored.1 hf) hz
      simp only at ht hk0
      subst ht
      match hi2 : i.2, hb with
      | [], hb => cases hb
      | _ :: _ :: _, hb => simp at hb
      | [x], hb =>
        simp only [List.map_cons, List.map_nil, List.cons.injEq, and_true] at hb
        have hxm := hmem i hi x (by rw [hi2]; exact List.mem_singleton.2 rfl)
        have hid : x.2.id ≠ Uuid.NIL.inc := hL.tips x.2 (by rw [← hk0]; exact hxm)
        have ht := Props.frameText_terms (hcop i hi).text x (by rw [hi2]; exact List.mem_singleton.2 rfl)
        have hfo : folds Uuid.NIL [.uuid Uuid.FATAL] x.2 = false := by
          unfold folds follows
          rw [decide_eq_false hid]
          rfl
        obtain ⟨text, g1, g2⟩ := Props.C84_last_partial mx k.form (.inl hz) (entriesAt A k) hcop i
          (by rw [hfil, e, List.getLast?_concat])
          (by
            rw [hi2]
            unfold CleanFrom
            rw [copySteps]
            split
            · unfold CleanSteps
              exact ⟨fun h => absurd h hid, fun h => (by rw [hfo] at h; cases h), by unfold copySteps CleanSteps; trivial⟩
            · rename_i h1
              unfold CleanSteps
              refine ⟨fun h => absurd h hid, fun h => (by rw [hfo] at h; cases h), ?_⟩
              unfold CleanSteps
              exact ⟨ht.resolve_left h1, by unfold copySteps CleanSteps; trivial⟩)
          (by rw [hi2]; show 1 < 2 ^ 31; decide)
        rw [hi2] at g2
        exact fin g1 g2 (List.cons_ne_nil _ _) (fun o ho => by
          rw [List.mem_singleton.1 ho]; exact hxm)
  · by_cases hlog : k.form = Form.LOG
    · obtain ⟨text, g1, g2⟩ := Props.C110_partial mx (entriesAt A k) hcop (hL.mix k (.inl hlog)) (hL.runs k hlog) (hL.few k)
      refine fin (by rw [hlog]; exact g1) g2 ?_ (fun o ho => ho)
      exact List.ne_nil_of_mem (hmem i0 hi0 x0 hx0)
    · have hmeta : k.form ≠ Form.META := by
        intro e
        rw [e] at hl
        omega
      have ho := K.state k hlog hmeta hz
      have hform : k.form = Form.YARN := by
        obtain ⟨f, hf, -⟩ := same2_mem hat i0 hi0
        obtain ⟨hn, hp⟩ := ho.part f hf
        obtain ⟨o0, ho0⟩ := List.exists_mem_of_ne_nil _ hn
        obtain ⟨c, hc, -⟩ := hp o0 ho0
        obtain ⟨hcH, e⟩ := List.mem_filter.1 hc
        have e := of_decide_eq_true e
        have ht := (L.object c hcH).2
        rw [← e] at hl ⊢
        unfold Key.ofUuids at hl ⊢
        rw [form_mk] at hl ⊢
        exact types_low ht hl
      have hord : OrderedFrames (entriesAt A k) := by
        intro i hi
        obtain ⟨f, hf, -, hb⟩ := same2_mem hat i hi
        have hsort := ho.order (by rw [hform]; decide) f hf
        have hid : f.map AOp.id = i.2.map fun x => x.2.id := by
          have := congrArg (List.map fun b : Uuid × Uuid × List AVal => b.1) hb
          rw [List.map_map, List.map_map] at this
          exact this
        have h1 : (f.map AOp.id).Pairwise fun a b => Uuid.lt a b = true := List.pairwise_map.2 hsort
        rw [hid] at h1
        exact List.pairwise_map.1 h1
      obtain ⟨out, hu⟩ := TextMerge.union_exists hord (hL.one k hform)
      have hsub : ∀ o ∈ out, o ∈ opsAt A k := by
        intro o h
        obtain ⟨i, hi, x, hx, rfl⟩ := (hu.same o).1 h
        exact hmem i hi x hx
      have hlen : out.length ≤ (opsAt A k).length := by
        have hnd : out.Nodup := List.Pairwise.imp (fun h e => by
          rw [e] at h; rw [Rdt.uuid_lin.irrefl] at h; cases h) hu.sorted
        exact nodup_length hnd hsub
      obtain ⟨text, g1, -, -, g2⟩ := Props.C84_union_partial mx k.form (.inr (.inr (.inl hform))) (entriesAt A k) hcop hord
        (hL.one k hform) out hu (TextMerge.mixable_clean (hL.mix k (.inr hform)) hsub) (by have := hL.few k; omega)
      exact fin g1 g2 (List.ne_nil_of_mem ((hu.same x0.2).2 ⟨i0, hi0, x0, hx0, rfl⟩)) hsub

/-! ### The beginning of a chain -/

/-- The frame before a key, when the transaction has no records. -/
theorem seek_start (hv : env.mg = Rdt.mergeCursors v) {k j : Key} (hj : j ≠ Key.END) {f : Frame}
    (h : Engine.seekPrev (Rdt.mergeCursors v) s k = some (Status.OK, j, f)) :
    Commit.seekPrev env (start s tip now) k = some (Status.OK, f) := by
  unfold Commit.seekPrev
  rw [show (start s tip now).main = s from rfl, hv, h, Option.bind_some]
  simp only
  rw [if_neg (by decide)]
  have hk : (MemStore.Iter.fresh.seekTo (start s tip now).mem k true).key (start s tip now).mem = some Key.END := by
    rcases mem_seek (s := []) List.Pairwise.nil k with ⟨-, h⟩ | ⟨r, h, -⟩
    · exact h
    · cases h
  rw [hk, Option.bind_some]
  simp only [if_neg hj, if_true]
  rw [if_neg (fun h => h rfl), if_pos (Ne.symm hj)]

theorem load_entry {e : AOp} {c : Chain} (h : e.body = (c.entry note).body) :
    OpMeta.nil.load e = (Status.OK, Commit.headOf c) := by
  have h1 : e.id = c.head.id := congrArg (fun b : Uuid × Uuid × List AVal => b.1) h
  have h2 : e.ref = formUuid Form.META := congrArg (fun b : Uuid × Uuid × List AVal => b.2.1) h
  have h3 : e.vals = _ := congrArg (fun b : Uuid × Uuid × List AVal => b.2.2) h
  unfold OpMeta.load
  rw [if_neg (by simp [h2]), h3]
  simp only [Chain.entry, AOp.body, h1]
  rfl

/-- The beginning of the chain of an event is the same in the texts. -/
theorem head_sim (hS : Says R A s) (hL : Unfolded A) (L : Sound H) (K : Carries wh H note s)
    (hs : Short mx (A.map Entry.bytes)) (hv : env.mg = Rdt.mergeCursors v) (id : Uuid) :
    ∃ h text, findChainHeadMeta env (start s tip now) id = some h ∧
      (∃ N, ∀ n, N ≤ n → seekPrev mx n (A.map Entry.bytes) (Key.mk' id Form.META) = .ok (some (Status.OK, text))) ∧
      TextFind.headOf id text = .ok h ∧ (h.1.ok = true → ∃ c ∈ H, h = (Status.OK, Commit.headOf c)) := by
  obtain ⟨t, ht⟩ := K.tip
  obtain ⟨r, hr, hlast, hle, -⟩ := seek_last (k := Key.mk' id Form.META) K.sorted ht (Key.zero_le _)
  have hform := form_le hle
  rw [form_mk] at hform
  have hend : r.1 ≠ Key.END := by
    intro e
    rw [e] at hform
    revert hform
    decide
  have hfil := same2_filter (p := fun a : Entry => !Key.lt (Key.mk' id Form.META) a.1)
    (q := fun r : Key × Frame => !Key.lt (Key.mk' id Form.META) r.1)
    (fun a b h => by rw [h.1]) (show Same2 (fun (a : Entry) (r : Key × Frame) => a.1 = r.1 ∧ Copyable a.2 ∧
      r.2.map AOp.body = a.2.2.map fun x => (R.op x.2).body) A s from hS)
  obtain ⟨a, ha, hak, -⟩ := same2_last hfil hlast
  have haA : a ∈ A := by
    have := List.mem_of_getLast? ha
    exact (List.mem_filter.1 this).1
  have hT : ∀ n, seekPrev mx n (A.map Entry.bytes) (Key.mk' id Form.META) = read mx n (A.map Entry.bytes) r.1 := by
    intro n
    unfold seekPrev
    rw [List.filter_map, List.getLast?_map,
      show (List.filter ((fun r : Key × List Byte => !(Key.mk' id Form.META).lt r.1) ∘ Entry.bytes) A).getLast? = some a from ha,
      Option.map_some]
    show read _ _ _ a.1 = _
    rw [hak]
  have hO : ∀ {f : Frame}, Engine.read (Rdt.mergeCursors v) s r.1 = some (Status.OK, f) →
      Commit.seekPrev env (start s tip now) (Key.mk' id Form.META) = some (Status.OK, f) := by
    intro f h
    refine seek_start hv hend ?_
    unfold Engine.seekPrev
    rw [hlast]
    simp only
    rw [h]
    rfl
  have hF : ∀ {o : AOp} {f : Frame}, Engine.read (Rdt.mergeCursors v) s r.1 = some (Status.OK, o :: f) →
      findChainHeadMeta env (start s tip now) id =
        some (if o.id.origin ≠ id.origin ∨ o.ref ≠ formUuid Form.META then (Status.NOT_FOUND, OpMeta.nil)
          else OpMeta.nil.load o) := by
    intro o f h
    unfold findChainHeadMeta
    rw [hO h, Option.map_some]
    simp only
    rw [if_neg (by decide)]
  by_cases hm : r.1.form = Form.META
  · have hst : r.2 ∈ stored r.1 s := mem_stored.2 hr
    rw [K.index _ hm] at hst
    obtain ⟨c, hc, -⟩ := List.mem_map.1 hst
    obtain ⟨hcH, hck⟩ := List.mem_filter.1 hc
    have hck := of_decide_eq_true hck
    obtain ⟨e, es, he, hb⟩ := read_index (v := v) L K.toRetains hcH
    obtain ⟨text, w, hN, hC⟩ := index_text (mx := mx) hS L K.toRetains hs hcH
    rw [hck] at he hN
    have hoid : e.id = c.head.id := congrArg (fun b : Uuid × Uuid × List AVal => b.1) hb
    have horef : e.ref = formUuid Form.META := congrArg (fun b : Uuid × Uuid × List AVal => b.2.1) hb
    refine ⟨_, text, hF he, ?_, ?_, ?_⟩
    · obtain ⟨N, hN⟩ := hN
      exact ⟨N, fun n hn => (hT n).trans (hN n hn)⟩
    · rw [head_view hC, hoid, horef, load_entry hb]
      by_cases ho : c.head.id.origin = id.origin
      · rw [if_neg (by simp [ho]), if_neg (by simp [ho])]
        rfl
      · rw [if_pos (.inl ho), if_pos (.inl ho)]
    · rw [load_entry hb]
      intro hok
      split at hok
      · exact absurd hok (by decide)
      · rename_i h
        rw [if_neg h]
        exact ⟨c, hcH, rfl⟩
  · have hlow : r.1.form.toNat < Form.META.toNat := by
      rcases Nat.lt_or_eq_of_le hform with h | h
      · exact h
      · exact absurd (form_inj h) hm
    obtain ⟨o, f, he, href⟩ := read_low (v := v) L K.toRetains hr hlow
    obtain ⟨text, o', ops, hN, hC, href'⟩ := low_text (mx := mx) hS hL L K.toRetains hs hlow (by
      refine List.ne_nil_of_mem (a := a.2) ?_
      unfold entriesAt
      exact List.mem_map_of_mem (List.mem_filter.2 ⟨haA, by simp [hak]⟩))
    refine ⟨_, text, hF he, ?_, ?_, ?_⟩
    · obtain ⟨N, hN⟩ := hN
      exact ⟨N, fun n hn => (hT n).trans (hN n hn)⟩
    · rw [head_view hC, if_pos (.inr href'), if_pos (.inr href)]
    · rw [if_pos (.inr href)]
      intro h
      exact absurd h (by decide)

/-! ### Finding an event -/

/-- Hashes that are all the same. -/
def flat : Hashing := ⟨fun _ _ _ => [], fun _ => [], fun _ => []⟩

theorem next_shape {o p : AOp} (h : o.id = p.id ∧ o.ref = p.ref) (m M : OpMeta) : m.next flat o M = m.next flat p M := by
  unfold OpMeta.next flat
  rw [h.1, h.2]

theorem walk_shape (id : Uuid) : ∀ {l k : List AOp} (m : OpMeta), (l.map fun o => (o.id, o.ref)) = (k.map fun o => (o.id, o.ref)) →
    walkChain flat id m l = walkChain flat id m k
  | [], [], _, _ => rfl
  | [], _ :: _, _, h => by cases h
  | _ :: _, [], _, h => by cases h
  | o :: l, p :: k, m, h => by
    rw [List.map_cons, List.map_cons] at h
    injection h with h1 h2
    injection h1 with h1 h3
    rw [walkChain, walkChain, h1, h3, next_shape ⟨h1, h3⟩]
    split
    · exact walk_shape id m h2
    · split
      · rfl
      · congr 1
        funext m'
        split
        · rfl
        · exact walk_shape id m' h2

theorem lookup_shape (id : Uuid) (m : OpMeta) : ∀ {l k : List AOp}, (l.map fun o => (o.id, o.ref)) = (k.map fun o => (o.id, o.ref)) →
    opsLookup flat m id l = opsLookup flat m id k
  | [], [], _ => rfl
  | [], _ :: _, h => by cases h
  | _ :: _, [], h => by cases h
  | o :: l, p :: k, h => by
    have hh := h
    rw [List.map_cons, List.map_cons] at h
    injection h with h1 h2
    injection h1 with h1 h3
    unfold opsLookup
    by_cases hd : o.id = m.id
    · rw [List.dropWhile_cons_of_neg (by simp [hd]), List.dropWhile_cons_of_neg (by simp [← h1, hd])]
      exact walk_shape id m h2
    · rw [List.dropWhile_cons_of_pos (by simp [hd]), List.dropWhile_cons_of_pos (by simp [← h1, hd])]
      exact lookup_shape id m h2

/-- Looking up an event in the texts does what looking it up in the ops does. -/
theorem find_sim (hash : Cursor → Digest → Digest → Digest) (hS : Says R A s) (hL : Unfolded A) (L : Sound H)
    (K : Carries wh H note s) (hs : Short mx (A.map Entry.bytes)) (hv : env.mg = Rdt.mergeCursors v) (hf : env.hs = flat)
    {id : Uuid} {st : Status} {M : OpMeta} {c' : Commit} (e : Commit.findOpMeta env (start s tip now) id = some (st, M, c')) :
    ∃ N m, SameMeta m M ∧ ∀ n, N ≤ n → findOpMeta mx hash n (A.map Entry.bytes) id = .ok (some (st, m)) := by
  obtain ⟨h, text, e1, ⟨N, hN⟩, e2, hok⟩ := head_sim (tip := tip) (now := now) hS hL L K hs hv id
  unfold Commit.findOpMeta at e
  rw [e1, Option.bind_some] at e
  have key : ∀ n, N ≤ n → findOpMeta mx hash n (A.map Entry.bytes) id =
      if ¬ h.1.ok then .ok (some h)
      else if h.2.id = id then .ok (some (Status.OK, h.2))
      else (read mx n (A.map Entry.bytes) (Key.mk' h.2.object Form.LOG)).bind fun l =>
        match l with
        | none => .ok none
        | some l => if ¬ l.1.ok then .ok (some (l.1, h.2)) else findInLog hash n h.2 id l.2 := by
    intro n hn
    unfold findOpMeta
    rw [hN n hn, Op.obind]
    simp only
    rw [if_neg (by decide), e2, Op.obind]
    rfl
  have same : ∀ m : OpMeta, SameMeta m m := fun m => ⟨rfl, rfl, rfl, rfl, rfl⟩
  by_cases h1 : h.1.ok = true
  · rw [if_neg (by simp [h1])] at e
    by_cases h2 : h.2.id = id
    · rw [if_pos h2] at e
      cases e
      refine ⟨N, h.2, same _, fun n hn => ?_⟩
      rw [key n hn, if_neg (by simp [h1]), if_pos h2]
    · rw [if_neg h2] at e
      obtain ⟨c, hc, hce⟩ := hok h1
      obtain ⟨l, hl, hb⟩ := read_log (v := v) K.toRetains (k := Key.mk' c.object Form.LOG) (form_mk _ _)
      have hlread : Commit.read env (start s tip now) (Key.mk' h.2.object Form.LOG) [] = some (Status.OK, l, start s tip now) := by
        rw [hce]
        show Commit.read env (start s tip now) (Key.mk' c.object Form.LOG) [] = _
        unfold Commit.read
        rw [show (start s tip now).main = s from rfl, hv, hl, Option.bind_some]
        simp only
        rw [if_neg (by decide)]
        rcases MemStore.read_eq (Rdt.mergeCursors v) (s := []) List.Pairwise.nil (Key.mk' c.object Form.LOG) [] with ⟨-, e⟩ | ⟨f, h, -⟩ | ⟨h, -⟩
        · rw [show (start s tip now).mem = [] from rfl, e, Option.bind_some]
          simp only
          rw [if_neg (by decide)]
          cases l with
          | nil => rfl
          | cons o l => rfl
        · cases h
        · exact absurd (show 2 ≤ 0 from h) (by decide)
      rw [hlread, Option.bind_some] at e
      simp only at e
      rw [if_neg (by decide)] at e
      have e : opsLookup flat h.2 id l = some (st, M) := by
        unfold opsLookup
        rw [hf] at e
        cases hd : List.dropWhile (fun o : AOp => decide (o.id ≠ h.2.id)) l with
        | nil =>
          rw [hd] at e
          cases e
          rfl
        | cons o os =>
          rw [hd] at e
          simp only at e ⊢
          obtain ⟨x, hx, ex⟩ := Option.map_eq_some_iff.1 e
          cases ex
          exact hx
      have hne : entriesAt A (Key.mk' c.object Form.LOG) ≠ [] := by
        intro h0
        obtain ⟨f, hf⟩ := log_mem K.toRetains hc
        have := says_at hS (Key.mk' c.object Form.LOG)
        rw [h0] at this
        have h2 := mem_stored.2 hf
        generalize stored (Key.mk' c.object Form.LOG) s = fs at this h2
        cases this
        cases h2
      obtain ⟨lt, ⟨N2, hN2⟩, hC⟩ := log_text (mx := mx) hS hL hs (k := Key.mk' c.object Form.LOG) (form_mk _ _) hne
      have hshape : (l.map fun o => (o.id, o.ref)) = (((opsAt A (Key.mk' c.object Form.LOG)).map shape).map fun o => (o.id, o.ref)) := by
        have h1 := says_ops (says_at hS (Key.mk' c.object Form.LOG))
        rw [K.log _ (form_mk _ _), ← hb] at h1
        have := congrArg (List.map fun b : Uuid × Uuid × List AVal => (b.1, b.2.1)) h1
        rw [List.map_map, List.map_map] at this
        rw [List.map_map]
        exact this.symm
      rw [lookup_shape id h.2 hshape] at e
      obtain ⟨N3, m', hm', hN3⟩ := find_ops hash hC (same h.2) e
      refine ⟨max N (max N2 N3), m', hm', fun n hn => ?_⟩
      rw [key n (by omega), if_neg (by simp [h1]), if_neg h2]
      have ho : h.2.object = c.object := by rw [hce]; rfl
      rw [ho, hN2 n (by omega), Op.obind]
      simp only
      rw [if_neg (by decide), hN3 n (by omega)]
  · rw [if_pos h1] at e
    cases e
    refine ⟨N, h.2, same _, fun n hn => ?_⟩
    rw [key n hn, if_pos h1]

end Ron.TextReplica
