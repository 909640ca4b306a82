import Verif.Lemmas.TextChain
import Verif.Lemmas.Compare
import Verif.Model.TextFind
import Verif.Spec.TextFind
/-!
Looking up an event in the text of a log.
-/
namespace Ron.TextFind
open Ron Commit Spec TextChain

/-- The ops after a cursor, as they read; `Next` says how they end, and whether there is an op. -/
inductive Reads : Cursor → List OpView → Prop
  | stop {c c' st} : c.next = .ok (c', st) → st ≠ .ok → c'.valid = false → Reads c []
  | more {c c' o l} : c.next = .ok (c', .ok) → c'.valid = true → heading c' = some (shape o) → Reads c' l → Reads c (o :: l)

theorem heading_view {c : Cursor} {o : OpView} (h : viewOp c = .ok o) : heading c = some (shape o) := by
  unfold viewOp at h
  split at h
  · rename_i id ref vals e
    obtain ⟨vs, -, h⟩ := Cursor.bind_ok h
    injection h with h
    subst h
    unfold heading Cursor.id Cursor.ref
    rw [e]
    rfl
  · cases h

theorem reads_of {buf : List Byte} : ∀ {l : List Cursor} {c : Cursor} {st : Cursor.NextStatus} {ops : List OpView},
    Chains.Trail c l st → Cursor.Basic buf c → (c.span ≠ 0 → c.cs ≠ 0) → collect viewOp l = .ok ops → Reads c ops := by
  intro l
  induction l with
  | nil =>
    intro c st ops h hb hs hc
    cases hc
    cases h with
    | stop h1 h2 => exact .stop h1 h2 (by
        have := (Cursor.next_valid hb hs h1).2 h2
        unfold Cursor.valid; simp [this])
  | cons c' l ih =>
    intro c st ops h hb hs hc
    cases h with
    | more h1 h2 =>
      unfold collect at hc
      obtain ⟨o, e1, hc⟩ := Cursor.bind_ok hc
      obtain ⟨os, e2, hc⟩ := Cursor.bind_ok hc
      injection hc with hc
      subst hc
      have hv := (Cursor.next_valid hb hs h1).1 rfl
      exact .more h1 (Cursor.valid_iff.2 hv) (heading_view e1) (ih h2 (Cursor.next_cases hb h1).1 (fun _ => hv) e2)

theorem contents_reads {text : List Byte} {ops : List OpView} {st : Cursor.NextStatus} (h : Contents text ops st) :
    Reads (Cursor.init text) ops := by
  obtain ⟨fuel, l, h1, h2⟩ := h
  exact reads_of (Chains.trail_of_iterate _ _ _ _ h1) (Cursor.Basic.init text) (fun h => absurd rfl h) h2

/-- `Next` on metadata that is the same but for the hash. -/
theorem next_same {hs : Hashing} (hash : Cursor → Digest → Digest → Digest) {m M M' : OpMeta} {c : Cursor} {o : OpView}
    (h : SameMeta m M) (e : M.next hs (shape o) M = some M') :
    ∃ m', nextMeta hash m c (shape o) = .ok m' ∧ SameMeta m' M' := by
  obtain ⟨h1, h2, h3, h4, h5⟩ := h
  unfold OpMeta.next at e
  split at e
  · rename_i hc
    injection e with e
    subst e
    refine ⟨⟨o.id, m.rdt, m.object, hash c m.hash m.hash, M.id.value,
      if o.ref.origin ≠ o.id.origin ∨ M.id.value ≠ o.ref.value then o.id.value else m.chain⟩, ?_, rfl, h2, h3, rfl, ?_⟩
    · unfold nextMeta OpMeta.next
      rw [h1, if_pos hc]
      rfl
    · simp only [h5]
      rfl
  · cases e

theorem walk_ops {hs : Hashing} (hash : Cursor → Digest → Digest → Digest) {id : Uuid} {c : Cursor} {ops : List OpView}
    (h : Reads c ops) : ∀ {m M M' : OpMeta} {s : Status}, SameMeta m M →
    walkChain hs id M (ops.map shape) = some (s, M') →
    ∃ N m', SameMeta m' M' ∧ ∀ n, N ≤ n → walkLog hash id n m c = .ok (some (s, m')) := by
  induction h with
  | @stop c c' st h1 h2 h3 =>
    intro m M M' s hm e
    refine ⟨1, m, ?_, fun n hn => ?_⟩
    · rw [List.map_nil, walkChain] at e
      split at e <;> · injection e with e; injection e with _ e; rw [← e]; exact hm
    · obtain ⟨n, rfl⟩ : ∃ k, n = k + 1 := ⟨n - 1, by omega⟩
      rw [walkLog, h1, Op.obind, if_pos h2, h3, if_neg (by decide)]
      rw [List.map_nil, walkChain] at e
      split at e
      · rename_i hv; injection e with e; injection e with e _; rw [if_pos hv, e]
      · rename_i hv; injection e with e; injection e with e _; rw [if_neg hv, e]
  | @more c c' o l h1 h2 h3 _ ih =>
    intro m M M' s hm e
    rw [List.map_cons, walkChain] at e
    by_cases ho : o.id.origin = id.origin
    · rw [if_neg (fun x => x ho)] at e
      by_cases hr : o.ref = M.id
      · rw [if_neg (fun x => x hr)] at e
        obtain ⟨M1, e1, e⟩ := TextMerge.optBind e
        obtain ⟨m1, g1, hm1⟩ := next_same hash (c := c') hm e1
        have hr' : (shape o).ref = m.id := by rw [hm.1]; exact hr
        by_cases hf : M1.id = id
        · rw [if_pos hf] at e
          injection e with e
          injection e with e e'
          subst e e'
          refine ⟨1, m1, hm1, fun n hn => ?_⟩
          obtain ⟨n, rfl⟩ : ∃ k, n = k + 1 := ⟨n - 1, by omega⟩
          rw [walkLog, h1, Op.obind, if_neg (fun x => x rfl), h3]
          simp only
          rw [if_neg (fun x => x ho), if_neg (fun x => x hr'), g1, Op.obind, if_pos (hm1.1.trans hf), if_pos h2]
        · rw [if_neg hf] at e
          obtain ⟨N, m', g2, g3⟩ := ih hm1 e
          refine ⟨N + 1, m', g2, fun n hn => ?_⟩
          obtain ⟨n, rfl⟩ : ∃ k, n = k + 1 := ⟨n - 1, by omega⟩
          rw [walkLog, h1, Op.obind, if_neg (fun x => x rfl), h3]
          simp only
          rw [if_neg (fun x => x ho), if_neg (fun x => x hr'), g1, Op.obind, if_neg (fun x => hf (hm1.1 ▸ x)),
            g3 n (by omega)]
      · rw [if_pos (show (shape o).ref ≠ M.id from hr)] at e
        injection e with e
        injection e with e e'
        subst e e'
        refine ⟨1, m, hm, fun n hn => ?_⟩
        obtain ⟨n, rfl⟩ : ∃ k, n = k + 1 := ⟨n - 1, by omega⟩
        rw [walkLog, h1, Op.obind, if_neg (fun x => x rfl), h3]
        simp only
        rw [if_neg (fun x => x ho), if_pos (show (shape o).ref ≠ m.id by rw [hm.1]; exact hr)]
    · rw [if_pos (show (shape o).id.origin ≠ id.origin from ho)] at e
      obtain ⟨N, m', g2, g3⟩ := ih hm e
      refine ⟨N + 1, m', g2, fun n hn => ?_⟩
      obtain ⟨n, rfl⟩ : ∃ k, n = k + 1 := ⟨n - 1, by omega⟩
      rw [walkLog, h1, Op.obind, if_neg (fun x => x rfl), h3]
      simp only
      rw [if_pos (show (shape o).id.origin ≠ id.origin from ho), g3 n (by omega)]

/-- The first loop: stops at the head, or at the end. -/
theorem seek_ops {head : Uuid} {c : Cursor} {ops : List OpView} (h : Reads c ops) :
    ∃ N c', (∀ n, N ≤ n → c.next.bind (fun r => seekHead head n r.1) = .ok (some c')) ∧
      match ops.dropWhile (fun o => decide (o.id ≠ head)) with
      | [] => c'.valid = false
      | _ :: l => c'.valid = true ∧ Reads c' l := by
  induction h with
  | @stop c c' st h1 h2 h3 =>
    refine ⟨1, c', fun n hn => ?_, h3⟩
    obtain ⟨n, rfl⟩ : ∃ k, n = k + 1 := ⟨n - 1, by omega⟩
    rw [h1, Op.obind, seekHead, h3, if_neg (by decide)]
  | @more c c' o l h1 h2 h3 h4 ih =>
    have hid : c'.id = some o.id := by
      unfold heading at h3
      split at h3
      · rename_i e _
        injection h3 with h3
        rw [e, show o.id = (shape o).id from rfl, ← h3]
      · cases h3
    by_cases hd : o.id = head
    · refine ⟨1, c', fun n hn => ?_, ?_⟩
      · obtain ⟨n, rfl⟩ : ∃ k, n = k + 1 := ⟨n - 1, by omega⟩
        rw [h1, Op.obind, seekHead, if_pos h2, hid]
        simp only
        rw [if_neg (fun x => x hd)]
      · rw [List.dropWhile_cons_of_neg (by simp [hd])]
        exact ⟨h2, h4⟩
    · obtain ⟨N, c2, g1, g2⟩ := ih
      refine ⟨N + 1, c2, fun n hn => ?_, ?_⟩
      · obtain ⟨n, rfl⟩ : ∃ k, n = k + 1 := ⟨n - 1, by omega⟩
        rw [h1, Op.obind, seekHead, if_pos h2, hid]
        simp only
        rw [if_pos hd]
        exact g1 n (by omega)
      · rw [List.dropWhile_cons_of_pos (by simp [hd])]
        exact g2

/-- The lookup on ops, `FindOpMeta` once the log is read. -/
def opsLookup (hs : Hashing) (m : OpMeta) (id : Uuid) (log : List AOp) : Option (Status × OpMeta) :=
  match log.dropWhile fun o => decide (o.id ≠ m.id) with
  | [] => some (Status.NOT_FOUND, m)
  | _ :: os => walkChain hs id m os

theorem dropWhile_shape (head : Uuid) : ∀ ops : List OpView,
    (ops.map shape).dropWhile (fun o => decide (o.id ≠ head)) = (ops.dropWhile fun o => decide (o.id ≠ head)).map shape
  | [] => rfl
  | o :: l => by
    by_cases h : o.id = head
    · rw [List.map_cons, List.dropWhile_cons_of_neg (by simp [shape, h]), List.dropWhile_cons_of_neg (by simp [h])]
      rfl
    · rw [List.map_cons, List.dropWhile_cons_of_pos (by simp [shape, h]), List.dropWhile_cons_of_pos (by simp [h])]
      exact dropWhile_shape head l

/-- Looking up in the text does what looking up in the ops does. -/
theorem find_ops {hs : Hashing} (hash : Cursor → Digest → Digest → Digest) {text : List Byte} {ops : List OpView}
    {st : Cursor.NextStatus} (h : Contents text ops st) {m M M' : OpMeta} {id : Uuid} {s : Status} (hm : SameMeta m M)
    (e : opsLookup hs M id (ops.map shape) = some (s, M')) :
    ∃ N m', SameMeta m' M' ∧ ∀ n, N ≤ n → findInLog hash n m id text = .ok (some (s, m')) := by
  obtain ⟨N, c, g1, g2⟩ := seek_ops (head := m.id) (contents_reads h)
  unfold opsLookup at e
  rw [← hm.1, dropWhile_shape] at e
  generalize ops.dropWhile (fun o => decide (o.id ≠ m.id)) = l at g2 e
  have key : ∀ n, N ≤ n → findInLog hash n m id text =
      if c.valid then walkLog hash id n m c else .ok (some (Status.NOT_FOUND, m)) := by
    intro n hn
    have := g1 n hn
    obtain ⟨r, e1, e2⟩ := Cursor.bind_ok this
    unfold findInLog
    rw [e1, Op.obind, e2, Op.obind]
  cases l with
  | nil =>
    injection e with e
    injection e with e e'
    subst e e'
    refine ⟨N, m, hm, fun n hn => ?_⟩
    rw [key n hn, if_neg (by rw [show c.valid = false from g2]; decide)]
  | cons o l =>
    obtain ⟨N', m', h1, h2⟩ := walk_ops hash g2.2 hm e
    refine ⟨max N N', m', h1, fun n hn => ?_⟩
    rw [key n (by omega), if_pos g2.1, h2 n (by omega)]

/-! ### What the lookup on ops finds -/

theorem walk_spec {hs : Hashing} {id : Uuid} : ∀ {ops : List OpView} {M : OpMeta},
    id.origin = M.id.origin → Rising M.id (onFrom M.id (ofYarn id.origin ops)) →
    ∃ s M', walkChain hs id M (ops.map shape) = some (s, M') ∧ M'.rdt = M.rdt ∧ M'.object = M.object ∧ M'.chain = M.chain ∧
      ((∃ o ∈ onFrom M.id (ofYarn id.origin ops), o.id = id) ∧ s = Status.OK ∧ M'.id = id ∧
          valueBefore id M.id (onFrom M.id (ofYarn id.origin ops)) = some M'.prev ∨
       (¬ ∃ o ∈ onFrom M.id (ofYarn id.origin ops), o.id = id) ∧
        M'.id = endId M.id (onFrom M.id (ofYarn id.origin ops)) ∧
        (id.value = NEVER ∧ onFrom M.id (ofYarn id.origin ops) = ofYarn id.origin ops ∧ s = Status.OK ∨
          ¬ (id.value = NEVER ∧ onFrom M.id (ofYarn id.origin ops) = ofYarn id.origin ops) ∧ s = Status.NOT_FOUND)) := by
  intro ops
  induction ops with
  | nil =>
    intro M ho hr
    by_cases hv : id.value = NEVER
    · refine ⟨Status.OK, M, ?_, rfl, rfl, rfl, .inr ⟨(fun ⟨o, h, _⟩ => nomatch h), rfl, .inl ⟨hv, rfl, rfl⟩⟩⟩
      rw [List.map_nil, walkChain, if_pos hv]
    · refine ⟨Status.NOT_FOUND, M, ?_, rfl, rfl, rfl, .inr ⟨(fun ⟨o, h, _⟩ => nomatch h), rfl, .inr ⟨fun h => hv h.1, rfl⟩⟩⟩
      rw [List.map_nil, walkChain, if_neg hv]
  | cons o ops ih =>
    intro M ho hr
    by_cases hy : o.id.origin = id.origin
    · have ey : ofYarn id.origin (o :: ops) = o :: ofYarn id.origin ops := by
        unfold ofYarn; rw [List.filter_cons_of_pos (by simp [hy])]
      rw [ey] at hr ⊢
      by_cases hf : o.ref = M.id
      · have ef : onFrom M.id (o :: ofYarn id.origin ops) = o :: onFrom o.id (ofYarn id.origin ops) := by
          rw [onFrom, if_pos hf]
        rw [ef] at hr ⊢
        obtain ⟨M1, e1, f1, f2, f3, f4, f5⟩ : ∃ M1, M.next hs (shape o) M = some M1 ∧ M1.id = o.id ∧ M1.rdt = M.rdt ∧
            M1.object = M.object ∧ M1.chain = M.chain ∧ M1.prev = M.id.value := by
          refine ⟨⟨o.id, M.rdt, M.object, hs.op (shape o) M.hash M.hash, M.id.value,
            if o.ref.origin ≠ o.id.origin ∨ M.id.value ≠ o.ref.value then o.id.value else M.chain⟩, ?_,
            rfl, rfl, rfl, ?_, rfl⟩
          · unfold OpMeta.next
            rw [if_pos ⟨by rw [show (shape o).id = o.id from rfl, hy, ho], hr.1⟩]
            rfl
          · simp only
            rw [if_neg]
            rintro (h | h)
            · exact h (by rw [hf, hy, ho])
            · exact h (by rw [hf])
        have eq : walkChain hs id M ((o :: ops).map shape) =
            if M1.id = id then some (Status.OK, M1) else walkChain hs id M1 (ops.map shape) := by
          rw [List.map_cons, walkChain, if_neg (fun x => x hy), if_neg (fun x => x hf), e1, Option.bind_some]
        rw [eq]
        by_cases hid : o.id = id
        · exact ⟨Status.OK, M1, if_pos (f1.trans hid), f2, f3, f4, .inl ⟨⟨o, List.mem_cons_self, hid⟩, rfl, f1.trans hid,
            by rw [valueBefore, if_pos hid, f5]⟩⟩
        · rw [if_neg (fun x => hid (f1 ▸ x))]
          obtain ⟨s, M', h1, h2, h3, h4, h5⟩ := ih (M := M1) (by rw [f1, hy]) (by rw [f1]; exact hr.2)
          rw [f1] at h5
          refine ⟨s, M', h1, h2.trans f2, h3.trans f3, h4.trans f4, ?_⟩
          rcases h5 with ⟨⟨x, hx, hi⟩, g1, g2, g3⟩ | ⟨g1, g2, g3⟩
          · exact .inl ⟨⟨x, List.mem_cons_of_mem _ hx, hi⟩, g1, g2, by rw [valueBefore, if_neg hid]; exact g3⟩
          · refine .inr ⟨?_, g2, ?_⟩
            · rintro ⟨x, hx, hi⟩
              rcases List.mem_cons.1 hx with rfl | hx
              · exact hid hi
              · exact g1 ⟨x, hx, hi⟩
            · rcases g3 with ⟨a, b, c⟩ | ⟨a, c⟩
              · exact .inl ⟨a, by rw [b], c⟩
              · exact .inr ⟨fun h => a ⟨h.1, (List.cons.inj h.2).2⟩, c⟩
      · have ef : onFrom M.id (o :: ofYarn id.origin ops) = [] := by rw [onFrom, if_neg hf]
        rw [ef]
        refine ⟨Status.NOT_FOUND, M, ?_, rfl, rfl, rfl, .inr ⟨(fun ⟨o, h, _⟩ => nomatch h), rfl, .inr ⟨(fun h => nomatch h.2), rfl⟩⟩⟩
        rw [List.map_cons, walkChain, if_neg (fun x => x hy), if_pos (show (shape o).ref ≠ M.id from hf)]
    · have ey : ofYarn id.origin (o :: ops) = ofYarn id.origin ops := by
        unfold ofYarn; rw [List.filter_cons_of_neg (by simp [hy])]
      rw [ey] at hr ⊢
      rw [List.map_cons, walkChain, if_pos (show (shape o).id.origin ≠ id.origin from hy)]
      exact ih ho hr

/-! ### Records of metadata -/

/-- The UUID of a value, if it is one. -/
def uuidOf : View → Option Uuid
  | .uuid u => some u
  | _ => none

theorem view_uuid {c : Cursor} {a : Atom} {v : View} (h : viewAtom c a = .ok v) :
    (if a.type = Atom.tUUID then some a else none) = uuidOf v := by
  unfold viewAtom at h
  split at h
  · rename_i e
    rw [if_neg (by rw [e]; decide)]
    obtain ⟨d, -, h⟩ := Cursor.bind_ok h
    obtain ⟨i, -, h⟩ := Cursor.bind_ok h
    injection h with h
    rw [← h]; rfl
  · split at h
    · rename_i e
      rw [if_neg (by rw [e]; decide)]
      obtain ⟨d, -, h⟩ := Cursor.bind_ok h
      injection h with h
      rw [← h]; rfl
    · split at h
      · rename_i e
        rw [if_neg (by rw [e]; decide)]
        obtain ⟨d, -, h⟩ := Cursor.bind_ok h
        injection h with h
        rw [← h]; rfl
      · rename_i h1 h2 h3
        injection h with h
        rw [if_pos, ← h]; rfl
        have h0 : a.type < 4 := by unfold Atom.type; omega
        simp only [Atom.tUUID, Atom.tINT, Atom.tFLOAT, Atom.tSTRING] at h1 h2 h3 ⊢
        omega

theorem uuidAt_view {c : Cursor} {o : OpView} (h : viewOp c = .ok o) (i : Nat) :
    uuidAt c (i + 2) = (o.vals[i]?).bind uuidOf := by
  unfold viewOp at h
  split at h
  · rename_i id ref vals e
    obtain ⟨vs, h1, h⟩ := Cursor.bind_ok h
    injection h with h
    subst h
    unfold uuidAt
    rw [e]
    show (match vals[i]? with | some a => _ | none => none) = _
    have key : ∀ (vals : List Atom) (vs : List View) (i : Nat), collect (viewAtom c) vals = .ok vs →
        (match vals[i]? with | some a => if a.type = Atom.tUUID then some a else none | none => none) =
        (vs[i]?).bind uuidOf := by
      intro vals
      induction vals with
      | nil => intro vs i h; cases h; rfl
      | cons a vals ih =>
        intro vs i h
        unfold collect at h
        obtain ⟨v, e1, h⟩ := Cursor.bind_ok h
        obtain ⟨ws, e2, h⟩ := Cursor.bind_ok h
        injection h with h
        subst h
        cases i with
        | zero =>
          simp only [List.getElem?_cons_zero]
          rw [view_uuid e1]
          rfl
        | succ i =>
          simp only [List.getElem?_cons_succ]
          exact ih ws i e2
    exact key vals vs i h1
  · cases h

/-- The record of metadata as it reads. -/
theorem head_view {record : List Byte} {o : OpView} {ops : List OpView} {st : Cursor.NextStatus}
    (h : Contents record (o :: ops) st) (id : Uuid) : headOf id record =
      if o.id.origin ≠ id.origin ∨ o.ref ≠ formUuid Form.META then .ok (Status.NOT_FOUND, OpMeta.nil)
      else
        match (o.vals[0]?).bind uuidOf with
        | none => .ok (Status.BADSYNTAX, ⟨o.id, Uuid.NIL, Uuid.NIL, OpMeta.nil.hash, NEVER, o.id.value⟩)
        | some obj =>
          match (o.vals[1]?).bind uuidOf with
          | none => .ok (Status.BADSYNTAX, ⟨o.id, Uuid.NIL, obj, OpMeta.nil.hash, NEVER, o.id.value⟩)
          | some rdt => .ok (Status.OK, ⟨o.id, rdt, obj, OpMeta.nil.hash, NEVER, o.id.value⟩) := by
  obtain ⟨fuel, l, h1, h2⟩ := h
  have ht := Chains.trail_of_iterate _ _ _ _ h1
  cases l with
  | nil => cases h2
  | cons c l =>
    unfold collect at h2
    obtain ⟨v, e1, h2⟩ := Cursor.bind_ok h2
    obtain ⟨vs, e2, h2⟩ := Cursor.bind_ok h2
    injection h2 with h2
    injection h2 with e3 e4
    subst e3 e4
    cases ht with
    | more t1 t2 =>
      unfold headOf
      rw [t1, Op.obind, if_neg (fun x => x rfl), heading_view e1]
      simp only
      by_cases hc : v.id.origin ≠ id.origin ∨ v.ref ≠ formUuid Form.META
      · rw [if_pos hc, if_pos (show (shape v).id.origin ≠ id.origin ∨ (shape v).ref ≠ formUuid Form.META from hc)]
      · rw [if_neg hc, if_neg (show ¬ ((shape v).id.origin ≠ id.origin ∨ (shape v).ref ≠ formUuid Form.META) from hc)]
        unfold loadMeta
        have hr : (shape v).ref = formUuid Form.META := by
          by_cases e : (shape v).ref = formUuid Form.META
          · exact e
          · exact absurd (.inr e) hc
        rw [if_neg (fun x => x hr), uuidAt_view e1 0, uuidAt_view e1 1]
        cases (v.vals[0]?).bind uuidOf with
        | none => rfl
        | some a => cases (v.vals[1]?).bind uuidOf <;> rfl

end Ron.TextFind
