import Verif.Lemmas.TextOpGo
import Verif.Lemmas.Chains
/-!
Reading a frame that follows the grammar.
-/
namespace Ron
open Spec Act

attribute [local irreducible] Atom.type Atom.rBegin Atom.rEnd Atom.cp Atom.cpSize Atom.setCp
  Atom.setCpSize Atom.consume Atom.ofRange Atom.rawValid Uuid.inc

namespace TextParser

/-! ### spans -/

theorem same2_view {buf : List Byte} {xs : List Atom} {vs : List View}
    (h : Same2 (Shows buf) xs vs) {cur : Cursor} (hc : cur.buf = buf) :
    collect (viewAtom cur) xs = .ok vs := by
  induction h with
  | nil => rfl
  | cons h _ ih => simp only [collect, h.2.1 cur hc, ih, Out.bind]

theorem sees_char {buf : List Byte} {a : Atom} (ht : Atom.type a = Atom.tSTRING)
    (h0 : Atom.cp a ≠ 0) : Sees buf a (.text (utf8append (Atom.cp a))) := by
  intro cur hc
  unfold viewAtom
  rw [if_neg (by rw [ht]; decide), if_neg (by rw [ht]; decide), if_pos ht, hc]
  unfold Cursor.readString
  rw [if_pos h0]
  rfl

/-- The atom is a value of this text, or a character of a spread. -/
def RawOrChar (buf : List Byte) (a : Atom) (v : View) : Prop :=
  Raw buf a v ∨ (v = .text (utf8append (Atom.cp a)) ∧ Atom.type a = Atom.tSTRING ∧ Atom.cp a ≠ 0 ∧
    Atom.cp a < 2 ^ 21)

theorem same2_imp {α β : Type} {R S : α → β → Prop} (hRS : ∀ a b, R a b → S a b) {l : List α} {m : List β}
    (h : Same2 R l m) : Same2 S l m := by
  induction h with
  | nil => exact .nil
  | cons h _ ih => exact .cons (hRS _ _ h) ih

theorem unfolds_raw {buf : List Byte} {xs : List Atom} {k : Nat} {v : List View} {l : List (List View)}
    (h : Unfolds buf xs k (v :: l)) : Same2 (RawOrChar buf) xs v := by
  generalize hl : v :: l = l' at h
  cases h with
  | same k h =>
    rw [List.replicate_succ] at hl
    injection hl with h1 h2
    rw [h1]
    exact same2_imp (fun a b h => .inl h.2.2) h
  | @chars xs a s ys vs h ha hs h0 hz hlt =>
    rw [List.map_cons] at hl
    injection hl with h1 h2
    rw [h1]
    exact same2_append (same2_imp (fun a b h => .inl h.2.2) h) (.cons (.inr ⟨rfl, ha.type, h0, hlt⟩) .nil)

/-- A cursor at an op with its terminator. -/
structure Holds (text : List Byte) (cur : Cursor) (x : Nat × OpView) : Prop where
  buf : cur.buf = text
  cs : cur.cs = 74
  term : cur.term = x.1
  op : ∃ xs, cur.op = x.2.id :: x.2.ref :: xs ∧ Same2 (RawOrChar text) xs x.2.vals
  idType : Atom.type x.2.id = Atom.tUUID
  refType : Atom.type x.2.ref = Atom.tUUID

/-- The first of the ops. -/
theorem unfolds_view {buf : List Byte} {xs : List Atom} {k : Nat} {l : List (List View)}
    (h : Unfolds buf xs k l) {cur : Cursor} {id ref : Uuid} (hb : cur.buf = buf)
    (hop : cur.op = id :: ref :: xs) : ∃ v l', l = v :: l' ∧ l'.length = k ∧
      viewOp cur = .ok ⟨id, ref, v⟩ := by
  unfold viewOp
  rw [hop]
  cases h with
  | same k h =>
    exact ⟨_, List.replicate k _, List.replicate_succ, by simp, by
      simp only [same2_view h hb, Out.bind]⟩
  | @chars xs a s ys vs h ha hs h0 hz hlt =>
    refine ⟨_, _, rfl, by simp [asRead_length], ?_⟩
    have h1 : collect (viewAtom cur) [a] = .ok [.text (utf8append (Atom.cp a))] := by
      simp only [collect, sees_char ha.type h0 cur hb, Out.bind]
    simp only
    rw [Chains.collect_append' _ _ _ _ (same2_view h hb) h1]
    rfl

theorem same2_last {buf : List Byte} {xs : List Atom} {vs : List View}
    (h : Same2 (Shows buf) xs vs) {a : Atom} (ha : a ∈ xs) :
    Atom.type a = Atom.tSTRING → Atom.cp a = 0 := by
  induction h with
  | nil => simp at ha
  | cons h _ ih =>
    rcases List.mem_cons.1 ha with rfl | ha
    · exact h.1
    · exact ih ha

theorem getLast_val {α : Type} (a b : α) (xs : List α) :
    ∃ x, (a :: b :: xs).getLast? = some x ∧ (x ∈ xs ∨ x = b) := by
  refine ⟨(a :: b :: xs).getLast (by simp), List.getLast?_eq_some_getLast (by simp), ?_⟩
  rw [List.getLast_cons (by simp)]
  have := List.getLast_mem (l := b :: xs) (by simp)
  rcases List.mem_cons.1 this with h | h
  · exact .inr h
  · exact .inl h

/-- The next op of a span. -/
theorem unfolds_next {buf : List Byte} (hn : buf.length < 2 ^ 30) {xs : List Atom} {k : Nat}
    {l : List (List View)} (h : Unfolds buf xs (k + 1) l) {cur : Cursor} {id ref : Uuid}
    (hb : cur.buf = buf) (hop : cur.op = id :: ref :: xs) (hsp : cur.span = k + 1)
    (hid : Atom.type id = Atom.tUUID) : ∃ v l' xs', l = v :: l' ∧ Unfolds buf xs' k l' ∧
      Cursor.next cur = .ok ({ cur with span := k, op := id.inc :: id :: xs' }, .ok) := by
  have hnx : ∀ x, (Uuid.inc id :: id :: xs).getLast? = some x → Cursor.next cur =
      if Atom.type x = Atom.tSTRING ∧ Atom.cp x ≠ 0 then
        (nextCodepoint buf x).bind fun a => .ok ({ cur with
          span := k, op := setLast (id.inc :: id :: xs) a.1 }, .ok)
      else .ok ({ cur with span := k, op := id.inc :: id :: xs }, .ok) := by
    intro x hx
    unfold Cursor.next
    rw [if_pos (by omega), hop]
    simp only [hx, hsp, hb, Nat.add_sub_cancel]
  generalize hk : k + 1 = k1 at h
  cases h with
  | @same _ vs k1 h =>
    subst hk
    refine ⟨vs, _, xs, List.replicate_succ, .same k h, ?_⟩
    obtain ⟨x, hx, hm⟩ := getLast_val (Uuid.inc id) id xs
    rw [hnx x hx, if_neg]
    rintro ⟨ht, h0⟩
    rcases hm with hm | rfl
    · exact h0 (same2_last h hm ht)
    · rw [hid] at ht; exact absurd ht (by decide)
  | @chars xs a s ys vs h ha hs h0 hz hlt =>
    cases hs with
    | nil => simp at hk
    | @cons c s y ys hc hs =>
      simp only [List.length_cons, Nat.add_right_cancel_iff] at hk
      subst hk
      obtain ⟨a', f1, f2, f3⟩ := nextCodepoint_str hn hc hs ha
      have hlt' := asRead_lt (StrText.cons hc hs)
      rw [asRead_cons, ← f3] at hz hlt' ⊢
      refine ⟨_, _, xs ++ [a'], rfl, .chars h f2 hs (hz _ (by simp)) (fun x hx => hz x (by simp [hx]))
        (hlt' _ (by simp)), ?_⟩
      rw [hnx a (by rw [show Uuid.inc id :: id :: (xs ++ [a]) = (Uuid.inc id :: id :: xs) ++ [a] from rfl,
        List.getLast?_concat]), if_pos ⟨ha.type, h0⟩, f1]
      simp only [Out.bind, setLast]
      rw [show Uuid.inc id :: id :: (xs ++ [a]) = (Uuid.inc id :: id :: xs) ++ [a] from rfl,
        List.dropLast_concat]
      rfl

/-- All the ops of a span. -/
theorem unfolds_trail {buf : List Byte} (hn : buf.length < 2 ^ 30) : ∀ (k : Nat) {xs : List Atom}
    {l : List (List View)} {cur : Cursor} {id ref : Uuid}, Unfolds buf xs k l → cur.buf = buf →
    cur.op = id :: ref :: xs → cur.span = k → Atom.type id = Atom.tUUID →
    cur.cs = 74 → Atom.type ref = Atom.tUUID →
    ∃ tail last o, Same2 (Holds buf) (cur :: tail) ((spanOps id ref l).map fun o => (cur.term, o)) ∧ (∀ m st, Chains.Trail last m st → Chains.Trail cur (tail ++ m) st) ∧
      collect viewOp (cur :: tail) = .ok (spanOps id ref l) ∧
      (cur :: tail).map Cursor.term = (spanOps id ref l).map (fun _ => cur.term) ∧
      (spanOps id ref l).getLast? = some o ∧ last.op[0]? = some o.id ∧
      Atom.type o.id = Atom.tUUID ∧ last.span = 0 ∧ last.buf = buf ∧ last.beg = cur.beg ∧
      last.cs = cur.cs ∧ (∀ P : Cursor → Prop, (∀ c c', P c → Cursor.next c = .ok (c', .ok) → P c') →
        P cur → P last) := by
  intro k
  induction k with
  | zero =>
    intro xs l cur id ref h hb hop hsp hid hcs href
    obtain ⟨v, l', rfl, hl, hv⟩ := unfolds_view h hb hop
    have : l' = [] := List.length_eq_zero_iff.1 hl
    subst this
    refine ⟨[], cur, ⟨id, ref, v⟩, .cons ⟨hb, hcs, rfl, ⟨xs, hop, unfolds_raw h⟩, hid, href⟩ .nil, fun m st hm => hm, ?_, ?_, rfl, by rw [hop]; rfl, hid, hsp, hb, rfl, rfl, fun _ _ h => h⟩
    · simp only [collect, hv, Out.bind, spanOps]
    · simp [spanOps]
  | succ k ih =>
    intro xs l cur id ref h hb hop hsp hid hcs href
    obtain ⟨v, l1, rfl, hl, hv⟩ := unfolds_view h hb hop
    obtain ⟨v', l', xs', e, h', hnx⟩ := unfolds_next hn h hb hop hsp hid
    cases e
    obtain ⟨tail, last, o, t0, t1, t2, t3, t4, t5, t6, t7, t8, t9, t10, t11⟩ :=
      ih (cur := { cur with span := k, op := id.inc :: id :: xs' }) h' hb rfl rfl
        (by rw [Cursor.type_inc]; exact hid) hcs hid
    refine ⟨{ cur with span := k, op := id.inc :: id :: xs' } :: tail, last, o,
      .cons ⟨hb, hcs, rfl, ⟨xs, hop, unfolds_raw h⟩, hid, href⟩ t0, ?_, ?_, ?_, ?_, t5, t6,
      t7, t8, t9, t10, fun P hP h => t11 P hP (hP _ _ h hnx)⟩
    · intro m st hm
      exact .more hnx (t1 m st hm)
    · rw [collect, hv, t2]
      rfl
    · rw [List.map_cons, t3]
      simp [spanOps]
    · simp only [spanOps]
      rw [List.getLast?_cons, t4]
      rfl

/-! ### a frame -/

/-- A cursor between ops. -/
structure AtOp (buf : List Byte) (cur : Cursor) (prev : Uuid) : Prop where
  buf : cur.buf = buf
  span : cur.span = 0
  prev : (cur.op[0]?).getD Uuid.NIL = prev
  cs : cur.cs = 74 ∨ (cur.cs = 0 ∧ cur.beg = 0)

theorem AtOp.next {buf : List Byte} {cur : Cursor} {prev : Uuid} (h : AtOp buf cur prev) :
    Cursor.next cur = Cursor.parseFrom cur 74 := by
  unfold Cursor.next
  rw [if_neg (by rw [h.span]; simp)]
  rcases h.cs with h1 | ⟨h1, h2⟩
  · rw [if_neg (by omega), if_neg (by omega), h1]
  · rw [if_pos h1, if_neg (by simp [h2])]
    rfl

theorem AtOp.parse {buf : List Byte} {cur : Cursor} {prev : Uuid} (h : AtOp buf cur prev)
    (hl : cur.beg < buf.length) : Cursor.next cur =
      (go buf 74 (Cursor.startRegs cur)).bind fun sr => Cursor.finish cur sr.1 sr.2 := by
  rw [h.next]
  unfold Cursor.parseFrom
  rw [h.buf, if_neg (by omega)]
  rfl

theorem AtOp.start {buf : List Byte} {cur : Cursor} {prev : Uuid} (h : AtOp buf cur prev) :
    (Cursor.startRegs cur).op = [prev.inc, prev] := by
  unfold Cursor.startRegs
  rw [← h.prev]

theorem chr2term_code {c : Byte} {t : Nat} (h : (c, t) ∈ termCodes) :
    c.toNat ≠ 0 ∧ Cursor.chr2term c.toNat = .ok t := by
  have : ∀ x ∈ termCodes, x.1.toNat ≠ 0 ∧ Cursor.chr2term x.1.toNat = .ok x.2 := by decide
  exact this (c, t) h

/-- One op. -/
theorem next_op {buf : List Byte} (hn : buf.length < 2 ^ 30) {cur : Cursor} {prev : Uuid}
    (hc : AtOp buf cur prev) (hprev : Atom.type prev = Atom.tUUID) {s rest : List Byte} {t : Nat}
    {ops : List OpView} (h : OpText prev s t ops) (hb : buf.drop cur.beg = s ++ rest) :
    ∃ tail last o, Same2 (Holds buf) tail (ops.map fun o => (t, o)) ∧
      (∀ m st, Chains.Trail last m st → Chains.Trail cur (tail ++ m) st) ∧
      collect viewOp tail = .ok ops ∧ tail.map Cursor.term = ops.map (fun _ => t) ∧
      ops.getLast? = some o ∧ AtOp buf last o.id ∧ Atom.type o.id = Atom.tUUID ∧
      last.beg = cur.beg + s.length ∧
      (∀ P : Cursor → Prop, (∀ c c', P c → Cursor.next c = .ok (c', .ok) → P c') → P cur → P last) := by
  obtain @⟨hd, a, w, sp, w', c, t, id, ref, v, vs, l, hh, ha, hw, hs, hw', ht⟩ := h
  have hl : cur.beg < buf.length := by
    have h1 := congrArg List.length hb
    simp only [List.length_drop, List.length_append, List.length_singleton] at h1
    omega
  obtain ⟨r', xs, g, hp, hop, htm, hun⟩ := go_op hn hh ha hw hs hw' ht (r := Cursor.startRegs cur)
    hc.start rfl hb
  obtain ⟨c0, hterm⟩ := chr2term_code ht
  have hnx : Cursor.next cur = .ok ({ cur with
      beg := r'.p, op := r'.op, line := r'.line, span := r'.span, cs := 74, term := t }, .ok) := by
    rw [hc.parse hl, g]
    simp only [Out.bind, Cursor.finish, htm]
    rw [if_pos ⟨c0, by decide⟩, hterm]
  have hid : Atom.type id = Atom.tUUID := by
    cases hh with
    | none _ => rw [Cursor.type_inc]; exact hprev
    | bare _ _ => rw [Cursor.type_inc]; exact hprev
    | id _ hu => exact type_uuidLit hu
    | ref _ hu _ _ => exact type_uuidLit hu
  have href : Atom.type ref = Atom.tUUID := by
    cases hh with
    | none _ => exact hprev
    | bare _ _ => exact hprev
    | id _ hu => exact hprev
    | ref _ _ _ hu => exact type_uuidLit hu
  obtain ⟨tail, last, o, t0, t1, t2, t3, t4, t5, t6, t7, t8, t9, t10, t11⟩ := unfolds_trail hn r'.span
    (cur := { cur with
      beg := r'.p, op := r'.op, line := r'.line, span := r'.span, cs := 74, term := t })
    hun hc.buf hop rfl hid rfl href
  refine ⟨_ :: tail, last, o, t0, fun m st hm => .more hnx (t1 m st hm), t2, t3, t4,
    ⟨t8, t7, by rw [t5]; rfl, .inl t10⟩, t6, ?_, fun P hP h => t11 P hP (hP _ _ h hnx)⟩
  rw [t9]
  exact hp

/-- The end of a frame. -/
theorem next_end {buf : List Byte} {cur : Cursor} {prev : Uuid} (hc : AtOp buf cur prev)
    {w : List Byte} (hw : Blank w) (hb : buf.drop cur.beg = w ∨ buf.drop cur.beg = w ++ [46, 10]) :
    ∃ cur', Cursor.next cur = .ok (cur', .endOfFrame) := by
  by_cases hl : cur.beg < buf.length
  · have key : ∃ s r, go buf 74 (Cursor.startRegs cur) = .ok (s, r) ∧ 74 ≤ s ∧ r.term = 0 := by
      rcases hb with hb | hb
      · obtain ⟨r1, g1, k1⟩ := go_blank (buf := buf) (s := 74) (by decide) w [] (Cursor.startRegs cur) hw
          (by rw [List.append_nil]; exact hb)
        refine ⟨74, r1, ?_, by decide, k1.term⟩
        rw [g1.go]
        unfold go
        rw [g1.drop (rest := []) (by rw [List.append_nil]; exact hb)]
        rfl
      · obtain ⟨r1, g1, k1⟩ := go_blank (buf := buf) (s := 74) (by decide) w [46, 10] (Cursor.startRegs cur) hw hb
        have hb1 := g1.drop (rest := [46, 10]) hb
        have h1 : stepIn TextTable.rows 74 46 = some ([], 60) := by decide +kernel
        have h2 : stepIn TextTable.rows 60 10 = some ([], 75) := by decide +kernel
        refine ⟨75, { r1 with p := r1.p + 1 + 1 }, ?_, by decide, k1.term⟩
        rw [g1.go]
        unfold go
        rw [hb1, run, h1]
        simp only [acts]
        rw [run, h2]
        rfl
    obtain ⟨s, r, g, hs, ht⟩ := key
    rw [hc.parse hl, g]
    simp only [Out.bind, Cursor.finish, ht]
    rw [if_neg (by simp), if_pos (show s ≥ TextTable.firstFinal from hs)]
    exact ⟨_, rfl⟩
  · rw [hc.next]
    unfold Cursor.parseFrom
    rw [hc.buf, if_pos (by omega)]
    exact ⟨_, rfl⟩

/-- The rest of a frame. -/
theorem frame_trail {buf : List Byte} (hn : buf.length < 2 ^ 30) {prev : Uuid} {s : List Byte}
    {l : List (Nat × OpView)} (h : FrameText prev s l) : ∀ {cur : Cursor}, AtOp buf cur prev →
    Atom.type prev = Atom.tUUID → buf.drop cur.beg = s →
    ∃ m, Chains.Trail cur m .endOfFrame ∧ collect viewOp m = .ok (l.map Prod.snd) ∧
      m.map Cursor.term = l.map Prod.fst ∧ Same2 (Holds buf) m l := by
  induction h with
  | stop hw =>
    intro cur hc _ hb
    obtain ⟨c', hnx⟩ := next_end hc hw (.inl hb)
    exact ⟨[], .stop hnx (by decide), rfl, rfl, .nil⟩
  | dot hw =>
    intro cur hc _ hb
    obtain ⟨c', hnx⟩ := next_end hc hw (.inr hb)
    exact ⟨[], .stop hnx (by decide), rfl, rfl, .nil⟩
  | @op prev s s' t ops o l h hl hs ih =>
    intro cur hc hp hb
    obtain ⟨tail, last, o', t0, t1, t2, t3, t4, t5, t6, t7, -⟩ := next_op hn hc hp h hb
    have : o' = o := by rw [hl] at t4; cases t4; rfl
    subst this
    obtain ⟨m, m1, m2, m3, m4⟩ := ih t5 t6 (by rw [t7, ← List.drop_drop, hb, List.drop_left])
    refine ⟨tail ++ m, t1 m _ m1, ?_, ?_, same2_append t0 m4⟩
    · rw [Chains.collect_append' _ _ _ _ t2 m2]
      simp [List.map_map, Function.comp_def]
    · rw [List.map_append, t3, m3]
      simp [List.map_map, Function.comp_def]

/-- A frame that follows the grammar is read as it says. -/
theorem frame_contents {buf : List Byte} (hn : buf.length < 2 ^ 30) {l : List (Nat × OpView)}
    (h : FrameText Uuid.NIL buf l) :
    ∃ m, Cursor.iterate (m.length + 1) (Cursor.init buf) = .ok (some (m, .endOfFrame)) ∧
      collect viewOp m = .ok (l.map Prod.snd) ∧ m.map Cursor.term = l.map Prod.fst := by
  obtain ⟨m, h1, h2, h3, -⟩ := frame_trail hn h (cur := Cursor.init buf)
    ⟨rfl, rfl, rfl, .inr ⟨rfl, rfl⟩⟩ Cursor.type_nil rfl
  exact ⟨m, Chains.iterate_of_trail h1, h2, h3⟩

/-! ### chains of ops without ids, in frames of any size -/

/-- One op without a span. -/
theorem next_plain {buf : List Byte} {cur : Cursor} {prev id ref : Uuid} (hc : AtOp buf cur prev)
    {h a w rest : List Byte} {c : Byte} {t : Nat} {v vs : List View}
    (hh : HeadText prev h id ref v) (ha : AtomsText a vs) (hw : Blank w) (ht : (c, t) ∈ termCodes)
    (hb : buf.drop cur.beg = h ++ a ++ w ++ [c] ++ rest) :
    ∃ cur', Cursor.next cur = .ok (cur', .ok) ∧ AtOp buf cur' id ∧ cur'.id = some id ∧
      cur'.ref = some ref ∧ buf.drop cur'.beg = rest := by
  have hl : cur.beg < buf.length := by
    have h1 := congrArg List.length hb
    simp only [List.length_drop, List.length_append, List.length_singleton] at h1
    omega
  obtain ⟨r', xs, g, hp, hop, htm, hsp⟩ := go_plain hh ha hw ht (r := Cursor.startRegs cur)
    hc.start rfl hb
  obtain ⟨c0, hterm⟩ := chr2term_code ht
  have hnx : Cursor.next cur = .ok ({ cur with
      beg := r'.p, op := r'.op, line := r'.line, span := r'.span, cs := 74, term := t }, .ok) := by
    rw [hc.parse hl, g]
    simp only [Out.bind, Cursor.finish, htm]
    rw [if_pos ⟨c0, by decide⟩, hterm]
  refine ⟨_, hnx, ⟨hc.buf, hsp, by rw [hop]; rfl, .inl rfl⟩, by simp [Cursor.id, hop],
    by simp [Cursor.ref, hop], ?_⟩
  simp only [hp]
  rw [show (Cursor.startRegs cur).p = cur.beg from rfl, ← List.drop_drop, hb, List.drop_left]

/-- The ids and the references of consecutive ops after an op. -/
def chainIds : Uuid → Nat → List (Option Uuid × Option Uuid)
  | _, 0 => []
  | prev, n + 1 => (some prev.inc, some prev) :: chainIds prev.inc n

theorem chain_trail {buf : List Byte} {s : List Byte} {n : Nat} (h : ChainText s n) :
    ∀ {cur : Cursor} {prev : Uuid}, AtOp buf cur prev → buf.drop cur.beg = s →
    ∃ m, Chains.Trail cur m .endOfFrame ∧ m.map (fun c => (c.id, c.ref)) = chainIds prev n := by
  induction h with
  | stop hw =>
    intro cur prev hc hb
    obtain ⟨c', hnx⟩ := next_end hc hw (.inl hb)
    exact ⟨[], .stop hnx (by decide), rfl⟩
  | dot hw =>
    intro cur prev hc hb
    obtain ⟨c', hnx⟩ := next_end hc hw (.inr hb)
    exact ⟨[], .stop hnx (by decide), rfl⟩
  | op hw ha hw' ht _ ih =>
    intro cur prev hc hb
    obtain ⟨c1, h1, h2, h3, h4, h5⟩ := next_plain hc (.none hw) ha hw' ht hb
    obtain ⟨m, m1, m2⟩ := ih h2 h5
    exact ⟨c1 :: m, .more h1 m1, by simp [chainIds, h3, h4, m2]⟩
  | bare hw hv ha hw' ht _ ih =>
    intro cur prev hc hb
    obtain ⟨c1, h1, h2, h3, h4, h5⟩ := next_plain hc (.bare hw hv) ha hw' ht hb
    obtain ⟨m, m1, m2⟩ := ih h2 h5
    exact ⟨c1 :: m, .more h1 m1, by simp [chainIds, h3, h4, m2]⟩

theorem inc_idAfter (u : Uuid) (i : Nat) : (idAfter u i).inc = idAfter u (i + 1) := by
  unfold idAfter Uuid.inc Word.inc
  simp only [Uuid.mk.injEq, and_true]
  apply BitVec.eq_of_toNat_eq
  simp [Nat.add_assoc]

theorem chainIds_eq (u : Uuid) : ∀ (n i : Nat), chainIds (idAfter u i) n =
    (List.range n).map fun j => (some (idAfter u (i + j + 1)), some (idAfter u (i + j))) := by
  intro n
  induction n with
  | zero => intro i; rfl
  | succ n ih =>
    intro i
    rw [chainIds, inc_idAfter, ih, List.range_succ_eq_map]
    simp only [List.map_cons, List.map_map, Nat.add_zero, List.cons.injEq, true_and]
    apply List.map_congr_left
    intro j _
    simp [Nat.add_assoc, Nat.add_comm 1 j]

theorem idAfter_zero (u : Uuid) : idAfter u 0 = u := by
  unfold idAfter
  simp

theorem ops_frame {p q : Uuid} {s s' : List Byte} {l l' : List (Nat × OpView)}
    (h : OpsText p s l q) (h' : FrameText q s' l') : FrameText p (s ++ s') (l ++ l') := by
  induction h with
  | nil => exact h'
  | cons h hl _ ih =>
    rw [List.append_assoc, List.append_assoc]
    exact .op h hl (ih h')

theorem spanOps_eq : ∀ (l : List (List View)) (id ref : Uuid) (k : Nat),
    spanOps (idAfter id k) ref l = l.zipIdx.map fun x =>
      ⟨idAfter id (k + x.2), if x.2 = 0 then ref else idAfter id (k + x.2 - 1), x.1⟩ := by
  intro l
  induction l with
  | nil => intros; rfl
  | cons v vs ih =>
    intro id ref k
    rw [spanOps, inc_idAfter, ih, List.zipIdx_cons', List.map_cons, List.map_map]
    simp only [Nat.add_zero, if_true, List.cons.injEq, true_and]
    apply List.map_congr_left
    rintro ⟨x, i⟩ _
    simp only [Function.comp, Prod.map, id_eq, Nat.add_eq_zero_iff, Nat.one_ne_zero, and_false, if_false,
      OpView.mk.injEq, and_true]
    refine ⟨by congr 1; omega, ?_⟩
    by_cases h : i = 0
    · subst h; simp
    · rw [if_neg h]; congr 1; omega

theorem spanOps_last {l : List (List View)} (hl : l ≠ []) (id ref : Uuid) :
    ∃ o, (spanOps id ref l).getLast? = some o ∧ o.id = idAfter id (l.length - 1) := by
  have h := spanOps_eq l id ref 0
  rw [idAfter_zero] at h
  rw [h, List.getLast?_map, List.getLast?_eq_getElem?, List.length_zipIdx, List.getElem?_zipIdx]
  have : l.length - 1 < l.length := by
    have := List.length_pos_iff.2 hl; omega
  rw [List.getElem?_eq_getElem this]
  exact ⟨_, rfl, by simp⟩

end TextParser

/-! ### one frame, one reading -/
namespace Chains
open Cursor

theorem trail_unique {c : Cursor} {l l' : List Cursor} {st st' : NextStatus} (h : Trail c l st) :
    Trail c l' st' → l = l' ∧ st = st' := by
  intro h'
  induction h generalizing l' with
  | stop h h0 =>
    cases h' with
    | stop k k0 => rw [h] at k; cases k; exact ⟨rfl, rfl⟩
    | more k _ => rw [h] at k; cases k; exact absurd rfl h0
  | more h _ ih =>
    cases h' with
    | stop k k0 => rw [h] at k; cases k; exact absurd rfl k0
    | more k hk =>
      rw [h] at k; cases k
      obtain ⟨rfl, rfl⟩ := ih hk
      exact ⟨rfl, rfl⟩

theorem contents_unique {buf : List Byte} {a b : List OpView} {st st' : NextStatus}
    (h : Contents buf a st) (h' : Contents buf b st') : a = b ∧ st = st' := by
  obtain ⟨f, l, h1, h2⟩ := h
  obtain ⟨f', l', h3, h4⟩ := h'
  obtain ⟨rfl, rfl⟩ := trail_unique (trail_of_iterate _ _ _ _ h1) (trail_of_iterate _ _ _ _ h3)
  rw [h2] at h4
  cases h4
  exact ⟨rfl, rfl⟩

end Chains
end Ron
