import Verif.Model.Script
import Verif.Spec.Script
import Verif.Lemmas.BuilderCopy
import Verif.Lemmas.Cursor
import Verif.Props.Reuse
import Verif.Props.Strings
/-!
Splitting of test scripts.
-/
namespace Ron
open Spec
namespace Script
open Builder

theorem testsOf_cons : ∀ (x : Nat × OpView) (l : List (Nat × OpView)), testsOf (x :: l) =
    (x :: l.takeWhile fun y => !isHead y) :: testsOf (l.dropWhile fun y => !isHead y)
  | x, [] => rfl
  | x, y :: l => by
    rw [testsOf, testsOf_cons y l]
    cases h : isHead y with
    | true =>
      simp only [List.head?_cons, Option.any_some, h, if_true]
      rw [List.takeWhile_cons_of_neg (by simp [h]), List.dropWhile_cons_of_neg (by simp [h]), testsOf_cons y l]
    | false =>
      simp only [List.head?_cons, Option.any_some, h, Bool.false_eq_true, if_false]
      rw [List.takeWhile_cons_of_pos (by simp [h]), List.dropWhile_cons_of_pos (by simp [h])]

theorem testsOf_flatten : ∀ l : List (Nat × OpView), (testsOf l).flatten = l
  | [] => rfl
  | x :: l => by
    have ih := testsOf_flatten l
    rw [testsOf]
    split
    · rename_i h; rw [h] at ih; rw [← ih]; rfl
    · rename_i t ts h
      rw [h] at ih
      split <;> (rw [← ih]; rfl)

/-- Only the first op of a test may be a header. -/
theorem testsOf_heads : ∀ (l : List (Nat × OpView)), ∀ t ∈ testsOf l, t ≠ [] ∧ ∀ y ∈ t.tail, isHead y = false
  | [] => by simp [testsOf]
  | x :: l => by
    have ih := testsOf_heads l
    intro t ht
    cases l with
    | nil => simp [testsOf] at ht; rw [ht]; simp
    | cons y l =>
      rw [testsOf, testsOf_cons y l] at ht
      rw [testsOf_cons y l] at ih
      cases h : isHead y with
      | true =>
        simp only [List.head?_cons, Option.any_some, h, if_true, List.mem_cons] at ht
        rcases ht with rfl | ht
        · simp
        · exact ih t (by simpa using ht)
      | false =>
        simp only [List.head?_cons, Option.any_some, h, Bool.false_eq_true, if_false, List.mem_cons] at ht
        rcases ht with rfl | ht
        · refine ⟨by simp, fun z hz => ?_⟩
          simp only [List.tail_cons, List.mem_cons] at hz
          rcases hz with rfl | hz
          · exact h
          · exact (ih _ (List.mem_cons_self ..)).2 z hz
        · exact ih t (List.mem_cons_of_mem _ ht)

/-- All tests but the first begin with a header. -/
theorem testsOf_later : ∀ (n : Nat) (l : List (Nat × OpView)), l.length ≤ n → ∀ t ∈ (testsOf l).tail,
    ∃ x r, t = x :: r ∧ isHead x = true
  | _, [], _ => by simp [testsOf]
  | 0, x :: l, h => by simp at h
  | n + 1, x :: l, hn => by
    rw [testsOf_cons, List.tail_cons]
    have hlen : (l.dropWhile fun y => !isHead y).length ≤ l.length := (List.dropWhile_sublist _).length_le
    have ih := testsOf_later n (l.dropWhile fun y => !isHead y) (by simp only [List.length_cons] at hn; omega)
    intro t ht
    have hd := List.head?_dropWhile_not (p := fun y => !isHead y) l
    cases he : l.dropWhile fun y => !isHead y with
    | nil => rw [he] at ht; simp [testsOf] at ht
    | cons y r =>
      rw [he] at ht ih hd
      rw [testsOf_cons] at ht ih
      rcases List.mem_cons.1 ht with rfl | ht
      · exact ⟨y, _, rfl, by simpa using hd⟩
      · exact ih t ht

/-- The loop over the cursors that are shown. -/
def splitCurs : List Cursor → Builder → List (List Byte) → Out (List (List Byte))
  | [], b, ts => if b.data ≠ [] then b.release.bind fun x => .ok (ts ++ [x.1]) else .ok ts
  | c :: l, b, ts =>
    (if isHeader c ∧ b.data ≠ [] then b.release.bind fun x => .ok (x.2, ts ++ [x.1]) else .ok (b, ts)).bind fun s =>
    (s.1.appendCursor c).bind fun b =>
    (if c.term ≠ 1 then b.endChunk c.term else .ok b).bind fun b => splitCurs l b s.2

theorem splitLoop_curs {c : Cursor} {m : List Cursor} {st : Cursor.NextStatus} (h : Chains.Trail c m st) :
    ∀ {b : Builder} {ts r : List (List Byte)}, splitCurs m b ts = .ok r →
    splitLoop (m.length + 1) c b ts = .ok (some r) := by
  induction h with
  | stop hn hs =>
    intro b ts r h
    rw [List.length_nil, splitLoop, hn, Op.obind, if_pos hs]
    simp only [splitCurs] at h
    split at h
    · rename_i hd
      obtain ⟨x, h1, h⟩ := Cursor.bind_ok h
      injection h with h
      rw [if_pos hd, h1, Op.obind, h]
    · rename_i hd
      injection h with h
      rw [if_neg hd, h]
  | @more c c' l st hn _ ih =>
    intro b ts r h
    rw [List.length_cons, splitLoop, hn, Op.obind, if_neg (by simp)]
    simp only [splitCurs] at h
    obtain ⟨s, h1, h⟩ := Cursor.bind_ok h
    obtain ⟨b1, h2, h⟩ := Cursor.bind_ok h
    obtain ⟨b2, h3, h⟩ := Cursor.bind_ok h
    simp only
    rw [h1, Op.obind, h2, Op.obind, h3, Op.obind]
    exact ih h

/-- Ops of no header are worked off. -/
theorem splitCurs_work : ∀ {m rest : List Cursor} {b b1 : Builder} {ts : List (List Byte)},
    (∀ c ∈ m, isHeader c = false ) → doWork (copyWorks m) b = .ok b1 →
    splitCurs (m ++ rest) b ts = splitCurs rest b1 ts
  | [], rest, b, b1, ts, _, h => by
    simp only [copyWorks, doWork] at h
    injection h with h
    rw [h]; rfl
  | c :: m, rest, b, b1, ts, hh, h => by
    rw [List.cons_append, splitCurs]
    have hc : ¬ (isHeader c = true ∧ b.data ≠ []) := by rw [hh c (by simp)]; simp
    rw [if_neg hc, Op.obind]
    simp only
    unfold copyWorks at h
    split at h
    · rename_i ht
      rw [doWork] at h
      obtain ⟨b2, h1, h⟩ := Cursor.bind_ok h
      rw [show b.appendCursor c = .ok b2 from h1, Op.obind, if_neg (by simp [ht]), Op.obind]
      exact splitCurs_work (fun x hx => hh x (by simp [hx])) h
    · rename_i ht
      rw [doWork] at h
      obtain ⟨b2, h1, h⟩ := Cursor.bind_ok h
      rw [doWork] at h
      obtain ⟨b3, h2, h⟩ := Cursor.bind_ok h
      rw [show b.appendCursor c = .ok b2 from h1, Op.obind, if_pos ht, h2, Op.obind]
      exact splitCurs_work (fun x hx => hh x (by simp [hx])) h

/-- The first op of a test, header or not, with an empty builder. -/
theorem splitCurs_first {c : Cursor} {m rest : List Cursor} {b b1 : Builder} {ts : List (List Byte)}
    (hd : b.data = []) (hh : ∀ c ∈ m, isHeader c = false) (h : doWork (copyWorks (c :: m)) b = .ok b1) :
    splitCurs ((c :: m) ++ rest) b ts = splitCurs rest b1 ts := by
  rw [List.cons_append, splitCurs]
  have hc : ¬ (isHeader c = true ∧ b.data ≠ []) := by rw [hd]; simp
  rw [if_neg hc, Op.obind]
  simp only
  unfold copyWorks at h
  split at h
  · rename_i ht
    rw [doWork] at h
    obtain ⟨b2, h1, h⟩ := Cursor.bind_ok h
    rw [show b.appendCursor c = .ok b2 from h1, Op.obind, if_neg (by simp [ht]), Op.obind]
    exact splitCurs_work hh h
  · rename_i ht
    rw [doWork] at h
    obtain ⟨b2, h1, h⟩ := Cursor.bind_ok h
    rw [doWork] at h
    obtain ⟨b3, h2, h⟩ := Cursor.bind_ok h
    rw [show b.appendCursor c = .ok b2 from h1, Op.obind, if_pos ht, h2, Op.obind]
    exact splitCurs_work hh h

/-! ### the data is not empty -/

theorem writeTerm_data {b b' : Builder} {t : Nat} (h : b.writeTerm t = .ok b') (hd : b.data ≠ []) : b'.data ≠ [] := by
  unfold writeTerm at h
  split at h
  · cases h; exact hd
  · obtain ⟨b1, h1, h⟩ := Cursor.bind_ok h
    cases h
    simp [write]

theorem endChunk_data {b b' : Builder} {t : Nat} (h : b.endChunk t = .ok b') (hd : b.data ≠ []) : b'.data ≠ [] := by
  unfold endChunk at h
  split at h
  · cases h
  · exact writeTerm_data h hd

theorem utf8esc_ne (c : Nat) : utf8escAppend c ≠ [] := by
  unfold utf8escAppend
  repeat' split
  all_goals first | exact Props.utf8_ne_nil _ | (simp; done)

theorem appendSrc_data {f : Atom → Out (List Byte)} {b b' : Builder} {s : Src} (h : b.appendSrc f s = .ok b')
    (hd : b.data ≠ []) : b'.data ≠ [] := by
  unfold appendSrc at h
  split at h
  · rename_i id ref vals e
    split at h
    · unfold extendSpan at h
      obtain ⟨b2, h2, h⟩ := Cursor.bind_ok h
      cases h
      show b2.data ≠ []
      split at h2
      · unfold extendString at h2
        split at h2
        · cases h2
        · obtain ⟨b3, h3, h2⟩ := Cursor.bind_ok h2
          obtain ⟨r, h4, h2⟩ := Cursor.bind_ok h2
          cases h2
          have := utf8esc_ne r.1.cp
          simp [write, this]
      · cases h2; exact hd
    · obtain ⟨b1, h1, h⟩ := Cursor.bind_ok h
      obtain ⟨b2, h2, h⟩ := Cursor.bind_ok h
      obtain ⟨d, h3, h⟩ := Cursor.bind_ok h
      cases h
      have e1 := writeTerm_data h1 hd
      unfold writeSpec at h2
      obtain ⟨b3, h4, h2⟩ := Cursor.bind_ok h2
      have e2 := writeTerm_data h4 e1
      cases h2
      simp only [write]
      split <;> split <;> simp [e2]
  · cases h

theorem doWork_data : ∀ {w : List Work} {b b' : Builder}, doWork w b = .ok b' → b.data ≠ [] → b'.data ≠ []
  | [], b, b', h, hd => by cases h; exact hd
  | .op f s :: w, b, b', h, hd => by
    rw [doWork] at h
    obtain ⟨b1, h1, h⟩ := Cursor.bind_ok h
    exact doWork_data h (appendSrc_data h1 hd)
  | .endChunk t :: w, b, b', h, hd => by
    rw [doWork] at h
    obtain ⟨b1, h1, h⟩ := Cursor.bind_ok h
    exact doWork_data h (endChunk_data h1 hd)

/-! ### the first op of a test -/

/-- The builder after `Release` writes the first op as a new one does that op with another reference. -/
theorem appendSrc_freed (f : Atom → Out (List Byte)) (s : Src) {id ref : Uuid} {vals : List Atom}
    (e : s.op = id :: ref :: vals) {b : Builder} (hs : b.span = 0) (hd : b.data = []) (hi : id ≠ b.prevId.inc)
    (hi' : id ≠ Uuid.NIL.inc) (hr : ref ≠ Uuid.NIL ∨ b.prevId = Uuid.NIL) :
    b.appendSrc f s =
      Builder.init.appendSrc f { s with op := id :: (if ref = b.prevId then Uuid.NIL else ref) :: vals } := by
  unfold appendSrc
  rw [e]
  simp only
  have h1 : isSameSpan b s id ref = false := by
    unfold isSameSpan
    simp [hi]
  have h1' : isSameSpan Builder.init { s with op := id :: (if ref = b.prevId then Uuid.NIL else ref) :: vals } id
      (if ref = b.prevId then Uuid.NIL else ref) = false := by
    unfold isSameSpan
    have : id ≠ Builder.init.prevId.inc := hi'
    simp [this]
  rw [if_neg (by rw [h1]; decide), if_neg (by rw [h1']; decide)]
  have h2 : b.writeTerm 1 = .ok b := by unfold writeTerm; rw [if_pos hs]
  have h2' : Builder.init.writeTerm 1 = .ok Builder.init := rfl
  have hsig : spanSignature { s with op := id :: (if ref = b.prevId then Uuid.NIL else ref) :: vals } =
      spanSignature s := by
    unfold spanSignature
    rw [e]
    cases vals with
    | nil => rfl
    | cons a vals => cases vals <;> rfl
  rw [h2, h2', Op.obind, Op.obind, hsig]
  unfold writeSpec
  rw [h2, h2', Op.obind, Op.obind]
  have hi2 : ¬ id = Builder.init.prevId.inc := hi'
  simp only [decide_eq_false hi, if_neg (Bool.false_ne_true)]
  by_cases hp : ref = b.prevId
  · rw [if_pos hp, if_neg (by simp [hp]), Op.obind, Op.obind]
    simp only [decide_eq_false hi2, if_neg (Bool.false_ne_true)]
    rw [if_neg (by simp [Builder.init])]
    simp only [write, hd]
    rfl
  · have hn : ref ≠ Builder.init.prevId := by
      rcases hr with hr | hr
      · exact hr
      · rw [hr] at hp; exact hp
    rw [if_neg hp, if_pos hp, Op.obind, Op.obind]
    simp only [decide_eq_false hi2, if_neg (Bool.false_ne_true)]
    rw [if_pos hn]
    simp only [write, hd]
    rfl

theorem first_data {f : Atom → Out (List Byte)} {s : Src} {id ref : Uuid} {vals : List Atom}
    (e : s.op = id :: ref :: vals) {b b' : Builder} (hs : b.span = 0) (hi : id ≠ b.prevId.inc)
    (h : b.appendSrc f s = .ok b') : b'.data ≠ [] := by
  unfold appendSrc at h
  rw [e] at h
  simp only at h
  have h1 : isSameSpan b s id ref = false := by
    unfold isSameSpan
    simp [hi]
  rw [if_neg (by rw [h1]; decide)] at h
  have h2 : b.writeTerm 1 = .ok b := by unfold writeTerm; rw [if_pos hs]
  rw [h2, Op.obind] at h
  unfold writeSpec at h
  rw [h2, Op.obind] at h
  simp only [decide_eq_false hi, if_neg (Bool.false_ne_true)] at h
  rw [Op.obind] at h
  obtain ⟨d, h3, h⟩ := Cursor.bind_ok h
  cases h
  simp only [write]
  split <;> simp

/-- The reference of the first op may be another one. -/
theorem shown_ref {f : Atom → Out (List Byte)} {s : Src} {o : OpView} {x : List Byte} (h : Shown f s o x) {r : Uuid}
    (hr : UuidLit r.str r) : ∃ vals, s.op = o.id :: o.ref :: vals ∧
      Shown f { s with op := o.id :: r :: vals } { o with ref := r } x := by
  obtain ⟨vals, d, h1, h2, h3, h4⟩ := h.vals
  refine ⟨vals, h1, ⟨⟨vals, d, rfl, h2, h3, h4⟩, ?_, h.idLit, hr, h.valType⟩⟩
  have := h.sig
  unfold spanSignature at this ⊢
  rw [h1] at this
  cases vals with
  | nil => exact this
  | cons a vals => cases vals <;> exact this

theorem nil_lit : UuidLit Uuid.NIL.str Uuid.NIL := uuidLit_str (by unfold Plain62; decide)

theorem doWork_prevId {buf : List Byte} {m : List Cursor} {l : List (Nat × OpView)}
    (h : Same2 (TextParser.Holds buf) m l) : ∀ {b b' : Builder}, doWork (copyWorks m) b = .ok b' →
      b'.prevId = lastOp b.prevId l := by
  induction h with
  | nil => intro b b' h; cases h; rfl
  | @cons c x m l hx _ ih =>
    intro b b' h
    have key : ∀ {b1 : Builder}, b.appendSrc (copyValue c) c.src = .ok b1 → b1.prevId = x.2.id := by
      intro b1 h1
      obtain ⟨id, ref, vals, e1, e2⟩ := Props.appendSrc_prevId h1
      obtain ⟨xs, e3, -⟩ := hx.op
      rw [show c.src.op = c.op from rfl, e3] at e1
      injection e1 with e1 _
      rw [e2, e1]
    unfold copyWorks at h
    split at h
    · rw [doWork] at h
      obtain ⟨b1, h1, h⟩ := Cursor.bind_ok h
      rw [ih h, key h1]; rfl
    · rw [doWork] at h
      obtain ⟨b1, h1, h⟩ := Cursor.bind_ok h
      rw [doWork] at h
      obtain ⟨b2, h2, h⟩ := Cursor.bind_ok h
      unfold endChunk at h2
      split at h2
      · cases h2
      · rw [ih h, (Props.writeTerm_prevId h2).1, key h1]; rfl

/-- A test. -/
theorem part_ok {buf : List Byte} (hn : buf.length < 2 ^ 30) (hu : NoOverlong buf) {c : Cursor} {m : List Cursor}
    {x : Nat × OpView} {l : List (Nat × OpView)} (h : Same2 (TextParser.Holds buf) (c :: m) (x :: l))
    (hv : ∀ y ∈ x :: l, ∀ v ∈ y.2.vals, CopyOk v) {b : Builder} (hs : b.span = 0) (hd : b.data = [])
    (hi : x.2.id ≠ b.prevId.inc) (hi' : x.2.id ≠ Uuid.NIL.inc) (hr : x.2.ref ≠ Uuid.NIL ∨ b.prevId = Uuid.NIL)
    (hc : CleanFrom copyHeadOk (copySteps (freed b.prevId (x :: l)))) (hl : 2 * (x :: l).length < 2 ^ 32) :
    ∃ b1 text b2, doWork (copyWorks (c :: m)) b = .ok b1 ∧ b1.data ≠ [] ∧ b1.release = .ok (text, b2) ∧
      b2.span = 0 ∧ b2.data = [] ∧ b2.prevId = lastOp b.prevId (x :: l) ∧
      FrameText Uuid.NIL text (saidBy (copySteps (freed b.prevId (x :: l)))) := by
  obtain ⟨t, o⟩ := x
  simp only at hi hi' hr
  have hh := h
  cases h with
  | cons h0 h1 =>
    obtain ⟨k1, -⟩ := copy_fits hn hu h1 (fun y hy => hv y (by simp [hy]))
    obtain ⟨y, s1, s2⟩ := shown_cursor hn hu h0 (hv (t, o) (by simp))
    have hlit : UuidLit (if o.ref = b.prevId then Uuid.NIL else o.ref).str (if o.ref = b.prevId then Uuid.NIL else o.ref) := by
      split
      · exact nil_lit
      · exact s1.refLit
    obtain ⟨vals, e1, s1'⟩ := shown_ref s1 hlit
    have hf : Fits copyHeadOk
        (.op (copyValue c) { c.src with op := o.id :: (if o.ref = b.prevId then Uuid.NIL else o.ref) :: vals })
        (.op { o with ref := if o.ref = b.prevId then Uuid.NIL else o.ref }) := .op s1' s2
    have hap := appendSrc_freed (copyValue c) c.src e1 hs hd hi hi' hr
    have htm : c.term = t := h0.term
    have hlen : (copySteps (freed b.prevId ((t, o) :: l))).length < 2 ^ 32 := by
      have := copySteps_length (freed b.prevId ((t, o) :: l))
      have e : (freed b.prevId ((t, o) :: l)).length = ((t, o) :: l).length := rfl
      omega
    have key : ∃ b1 text b2, doWork (copyWorks (c :: m)) b = .ok b1 ∧ b1.release = .ok (text, b2) ∧
        FrameText Uuid.NIL text (saidBy (copySteps (freed b.prevId ((t, o) :: l)))) := by
      have hsteps : copySteps (freed b.prevId ((t, o) :: l)) = if t = 1 then
          .op { o with ref := if o.ref = b.prevId then Uuid.NIL else o.ref } :: copySteps l else
          .op { o with ref := if o.ref = b.prevId then Uuid.NIL else o.ref } :: .endChunk t :: copySteps l := rfl
      rw [hsteps] at hc hlen ⊢
      by_cases h1 : t = 1
      · rw [if_pos h1] at hc hlen ⊢
        obtain ⟨b1, text, b2, f1, f2, f3⟩ := work_ok (.cons hf k1) hc hlen
        refine ⟨b1, text, b2, ?_, f2, f3⟩
        unfold copyWorks
        rw [if_pos (htm.trans h1), doWork, hap]
        exact f1
      · rw [if_neg h1] at hc hlen ⊢
        obtain ⟨b1, text, b2, f1, f2, f3⟩ := work_ok (.cons hf (.cons (.endChunk t) k1)) hc hlen
        refine ⟨b1, text, b2, ?_, f2, f3⟩
        unfold copyWorks
        rw [if_neg (by rw [htm]; exact h1), doWork, hap, htm]
        exact f1
    obtain ⟨b1, text, b2, f1, f2, f3⟩ := key
    obtain ⟨r1, r2, r3⟩ := Props.release_eq f2
    refine ⟨b1, text, b2, f1, ?_, f2, r2, r3, ?_, f3⟩
    · unfold copyWorks at f1
      split at f1
      · rw [doWork] at f1
        obtain ⟨b3, g1, f1⟩ := Cursor.bind_ok f1
        exact doWork_data f1 (first_data e1 hs hi g1)
      · rw [doWork] at f1
        obtain ⟨b3, g1, f1⟩ := Cursor.bind_ok f1
        exact doWork_data f1 (first_data e1 hs hi g1)
    · rw [r1, doWork_prevId hh f1]

/-! ### all the tests -/

theorem header_eq {buf : List Byte} {c : Cursor} {x : Nat × OpView} (h : TextParser.Holds buf c x) :
    isHeader c = isHead x := by
  obtain ⟨xs, e, -⟩ := h.op
  unfold isHeader isHead
  rw [h.term]
  have : c.id = some x.2.id := by unfold Cursor.id; rw [e]; rfl
  rw [this, Bool.eq_iff_iff]
  simp only [Option.some.injEq, Bool.and_eq_true, Bool.or_eq_true, decide_eq_true_eq]
  rfl

theorem split_while {α β : Type} {R : α → β → Prop} {p : α → Bool} {q : β → Bool} (hpq : ∀ a b, R a b → p a = q b)
    {m : List α} {l : List β} (h : Same2 R m l) :
    Same2 R (m.takeWhile p) (l.takeWhile q) ∧ Same2 R (m.dropWhile p) (l.dropWhile q) := by
  induction h with
  | nil => exact ⟨.nil, .nil⟩
  | @cons a b m l h h' ih =>
    have e := hpq a b h
    cases hb : q b with
    | true =>
      rw [hb] at e
      rw [List.takeWhile_cons_of_pos e, List.takeWhile_cons_of_pos hb, List.dropWhile_cons_of_pos e,
        List.dropWhile_cons_of_pos hb]
      exact ⟨.cons h ih.1, ih.2⟩
    | false =>
      rw [hb] at e
      rw [List.takeWhile_cons_of_neg (by simp [e]), List.takeWhile_cons_of_neg (by simp [hb]),
        List.dropWhile_cons_of_neg (by simp [e]), List.dropWhile_cons_of_neg (by simp [hb])]
      exact ⟨.nil, .cons h h'⟩

theorem splitCurs_release {m : List Cursor} {b b2 : Builder} {text : List Byte} {ts : List (List Byte)}
    (hd : b.data ≠ []) (hr : b.release = .ok (text, b2)) (h2 : b2.data = [])
    (hh : ∀ c ∈ m.head?, isHeader c = true) : splitCurs m b ts = splitCurs m b2 (ts ++ [text]) := by
  cases m with
  | nil => simp [splitCurs, hd, hr, h2, Op.obind]
  | cons c m => simp [splitCurs, hh c rfl, hd, hr, h2, Op.obind]

theorem splitCurs_ok {buf : List Byte} (hn : buf.length < 2 ^ 30) (hu : NoOverlong buf) : ∀ (n : Nat)
    {m : List Cursor} {l : List (Nat × OpView)}, l.length ≤ n → Same2 (TextParser.Holds buf) m l →
    (∀ x ∈ l, ∀ v ∈ x.2.vals, CopyOk v) → 2 * l.length < 2 ^ 32 → ∀ {b : Builder} {ts : List (List Byte)},
    b.span = 0 → b.data = [] → Apart b.prevId (testsOf l) →
    (∀ part ∈ freedAll b.prevId (testsOf l), CleanFrom copyHeadOk (copySteps part)) →
    ∃ texts, splitCurs m b ts = .ok (ts ++ texts) ∧
      Same2 (fun text part => FrameText Uuid.NIL text (saidBy (copySteps part))) texts
        (freedAll b.prevId (testsOf l)) := by
  intro n
  induction n with
  | zero =>
    intro m l hl h _ _ b ts hs hd _ _
    have : l = [] := List.length_eq_zero_iff.1 (by omega)
    subst this
    cases h
    refine ⟨[], by simp [splitCurs, hd], ?_⟩
    rw [testsOf]; exact .nil
  | succ n ih =>
    intro m l hl h hv h32 b ts hs hd hA hC
    cases h with
    | nil =>
      refine ⟨[], by simp [splitCurs, hd], ?_⟩
      rw [testsOf]; exact .nil
    | @cons c x m l h0 h1 =>
      obtain ⟨w1, w2⟩ := split_while (p := fun c => !isHeader c) (q := fun y => !isHead y)
        (fun a b h => by rw [header_eq h]) h1
      rw [testsOf_cons] at hA hC ⊢
      obtain ⟨a1, a2⟩ := hA
      obtain ⟨a3, a4, a5⟩ := a1 x rfl
      have hsub : ∀ y ∈ l.takeWhile (fun y => !isHead y), y ∈ l := fun y hy => (List.takeWhile_sublist _).subset hy
      have hsub2 : ∀ y ∈ l.dropWhile (fun y => !isHead y), y ∈ l := fun y hy => (List.dropWhile_sublist _).subset hy
      have hlen1 : (l.takeWhile (fun y => !isHead y)).length ≤ l.length := (List.takeWhile_sublist _).length_le
      have hlen2 : (l.dropWhile (fun y => !isHead y)).length ≤ l.length := (List.dropWhile_sublist _).length_le
      simp only [List.length_cons] at hl h32
      obtain ⟨b1, text, b2, f1, f2, f3, f4, f5, f6, f7⟩ := part_ok hn hu (x := x) (l := l.takeWhile fun y => !isHead y) (.cons h0 w1)
        (fun y hy => hv y (by
          rcases List.mem_cons.1 hy with e | hy
          · rw [e]; simp
          · exact List.mem_cons_of_mem _ (hsub y hy))) hs hd a3 a4 a5
        (hC _ (by simp [freedAll])) (by simp only [List.length_cons]; omega)
      rw [← f6] at a2
      obtain ⟨texts, t1, t2⟩ := ih (by omega) w2 (fun y hy => hv y (List.mem_cons_of_mem _ (hsub2 y hy)))
        (by omega) (ts := ts ++ [text]) f4 f5 a2 (fun part hp => hC part (by
          rw [freedAll]; rw [f6] at hp; exact List.mem_cons_of_mem _ hp))
      refine ⟨text :: texts, ?_, ?_⟩
      · have e : c :: m = (c :: m.takeWhile fun c => !isHeader c) ++ m.dropWhile fun c => !isHeader c := by
          rw [List.cons_append, List.takeWhile_append_dropWhile]
        rw [e, splitCurs_first hd ?_ f1, splitCurs_release f2 f3 f5 ?_, t1]
        · simp
        · intro d hd'
          have := List.head?_dropWhile_not (p := fun c => !isHeader c) m
          grind
        · intro d hd'
          have : (!isHeader d) = true := List.all_eq_true.1 (List.all_takeWhile) d hd'
          simpa using this
      · rw [freedAll, ← f6]
        exact .cons f7 t2

/-! ### the cursors -/

/-- The beginning of a frame. -/
theorem ops_trail {buf : List Byte} (hn : buf.length < 2 ^ 30) {prev q : Uuid} {s : List Byte}
    {l : List (Nat × OpView)} (h : OpsText prev s l q) : ∀ {cur : Cursor} {rest : List Byte},
    TextParser.AtOp buf cur prev → Atom.type prev = Atom.tUUID → buf.drop cur.beg = s ++ rest →
    ∃ m last, Same2 (TextParser.Holds buf) m l ∧
      (∀ k st, Chains.Trail last k st → Chains.Trail cur (m ++ k) st) ∧ TextParser.AtOp buf last q ∧
      buf.drop last.beg = rest ∧
      (∀ P : Cursor → Prop, (∀ c c', P c → Cursor.next c = .ok (c', .ok) → P c') → P cur → P last) := by
  induction h with
  | nil => exact fun hc _ hb => ⟨[], _, .nil, fun _ _ h => h, hc, hb, fun _ _ h => h⟩
  | @cons prev last s s' t ops o l h hl hs ih =>
    intro cur rest hc hp hb
    rw [List.append_assoc] at hb
    obtain ⟨tail, c1, o', t0, t1, t2, t3, t4, t5, t6, t7, t8⟩ := TextParser.next_op hn hc hp h hb
    have : o' = o := by rw [hl] at t4; cases t4; rfl
    subst this
    obtain ⟨m, c2, m1, m2, m3, m4, m5⟩ := ih t5 t6 (by rw [t7, ← List.drop_drop, hb, List.drop_left])
    exact ⟨tail ++ m, c2, TextParser.same2_append t0 m1, fun k st hk => by
      rw [List.append_assoc]; exact t1 _ _ (m2 k st hk), m3, m4, fun P hP h => m5 P hP (t8 P hP h)⟩

theorem no_row (c : Byte) : stepIn TextTable.rows 75 c = none := by
  have key : ∀ n : Fin 256, stepIn TextTable.rows 75 (UInt8.ofNat n.val) = none := by decide +kernel
  have := key ⟨c.toNat, c.toNat_lt⟩
  simpa using this

/-- At a full stop the reading ends. -/
theorem stop_dot {buf : List Byte} (hn : buf.length < 10 ^ 9 - 1) {cur : Cursor} {q : Uuid}
    (hc : TextParser.AtOp buf cur q) (hs : Cursor.Safe buf cur) {w rest : List Byte} (hw : Blank w)
    (hb : buf.drop cur.beg = w ++ 46 :: 10 :: rest) : ∃ c' st, Cursor.next cur = .ok (c', st) ∧ st ≠ .ok := by
  have hl : cur.beg < buf.length := by
    have h1 := congrArg List.length hb
    simp only [List.length_drop, List.length_append, List.length_cons] at h1
    omega
  have key : ∃ s r, TextParser.go buf 74 (Cursor.startRegs cur) = .ok (s, r) ∧ r.term = 0 := by
    obtain ⟨r1, g1, k1⟩ := TextParser.go_blank (buf := buf) (s := 74) (by decide) w (46 :: 10 :: rest)
      (Cursor.startRegs cur) hw hb
    have hb1 := g1.drop (rest := 46 :: 10 :: rest) hb
    have h1 : stepIn TextTable.rows 74 46 = some ([], 60) := by decide +kernel
    have h2 : stepIn TextTable.rows 60 10 = some ([], 75) := by decide +kernel
    have ht : r1.term = 0 := k1.term
    rw [g1.go]
    unfold TextParser.go
    rw [hb1, TextParser.run, h1]
    simp only [TextParser.acts]
    rw [TextParser.run, h2]
    simp only [TextParser.acts]
    cases rest with
    | nil => exact ⟨_, _, rfl, ht⟩
    | cons c rest =>
      rw [TextParser.run, no_row c]
      exact ⟨_, _, rfl, ht⟩
  obtain ⟨s, r, g, ht⟩ := key
  have e := hc.parse hl
  rw [g, Op.obind] at e
  rcases Cursor.next_safe hn hs with ⟨h1, -⟩ | ⟨c', st, h1, -⟩
  · exfalso
    rw [e] at h1
    unfold Cursor.finish at h1
    simp only at h1
    rw [if_neg (by simp [ht])] at h1
    split at h1
    · cases h1
    · split at h1 <;> cases h1
  · refine ⟨c', st, h1, ?_⟩
    rw [e] at h1
    obtain ⟨-, -, -, -, -, h2⟩ := Cursor.finish_cases h1
    rcases h2 with ⟨-, h2, -⟩ | ⟨h2, -⟩
    · exact absurd ht h2
    · exact h2

/-- The trail of a script up to its end or to the first full stop. -/
theorem script_trail {buf : List Byte} (hn : buf.length < 10 ^ 9 - 1) {q : Uuid} {s w e : List Byte}
    {l : List (Nat × OpView)} (h : OpsText Uuid.NIL s l q) (hw : Blank w) (he : e = [] ∨ ∃ rest, e = 46 :: 10 :: rest)
    (hb : buf = s ++ (w ++ e)) : ∃ m st, Chains.Trail (Cursor.init buf) m st ∧ Same2 (TextParser.Holds buf) m l := by
  obtain ⟨m, last, m1, m2, m3, m4, m5⟩ := ops_trail (Nat.lt_trans hn (by decide)) h (cur := Cursor.init buf)
    (rest := w ++ e) ⟨rfl, rfl, rfl, .inr ⟨rfl, rfl⟩⟩ Cursor.type_nil hb
  have hs : Cursor.Safe buf last := m5 (Cursor.Safe buf) (fun c c' h1 h2 => by
    rcases Cursor.next_safe hn h1 with ⟨h3, -⟩ | ⟨c1, st, h3, h4, -⟩
    · rw [h3] at h2; cases h2
    · rw [h3] at h2; injection h2 with h2; injection h2 with h2 _; rw [← h2]; exact h4) (Cursor.Safe.init buf)
  have key : ∃ c' st, Cursor.next last = .ok (c', st) ∧ st ≠ .ok := by
    rcases he with rfl | ⟨rest, rfl⟩
    · rw [List.append_nil] at m4
      obtain ⟨c', h1⟩ := TextParser.next_end m3 hw (.inl m4)
      exact ⟨c', _, h1, by decide⟩
    · exact stop_dot hn m3 hs hw m4
  obtain ⟨c', st, k1, k2⟩ := key
  have := m2 [] st (.stop k1 k2)
  rw [List.append_nil] at this
  exact ⟨m, st, this, m1⟩

end Script
end Ron
