import Verif.Lemmas.Compare
import Verif.Props.Cursor
/-!
Property theorems C50 (comparison of frames).
-/
namespace Ron.Props
open Spec Cursor

/-- C50 as claimed: two well-formed frames compare equal if and only if they have the same ops.
(`fuel` bounds the number of turns of the loops; any fuel above the number of ops will do.) -/
def C50_claim : Prop := ∀ (feq : List Byte → List Byte → Bool), Equiv feq →
  ∀ (a b : List Byte) (va vb : List OpView), Contents a va .endOfFrame → Contents b vb .endOfFrame →
  ∀ fuel, va.length < fuel → vb.length < fuel →
    (compareFrames feq fuel a b = .ok (some .OK) ↔ Same2 (OpView.Same feq) va vb)

/-- C50: every frame (below `10^9 - 1` bytes, without words of more than ten characters, see C19)
has contents. -/
theorem C50_contents (buf : List Byte) (hn : buf.length < 10 ^ 9 - 1) (hl : ¬ LongWord buf) :
    ∃ ops st, Contents buf ops st := by
  rcases iterate_safe hn hl (buf.length * 2 ^ 32 + 1) (init buf) (.init buf) with
    h | ⟨l, st, vs, h1, h2⟩
  · exact absurd h (C18_terminates buf _ (by omega))
  · exact ⟨vs, st, _, l, h1, h2⟩

/-- The ops of a frame, computed. -/
def readOps (fuel : Nat) (buf : List Byte) : Out (Option (List OpView × NextStatus)) :=
  (iterate fuel (init buf)).bind fun x =>
    match x with
    | none => .ok none
    | some (l, st) => (collect viewOp l).bind fun vs => .ok (some (vs, st))

theorem contents_of {buf : List Byte} {ops : List OpView} {st : NextStatus} (fuel : Nat)
    (h : readOps fuel buf = .ok (some (ops, st))) : Contents buf ops st := by
  unfold readOps at h
  obtain ⟨x, h1, h2⟩ := bind_ok h
  cases x with
  | none => cases h2
  | some x =>
    obtain ⟨l, st'⟩ := x
    obtain ⟨vs, h3, h4⟩ := bind_ok h2
    cases h4
    exact ⟨fuel, l, h1, h3⟩

theorem collect_map_length {l : List Cursor} {vs : List OpView} (h : collect viewOp l = .ok vs) :
    vs.length = l.length := collect_length h

/-- C50, what the comparison does, for all frames, well-formed or not. It finds two frames equal
if and only if their events are the same, in the same order: comments (ops with the id `~`) are
passed over, punctuation does not count, and neither does the way a frame ends. The exception
are frames with no ops at all: such a frame equals only frames with no ops that fail the same
way. Missing from the claim: comments count as ops there. -/
theorem C50_exact_partial (feq : List Byte → List Byte → Bool) (a b : List Byte)
    (va vb : List OpView) (sa sb : NextStatus) (ha : Contents a va sa) (hb : Contents b vb sb)
    (fuel : Nat) (hfa : va.length < fuel) (hfb : vb.length < fuel) :
    ∃ st, compareFrames feq fuel a b = .ok (some st) ∧
      (st = .OK ↔ (va = [] ↔ vb = []) ∧ (va = [] → sa = sb) ∧
        Same2 (OpView.Same feq) (events va) (events vb)) := by
  obtain ⟨fa, la, ha1, ha2⟩ := ha
  obtain ⟨fb, lb, hb1, hb2⟩ := hb
  obtain ⟨ca, ta, na, ka, ea, oa⟩ := iterate_chain fa _ la sa (.init a)
    (fun h => absurd rfl h) ha1
  obtain ⟨cb, tb, nb, kb, eb, ob⟩ := iterate_chain fb _ lb sb (.init b)
    (fun h => absurd rfl h) hb1
  rw [collect_length ha2] at hfa
  rw [collect_length hb2] at hfb
  unfold compareFrames
  simp only [na, nb, Out.bind, collect_nil_iff ha2, collect_nil_iff hb2]
  obtain ⟨st, h1, h2, _⟩ := compare_chain (feq := feq) fuel ca cb la lb va vb ka kb ha2 hb2 hfa hfb
  by_cases za : la = [] <;> by_cases zb : lb = []
  · have e1 := ea za
    have e2 := eb zb
    by_cases hst : ta = tb
    · rw [if_neg (by simpa using hst)]
      refine ⟨st, h1, ?_⟩
      rw [h2]
      simp [za, zb, ← e1.1, ← e2.1, hst]
    · rw [if_pos hst]
      refine ⟨_, rfl, ⟨fun h => absurd h (by decide), fun h => ?_⟩⟩
      exact absurd (e1.1.trans ((h.2.1 za).trans e2.1.symm)) hst
  · have e1 := ea za
    have e2 := ob zb
    rw [if_pos (by rw [e1.1, e2]; exact e1.2)]
    exact ⟨_, rfl, ⟨fun h => absurd h (by decide), fun h => absurd (h.1.1 za) zb⟩⟩
  · have e1 := eb zb
    have e2 := oa za
    rw [if_pos (by rw [e1.1, e2]; exact fun h => e1.2 h.symm)]
    exact ⟨_, rfl, ⟨fun h => absurd h (by decide), fun h => absurd (h.1.2 zb) za⟩⟩
  · rw [if_neg (by rw [oa za, ob zb]; simp)]
    refine ⟨st, h1, ?_⟩
    rw [h2]
    simp [za, zb]

/-- C50, partial: the claim holds for well-formed frames without comments. -/
theorem C50_plain_partial (feq : List Byte → List Byte → Bool) (a b : List Byte)
    (va vb : List OpView) (ha : Contents a va .endOfFrame) (hb : Contents b vb .endOfFrame)
    (hca : ∀ v ∈ va, v.id ≠ COMMENT) (hcb : ∀ v ∈ vb, v.id ≠ COMMENT)
    (fuel : Nat) (hfa : va.length < fuel) (hfb : vb.length < fuel) :
    compareFrames feq fuel a b = .ok (some .OK) ↔ Same2 (OpView.Same feq) va vb := by
  obtain ⟨st, h1, h2⟩ := C50_exact_partial feq a b va vb _ _ ha hb fuel hfa hfb
  have fa : events va = va := List.filter_eq_self.2 fun v hv => by simpa using hca v hv
  have fb : events vb = vb := List.filter_eq_self.2 fun v hv => by simpa using hcb v hv
  rw [fa, fb] at h2
  rw [h1]
  simp only [Out.ok.injEq, Option.some.injEq]
  rw [h2]
  refine ⟨fun h => h.2.2, fun h => ⟨?_, fun _ => rfl, h⟩⟩
  have := same2_length h
  rw [← List.length_eq_zero_iff, ← List.length_eq_zero_iff, this]

/-- Comparing floats as they are written. -/
def litEq (s t : List Byte) : Bool := s == t

theorem litEq_equiv : Equiv litEq :=
  ⟨fun s => by simp [litEq], fun s t h => by simp [litEq] at *; exact h.symm,
    fun s t u h h' => by simp [litEq] at *; exact h.trans h'⟩

/-- The ops of a frame, for concrete frames. -/
def opsOf (buf : List Byte) : List OpView :=
  match readOps 20 buf with
  | .ok (some (l, _)) => l
  | _ => []

/-- The status a frame ends with, for concrete frames. -/
def endOf (buf : List Byte) : NextStatus :=
  match readOps 20 buf with
  | .ok (some (_, st)) => st
  | _ => .ok

theorem contents_lit {buf : List Byte}
    (h : readOps 20 buf = .ok (some (opsOf buf, endOf buf))) : Contents buf (opsOf buf) (endOf buf) :=
  contents_of 20 h

-- The same ops written in two ways.
example : compareFrames litEq 20 (lit "@1+A :2+A 'ab' 5 ;") (lit "@1+A:2+A'ab' +5;") =
    .ok (some .OK) := by decide +kernel
example : compareFrames litEq 20 (lit "@1+A 5; 6;") (lit "@1+A 5; @1000000001+A :1+A 6;") =
    .ok (some .OK) := by decide +kernel
example : compareFrames litEq 20 (lit "@1+A 5; 6;") (lit "@1+A 5; 7;") = .ok (some .BADVALUE) := by
  decide +kernel

/-- C50 is violated: a comment is passed over, so a frame with a comment equals the frame
without it. -/
theorem C50_violated : ¬ C50_claim := by
  intro h
  have h1 := (h litEq litEq_equiv (lit "@1+A 5;") (lit "@1+A 5; @~ 'x'!") _ _
    (contents_of 20 (by decide +kernel : readOps 20 (lit "@1+A 5;") =
      .ok (some (opsOf (lit "@1+A 5;"), .endOfFrame))))
    (contents_of 20 (by decide +kernel : readOps 20 (lit "@1+A 5; @~ 'x'!") =
      .ok (some (opsOf (lit "@1+A 5; @~ 'x'!"), .endOfFrame))))
    20 (by decide +kernel) (by decide +kernel)).1 (by decide +kernel)
  exact absurd (same2_length h1) (by decide +kernel)

/-- C50: equality of frames implies that they end the same way. -/
def C50_end_claim : Prop := ∀ (feq : List Byte → List Byte → Bool), Equiv feq →
  ∀ (a b : List Byte) (va vb : List OpView) (sa sb : NextStatus), Contents a va sa →
  Contents b vb sb → ∀ fuel, va.length < fuel → vb.length < fuel →
    compareFrames feq fuel a b = .ok (some .OK) → sa = sb

/-- C50 is violated for malformed frames: a syntax error after the last op goes unnoticed, so a
well-formed frame equals a broken one. -/
theorem C50_end_violated : ¬ C50_end_claim := by
  intro h
  have := h litEq litEq_equiv (lit "@1+A 5;") (lit "@1+A 5; @1 @2") _ _ .endOfFrame .badState
    (contents_of 20 (by decide +kernel : readOps 20 (lit "@1+A 5;") =
      .ok (some (opsOf (lit "@1+A 5;"), .endOfFrame))))
    (contents_of 20 (by decide +kernel : readOps 20 (lit "@1+A 5; @1 @2") =
      .ok (some (opsOf (lit "@1+A 5; @1 @2"), .badState))))
    20 (by decide +kernel) (by decide +kernel) (by decide +kernel)
  cases this

/-! ### an equivalence -/

theorem same_refl {feq : List Byte → List Byte → Bool} (e : Equiv feq) (v : View) :
    View.Same feq v v := by
  cases v <;> first | rfl | exact e.refl _

theorem same_symm {feq : List Byte → List Byte → Bool} (e : Equiv feq) {v w : View}
    (h : View.Same feq v w) : View.Same feq w v := by
  cases v <;> cases w <;> first | exact h.elim | exact e.symm _ _ h | exact Eq.symm h

theorem same_trans {feq : List Byte → List Byte → Bool} (e : Equiv feq) {u v w : View}
    (h : View.Same feq u v) (h' : View.Same feq v w) : View.Same feq u w := by
  cases u <;> cases v <;> first
    | exact h.elim
    | (cases w <;> first
      | exact h'.elim
      | exact e.trans _ _ _ h h'
      | exact Eq.trans h h')

theorem same2_refl {α : Type} {R : α → α → Prop} (h : ∀ a, R a a) (l : List α) : Same2 R l l := by
  induction l with
  | nil => exact .nil
  | cons a l ih => exact .cons (h a) ih

theorem same2_symm {α : Type} {R : α → α → Prop} (h : ∀ a b, R a b → R b a) {l m : List α}
    (hs : Same2 R l m) : Same2 R m l := by
  induction hs with
  | nil => exact .nil
  | cons a _ ih => exact .cons (h _ _ a) ih

theorem same2_trans {α : Type} {R : α → α → Prop} (h : ∀ a b c, R a b → R b c → R a c)
    {l m n : List α} (hs : Same2 R l m) (hs' : Same2 R m n) : Same2 R l n := by
  induction hs generalizing n with
  | nil => cases hs'; exact .nil
  | cons a _ ih =>
    cases hs' with
    | cons b k => exact .cons (h _ _ _ a b) (ih k)

/-- C50: every frame equals itself. -/
theorem C50_refl (feq : List Byte → List Byte → Bool) (e : Equiv feq) (a : List Byte)
    (va : List OpView) (sa : NextStatus) (ha : Contents a va sa) (fuel : Nat)
    (hf : va.length < fuel) : compareFrames feq fuel a a = .ok (some .OK) := by
  obtain ⟨st, h1, h2⟩ := C50_exact_partial feq a a va va sa sa ha ha fuel hf hf
  rw [h1, h2.2 ⟨Iff.rfl, fun _ => rfl, same2_refl (fun v => ⟨rfl, rfl,
    same2_refl (same_refl e) _⟩) _⟩]

/-- C50: the comparison is symmetric. -/
theorem C50_symm (feq : List Byte → List Byte → Bool) (e : Equiv feq) (a b : List Byte)
    (va vb : List OpView) (sa sb : NextStatus) (ha : Contents a va sa) (hb : Contents b vb sb)
    (fuel : Nat) (hfa : va.length < fuel) (hfb : vb.length < fuel)
    (h : compareFrames feq fuel a b = .ok (some .OK)) :
    compareFrames feq fuel b a = .ok (some .OK) := by
  obtain ⟨st, h1, h2⟩ := C50_exact_partial feq a b va vb sa sb ha hb fuel hfa hfb
  obtain ⟨st', h1', h2'⟩ := C50_exact_partial feq b a vb va sb sa hb ha fuel hfb hfa
  rw [h1] at h
  cases h
  obtain ⟨k1, k2, k3⟩ := h2.1 rfl
  rw [h1', h2'.2 ⟨k1.symm, fun z => (k2 (k1.2 z)).symm, same2_symm (fun x y s =>
    ⟨s.id.symm, s.ref.symm, same2_symm (fun _ _ h => same_symm e h) s.vals⟩) k3⟩]

/-- C50: the comparison is transitive. -/
theorem C50_trans (feq : List Byte → List Byte → Bool) (e : Equiv feq) (a b c : List Byte)
    (va vb vc : List OpView) (sa sb sc : NextStatus) (ha : Contents a va sa)
    (hb : Contents b vb sb) (hc : Contents c vc sc) (fuel : Nat) (hfa : va.length < fuel)
    (hfb : vb.length < fuel) (hfc : vc.length < fuel)
    (hab : compareFrames feq fuel a b = .ok (some .OK))
    (hbc : compareFrames feq fuel b c = .ok (some .OK)) :
    compareFrames feq fuel a c = .ok (some .OK) := by
  obtain ⟨s1, h1, h2⟩ := C50_exact_partial feq a b va vb sa sb ha hb fuel hfa hfb
  obtain ⟨s2, h3, h4⟩ := C50_exact_partial feq b c vb vc sb sc hb hc fuel hfb hfc
  obtain ⟨s3, h5, h6⟩ := C50_exact_partial feq a c va vc sa sc ha hc fuel hfa hfc
  rw [h1] at hab
  rw [h3] at hbc
  cases hab; cases hbc
  obtain ⟨k1, k2, k3⟩ := h2.1 rfl
  obtain ⟨m1, m2, m3⟩ := h4.1 rfl
  rw [h5, h6.2 ⟨k1.trans m1, fun z => (k2 z).trans (m2 (k1.1 z)), same2_trans (fun x y z s t =>
    ⟨s.id.trans t.id, s.ref.trans t.ref, same2_trans (R := View.Same feq) (fun _ _ _ h h' => same_trans e h h')
    s.vals t.vals⟩)
    k3 m3⟩]

example : ∃ ops st, Contents (lit "@1+A :lww 'key' 1.5;\n 'b' >x;") ops st ∧ ops.length = 2 :=
  ⟨_, _, contents_lit (by decide +kernel), by decide +kernel⟩

end Ron.Props
