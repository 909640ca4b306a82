import Verif.Lemmas.TextFrameGo
import Verif.Props.Compare
/-!
Property theorems C20 (atoms), C23 (abbreviated ids and references), C24 (spans).
-/
namespace Ron.Props
open Spec Cursor

/-! ### texts of literals -/

theorem blank_lit {w : List Byte} (h : w.all isWs = true) : Blank w := List.all_eq_true.1 h

theorem digits_lit {d : List Byte} (h : (!d.isEmpty && d.all fun c => decide (48 ≤ c.toNat ∧ c.toNat ≤ 57)) = true) :
    Digits d := by
  simp only [Bool.and_eq_true, List.all_eq_true, decide_eq_true_eq] at h
  exact ⟨fun e => by simp [e] at h, fun c hc => h.2 c hc⟩

theorem word_lit {w : List Byte} (h : (!w.isEmpty && w.all isB64) = true) : IsWord w := by
  simp only [Bool.and_eq_true, List.all_eq_true] at h
  exact ⟨fun e => by simp [e] at h, fun c hc => h.2 c hc⟩

/-- A name, as a UUID. -/
theorem name_lit {w : List Byte} (h : (!w.isEmpty && w.all isB64 && decide (w.length ≤ 10)) = true) :
    UuidLit w (denote 0 w 0 []) := by
  simp only [Bool.and_eq_true, decide_eq_true_eq] at h
  exact ⟨0, w, 0, [], ⟨⟨[], [], by simp, .none, .none⟩, word_lit (by simpa using h.1)⟩, h.2, by simp, rfl⟩

/-- A stamp, as a UUID. -/
theorem stamp_lit {w o : List Byte} (h : (!w.isEmpty && w.all isB64 && decide (w.length ≤ 10) &&
    (!o.isEmpty && o.all isB64 && decide (o.length ≤ 10))) = true) :
    UuidLit (w ++ 43 :: o) (denote 0 w 2 o) := by
  simp only [Bool.and_eq_true, decide_eq_true_eq] at h
  exact ⟨0, w, 2, o, ⟨⟨[], 43 :: o, by simp, .none, .some 43 o (by decide) (word_lit (by simpa using h.2.1))⟩,
    word_lit (by simpa using h.1.1)⟩, h.1.2, h.2.2, rfl⟩

theorem float_1e5 : FloatLit (lit "1e5") :=
  ⟨.exp [] (lit "1") (lit "e5") .none (digits_lit (by decide))
    (.mk 101 [] (lit "5") (.inr rfl) .none (digits_lit (by decide))), by decide⟩

theorem floatText_head {c : Byte} {t : List Byte} (h : FloatText (c :: t)) :
    c = 43 ∨ c = 45 ∨ IsDigit c := by
  have key : ∀ s d x : List Byte, SignText s → Digits d → c :: t = s ++ d ++ x →
      c = 43 ∨ c = 45 ∨ IsDigit c := by
    intro s d x hs hd e
    cases hs with
    | none =>
      cases d with
      | nil => exact absurd rfl hd.1
      | cons y d => simp at e; rw [e.1]; exact .inr (.inr (hd.2 y (by simp)))
    | plus => simp at e; exact .inl e.1
    | minus => simp at e; exact .inr (.inl e.1)
  generalize hw : c :: t = w at h
  cases h with
  | frac s d f hs hd hf => exact key s d _ hs hd hw
  | fracExp s d f x hs hd hf hx => exact key s d (46 :: f ++ x) hs hd (by rw [hw]; simp)
  | exp s d x hs hd hx => exact key s d x hs hd hw

/-- A name that starts with a letter is a bare atom. -/
theorem bare_name {c : Byte} {w : List Byte} (h : (!(c :: w).isEmpty && (c :: w).all isB64 &&
    decide ((c :: w).length ≤ 10)) = true) (hc : 57 < c.toNat) :
    AtomText true (c :: w) (.uuid (denote 0 (c :: w) 0 [])) :=
  .uuid (name_lit h) (fun hd => by have := (hd.2 c (by simp)).2; omega) (fun hf => by
    rcases floatText_head hf with rfl | rfl | hd
    · simp at hc
    · simp at hc
    · have := hd.2; omega)

/-! ### C20 -/

/-- The values a bare atom may denote. -/
def BareValue (t : List Byte) (v : View) : Prop :=
  (∃ i, IntLit t i ∧ v = .int i) ∨ (FloatLit t ∧ v = .float t) ∨ ∃ u, UuidLit t u ∧ v = .uuid u

/-- C20 as claimed: an op with one bare atom has one value, and it is one the text of the atom
denotes. -/
def C20_claim : Prop := ∀ (t : List Byte) (v : View), BareValue t v → t.length < 2 ^ 20 →
  ∃ id ref v', BareValue t v' ∧ Contents (32 :: t ++ [59]) [⟨id, ref, [v']⟩] .endOfFrame

/-- C20 does not hold: `1e5` is a number and a name at the same time, and the op ` 1e5;` gets both
as two values. -/
theorem C20_violated : ¬ C20_claim := by
  intro h
  obtain ⟨id, ref, v, -, hc⟩ := h (lit "1e5") (.float (lit "1e5"))
    (.inr (.inl ⟨float_1e5, rfl⟩)) (by decide)
  have := (Chains.contents_unique hc (contents_lit (buf := lit " 1e5;") (by decide +kernel))).1
  have h2 : (opsOf (lit " 1e5;")).map (fun o => o.vals.length) = [2] := by decide +kernel
  rw [← this] at h2
  simp at h2

/-- C20: frames that follow the grammar are read as they say, atom by atom and op by op: every
value of its type, every id, every reference, every terminator. Missing from the claim: bare
atoms that are a float and a UUID at the same time (`1e5`, `1e+5`), which `AtomText` leaves out;
strings that end with a `\u` form lose the code point (`asRead`). -/
theorem C20_frames_partial (buf : List Byte) (hn : buf.length < 2 ^ 30) (l : List (Nat × OpView))
    (h : FrameText Uuid.NIL buf l) :
    Contents buf (l.map Prod.snd) .endOfFrame ∧
    ∃ m, iterate (m.length + 1) (init buf) = .ok (some (m, .endOfFrame)) ∧
      m.map Cursor.term = l.map Prod.fst := by
  obtain ⟨m, h1, h2, h3⟩ := TextParser.frame_contents hn h
  exact ⟨⟨_, m, h1, h2⟩, m, h1, h3⟩

/-- C20: the grammar is unambiguous: a text says one thing. -/
theorem C20_unambiguous_partial (buf : List Byte) (hn : buf.length < 2 ^ 30)
    (l l' : List (Nat × OpView)) (h : FrameText Uuid.NIL buf l) (h' : FrameText Uuid.NIL buf l') :
    l = l' := by
  obtain ⟨m, h1, h2, h3⟩ := TextParser.frame_contents hn h
  obtain ⟨m', k1, k2, k3⟩ := TextParser.frame_contents hn h'
  obtain ⟨rfl, -⟩ := Chains.trail_unique (Chains.trail_of_iterate _ _ _ _ h1)
    (Chains.trail_of_iterate _ _ _ _ k1)
  rw [h2] at k2
  rw [h3] at k3
  have e2 : l.map Prod.snd = l'.map Prod.snd := by injection k2
  clear h1 h2 k1 h3 h h' k2
  induction l generalizing l' with
  | nil => cases l' with
    | nil => rfl
    | cons => simp at e2
  | cons x l ih => cases l' with
    | nil => simp at e2
    | cons y l' =>
      simp only [List.map_cons, List.cons.injEq] at e2 k3
      rw [ih l' k3.2 e2.2, Prod.ext k3.1 e2.1]

-- The grammar covers a frame with an id, a reference, values of all types, a span and an
-- abbreviated op.
example : FrameText Uuid.NIL
    (lit "@1+A :lww 'k' =5 ^1.5 >x (3);  b,.\n") ([
      (0, ⟨denote 0 (lit "1") 2 (lit "A"), denote 0 (lit "lww") 0 [],
        [.text (lit "k"), .int 5, .float (lit "1.5"), .uuid (denote 0 (lit "x") 0 [])]⟩),
      (0, ⟨(denote 0 (lit "1") 2 (lit "A")).inc, denote 0 (lit "1") 2 (lit "A"),
        [.text (lit "k"), .int 5, .float (lit "1.5"), .uuid (denote 0 (lit "x") 0 [])]⟩),
      (0, ⟨(denote 0 (lit "1") 2 (lit "A")).inc.inc, (denote 0 (lit "1") 2 (lit "A")).inc,
        [.text (lit "k"), .int 5, .float (lit "1.5"), .uuid (denote 0 (lit "x") 0 [])]⟩),
      (1, ⟨(denote 0 (lit "1") 2 (lit "A")).inc.inc.inc, (denote 0 (lit "1") 2 (lit "A")).inc.inc,
        [.uuid (denote 0 (lit "b") 0 [])]⟩)]) := by
  have s1 : StrText (lit "k") [(107, false)] :=
    .cons (.char (.one 107 (by decide)) (by decide)) .nil
  have a4 : AtomsText (lit " >x") [.uuid (denote 0 (lit "x") 0 [])] :=
    .cons (w := lit " ") (s := []) (blank_lit (by decide)) (by decide)
      (a := lit ">x") (.quuid (w := []) (t := lit "x") (blank_lit (by decide)) (name_lit (by decide))) .nil
  have a3 : AtomsText (lit " ^1.5 >x") [.float (lit "1.5"), .uuid (denote 0 (lit "x") 0 [])] :=
    .cons (w := lit " ") (a := lit "^1.5") (blank_lit (by decide)) (by decide)
      (.qfloat (w := []) (t := lit "1.5") (blank_lit (by decide))
        ⟨.frac [] (lit "1") (lit "5") .none (digits_lit (by decide)) (digits_lit (by decide)),
          by decide⟩) a4
  have a2 : AtomsText (lit " =5 ^1.5 >x")
      [.int 5, .float (lit "1.5"), .uuid (denote 0 (lit "x") 0 [])] :=
    .cons (w := lit " ") (a := lit "=5") (blank_lit (by decide)) (by decide)
      (.qint (w := []) (t := lit "5") (blank_lit (by decide))
        ⟨.plain _ (by decide) (digits_lit (d := lit "5") (by decide)).2,
          by simp [IntFits, lit]⟩) a3
  have a1 : AtomsText (lit " 'k' =5 ^1.5 >x")
      [.text (lit "k"), .int 5, .float (lit "1.5"), .uuid (denote 0 (lit "x") 0 [])] :=
    .cons (w := lit " ") (a := lit "'k'") (blank_lit (by decide)) (by decide) (.str s1) a2
  have h1 : HeadText Uuid.NIL (lit "@1+A :lww") (denote 0 (lit "1") 2 (lit "A"))
      (denote 0 (lit "lww") 0 []) [] :=
    .ref (w := []) (w' := lit " ") (blank_lit (by decide))
      (stamp_lit (w := lit "1") (o := lit "A") (by decide)) (blank_lit (by decide))
      (name_lit (by decide))
  have n : Digits (lit "3") := digits_lit (by decide)
  have o1 := OpText.mk (w := lit " ") (w' := []) h1 a1 (blank_lit (by decide))
    (.count (w := []) (w' := []) (blank_lit (by decide)) n (blank_lit (by decide)) (by decide)
      (by decide)) (blank_lit (by decide)) (show (59, 0) ∈ termCodes by decide)
  have o2 := fun p => OpText.mk (prev := p) (w := []) (w' := [])
    (.bare (w := lit "  ") (blank_lit (by decide)) (bare_name (c := 98) (w := []) (by decide)
      (by decide))) .nil (blank_lit (by decide)) .none (blank_lit (by decide))
    (show (44, 1) ∈ termCodes by decide)
  exact .op o1 rfl (.op (o2 _) rfl (.dot (w := []) (blank_lit (by decide))))

/-! ### C23 -/

/-- C23: an op without an id gets the id after the one of the previous op, an op without a
reference refers to the previous op: a first op with the id `u` and the reference `r`, followed
by `n` ops with neither, reads to the end as `n + 1` ops with the ids `u`, `u + 1`, … `u + n`; each op
but the first refers to the op before it. Frames of any size. -/
theorem C23_chain (first rest : List Byte) (u r : Uuid) (n : Nat) (hf : FirstText u r first)
    (hc : ChainText rest n) :
    ∃ m, iterate (m.length + 1) (init (first ++ rest)) = .ok (some (m, .endOfFrame)) ∧
      m.map (fun c => (c.id, c.ref)) = (some u, some r) ::
        (List.range n).map fun i => (some (idAfter u (i + 1)), some (idAfter u i)) := by
  cases hf with
  | @mk h a w v vs c t hh ha hw ht =>
    obtain ⟨c1, h1, h2, h3, h4, h5⟩ := TextParser.next_plain
      (cur := init (h ++ a ++ w ++ [c] ++ rest)) (prev := Uuid.NIL)
      ⟨rfl, rfl, rfl, .inr ⟨rfl, rfl⟩⟩ hh ha hw ht rfl
    obtain ⟨m, m1, m2⟩ := TextParser.chain_trail hc h2 h5
    refine ⟨c1 :: m, Chains.iterate_of_trail (.more h1 m1), ?_⟩
    have := TextParser.chainIds_eq u n 0
    rw [TextParser.idAfter_zero] at this
    simp only [List.map_cons, h3, h4, m2, this, Nat.zero_add]

/-- C23: a frame of ops with neither ids nor references. The ids start after the zero UUID. -/
theorem C23_frame (buf : List Byte) (n : Nat) (hc : ChainText buf n) :
    ∃ m, iterate (m.length + 1) (init buf) = .ok (some (m, .endOfFrame)) ∧
      m.map (fun c => (c.id, c.ref)) =
        (List.range n).map fun i => (some (idAfter Uuid.NIL (i + 1)), some (idAfter Uuid.NIL i)) := by
  obtain ⟨m, m1, m2⟩ := TextParser.chain_trail hc (cur := init buf) (prev := Uuid.NIL)
    ⟨rfl, rfl, rfl, .inr ⟨rfl, rfl⟩⟩ rfl
  have := TextParser.chainIds_eq Uuid.NIL n 0
  rw [TextParser.idAfter_zero] at this
  exact ⟨m, Chains.iterate_of_trail m1, by simp only [m2, this, Nat.zero_add]⟩

/-- C23: the ids of a chain are consecutive and strictly increasing, as long as the 64 bit counter
does not overflow (from a frame of abbreviated ops only, that takes `2^64` ops). -/
theorem C23_increasing (u : Uuid) (i j : Nat) (hij : i < j) (hj : u.value.toNat + j < 2 ^ 64) :
    (idAfter u i).lt (idAfter u j) = true ∧ (idAfter u i).origin = u.origin ∧
      (idAfter u i).value.toNat = u.value.toNat + i ∧
      (idAfter u j).value.toNat = (idAfter u i).value.toNat + (j - i) := by
  have h1 : (idAfter u i).value.toNat = u.value.toNat + i := by
    simp only [idAfter, BitVec.toNat_ofNat]; omega
  have h2 : (idAfter u j).value.toNat = u.value.toNat + j := by
    simp only [idAfter, BitVec.toNat_ofNat]; omega
  refine ⟨?_, rfl, h1, by omega⟩
  simp [Uuid.lt, h1, h2]
  omega

-- Five ops after `@1+A`.
example : FirstText (denote 0 (lit "1") 2 (lit "A")) Uuid.NIL (lit "@1+A 'x';") ∧
    ChainText (lit " 'y'; b; ;;\n'z',.\n") 5 := by
  have str : ∀ c : Byte, c.toNat < 128 → isPlain c = true →
      AtomText false [39, c, 39] (.text ((asRead [(c.toNat, false)]).flatMap utf8append)) := by
    intro c h1 h2
    exact .str (s := [c]) (.cons (.char (.one c h1) (by simpa using h2)) .nil)
  constructor
  · exact .mk (h := lit "@1+A") (a := lit " 'x'") (w := [])
      (.id (w := []) (t := lit "1+A") (blank_lit (by decide))
        (stamp_lit (w := lit "1") (o := lit "A") (by decide)))
      (.cons (w := lit " ") (a := lit "'x'") (s := []) (blank_lit (by decide)) (by decide)
        (str 120 (by decide) (by decide)) .nil) (blank_lit (by decide))
      (show (59, 0) ∈ termCodes by decide)
  · exact .op (w := lit " ") (a := lit "'y'") (w' := []) (blank_lit (by decide))
      (.cons (w := []) (a := lit "'y'") (s := []) (blank_lit (by decide)) (by decide)
        (str 121 (by decide) (by decide)) .nil) (blank_lit (by decide))
      (show (59, 0) ∈ termCodes by decide)
      (.bare (w := lit " ") (b := lit "b") (a := []) (w' := []) (blank_lit (by decide))
        (bare_name (c := 98) (w := []) (by decide) (by decide)) .nil (blank_lit (by decide))
        (show (59, 0) ∈ termCodes by decide)
      (.op (w := lit " ") (a := []) (w' := []) (blank_lit (by decide)) .nil (blank_lit (by decide))
        (show (59, 0) ∈ termCodes by decide)
      (.op (w := []) (a := []) (w' := []) (blank_lit (by decide)) .nil (blank_lit (by decide))
        (show (59, 0) ∈ termCodes by decide)
      (.op (w := lit "\n") (a := lit "'z'") (w' := []) (blank_lit (by decide))
        (.cons (w := []) (a := lit "'z'") (s := []) (blank_lit (by decide)) (by decide)
        (str 122 (by decide) (by decide)) .nil) (blank_lit (by decide))
        (show (44, 1) ∈ termCodes by decide)
      (.dot (w := []) (blank_lit (by decide)))))))

/-- The boundary of C23: the counter has all 64 bits of the value, its variety included. After the
greatest value of all, the next id is the least, with the same origin. -/
theorem C23_overflow :
    Contents (lit "@F/~~~~~~~~~~+A; ;") [⟨⟨BitVec.ofNat 64 (2 ^ 64 - 1), denote 0 (lit "A") 2 (lit "A") |>.origin⟩,
      Uuid.NIL, []⟩, ⟨⟨0#64, denote 0 (lit "A") 2 (lit "A") |>.origin⟩,
      ⟨BitVec.ofNat 64 (2 ^ 64 - 1), denote 0 (lit "A") 2 (lit "A") |>.origin⟩, []⟩] .endOfFrame :=
  contents_of 20 (by decide +kernel)

/-! ### C24 -/

/-- C24 for counts, as claimed: an op `(n)` stands for `n` ops. -/
def C24_count_claim : Prop := ∀ d : List Byte, Digits d → decVal d < 2 ^ 32 →
  Contents (40 :: d ++ [41, 59]) (spanOps Uuid.NIL.inc Uuid.NIL (List.replicate (decVal d) []))
    .endOfFrame

/-- C24 for strings, as claimed: a spread string stands for as many ops as it has code points. -/
def C24_spread_claim : Prop := ∀ (s : List Byte) (xs : List (Nat × Bool)), StrText s xs → xs ≠ [] →
  s.length < 2 ^ 20 →
  Contents (40 :: 39 :: (s ++ [39, 41, 59]))
    (spanOps Uuid.NIL.inc Uuid.NIL (xs.map fun x => [.text (utf8append x.1)])) .endOfFrame

/-- C24 does not hold: an empty span `(0)` has an op. (It has `2^32` ops: the counter is decremented
before it is checked.) -/
theorem C24_count_violated : ¬ C24_count_claim := by
  intro h
  obtain ⟨fuel, l, h1, h2⟩ := h (lit "0") (digits_lit (by decide)) (by decide)
  have e : l = [] := by
    have := collect_length h2
    exact List.length_eq_zero_iff.1 (by rw [← this]; rfl)
  subst e
  have ht := Chains.trail_of_iterate _ _ _ _ h1
  have hs : (match next (init (lit "(0);")) with
    | .ok (_, .ok) => true
    | _ => false) = true := by decide +kernel
  cases ht with
  | stop k k0 =>
    have k' : next (init (lit "(0);")) = .ok (_, .endOfFrame) := k
    rw [k'] at hs
    cases hs

/-- C24 does not hold: a `\u` form at the end of a spread string is read as zero. -/
theorem C24_spread_violated : ¬ C24_spread_claim := by
  intro h
  have := h (lit "\\u0041") [(65, true)] (.cons (.uni 48 48 52 49 rfl rfl rfl rfl) .nil) (by decide)
    (by decide)
  have e := (Chains.contents_unique this (contents_lit (buf := lit "('\\u0041');") (by decide +kernel))).1
  revert e
  decide +kernel

/-- C24: in any frame, after any ops (`pre`) and before any others (`post`), an op with the values
`v ++ vs` and the count `n > 0` stands for `n` ops with these values; the ids go on one by one and each
op after the first refers to the one before it. Missing from the claim: `n = 0`. -/
theorem C24_count_partial (pre h a w w1 d w2 w' post : List Byte) (c : Byte) (t : Nat)
    (l0 l1 : List (Nat × OpView)) (prev id ref : Uuid) (v vs : List View)
    (hp : OpsText Uuid.NIL pre l0 prev) (hh : HeadText prev h id ref v) (ha : AtomsText a vs)
    (hw : Blank w) (hw1 : Blank w1) (hd : Digits d) (h0 : 0 < decVal d) (h1 : decVal d < 2 ^ 32)
    (hw2 : Blank w2) (hw' : Blank w') (ht : (c, t) ∈ termCodes)
    (hq : FrameText (idAfter id (decVal d - 1)) post l1)
    (hn : (pre ++ ((h ++ a ++ w ++ 40 :: (w1 ++ d ++ w2 ++ [41]) ++ w' ++ [c]) ++ post)).length <
      2 ^ 30) :
    Contents (pre ++ ((h ++ a ++ w ++ 40 :: (w1 ++ d ++ w2 ++ [41]) ++ w' ++ [c]) ++ post))
      (l0.map Prod.snd ++ ((List.range (decVal d)).map fun i =>
        ⟨idAfter id i, if i = 0 then ref else idAfter id (i - 1), v ++ vs⟩) ++ l1.map Prod.snd)
      .endOfFrame := by
  have ho := OpText.mk hh ha hw (.count hw1 hd hw2 h0 h1) hw' ht
  obtain ⟨o, e1, e2⟩ := TextParser.spanOps_last (l := List.replicate (decVal d) (v ++ vs))
    (by simp; omega) id ref
  have hf := TextParser.ops_frame hp (.op ho e1 (by rw [e2, List.length_replicate]; exact hq))
  have hc := (C20_frames_partial _ hn _ hf).1
  have e3 := TextParser.spanOps_eq (List.replicate (decVal d) (v ++ vs)) id ref 0
  rw [TextParser.idAfter_zero] at e3
  have e4 : spanOps id ref (List.replicate (decVal d) (v ++ vs)) = (List.range (decVal d)).map fun i =>
      ⟨idAfter id i, if i = 0 then ref else idAfter id (i - 1), v ++ vs⟩ := by
    rw [e3]
    apply List.ext_getElem
    · simp
    · intro i _ _; simp
  simp only [List.map_append, List.map_map] at hc
  rw [← e4, List.append_assoc (l0.map Prod.snd)]
  have e5 : (Prod.snd ∘ fun o : OpView => (t, o)) = fun o => o := rfl
  rw [e5, List.map_id'] at hc
  exact hc

theorem asRead_eq {xs : List (Nat × Bool)} (hz : ∀ c ∈ asRead xs, c ≠ 0) :
    asRead xs = xs.map Prod.fst := by
  induction xs with
  | nil => rfl
  | cons x xs ih =>
    cases xs with
    | nil =>
      cases hx : x.2 with
      | false => simp [asRead, hx]
      | true => exact absurd rfl (hz 0 (by simp [asRead, hx]))
    | cons y ys =>
      rw [asRead, ih (fun c hc => hz c (by rw [asRead]; exact List.mem_cons_of_mem _ hc))]
      rfl

/-- C24: in any frame, after any ops and before any others, an op with a spread string stands for one
op per code point, in order; each carries the values of the op and its code point, the ids go on
one by one and each op after the first refers to the one before it. Missing from the claim: the
empty string, code points of zero, and the last code point if it is written as a `\u` form
(`asRead` has a zero for it). -/
theorem C24_spread_partial (pre h a w w1 s w2 w' post : List Byte) (c : Byte) (t : Nat)
    (l0 l1 : List (Nat × OpView)) (prev id ref : Uuid) (v vs : List View) (xs : List (Nat × Bool))
    (hp : OpsText Uuid.NIL pre l0 prev) (hh : HeadText prev h id ref v) (ha : AtomsText a vs)
    (hw : Blank w) (hw1 : Blank w1) (hs : StrText s xs) (h0 : xs ≠ [])
    (hz : ∀ c ∈ asRead xs, c ≠ 0) (hw2 : Blank w2) (hw' : Blank w') (ht : (c, t) ∈ termCodes)
    (hq : FrameText (idAfter id (xs.length - 1)) post l1)
    (hn : (pre ++ ((h ++ a ++ w ++ 40 :: (w1 ++ 39 :: (s ++ 39 :: (w2 ++ [41]))) ++ w' ++ [c]) ++
      post)).length < 2 ^ 30) :
    Contents (pre ++ ((h ++ a ++ w ++ 40 :: (w1 ++ 39 :: (s ++ 39 :: (w2 ++ [41]))) ++ w' ++ [c]) ++
      post))
      (l0.map Prod.snd ++ (xs.zipIdx.map fun x => ⟨idAfter id x.2,
        if x.2 = 0 then ref else idAfter id (x.2 - 1), v ++ vs ++ [.text (utf8append x.1.1)]⟩) ++
        l1.map Prod.snd)
      .endOfFrame := by
  have ex := asRead_eq hz
  have ho := OpText.mk hh ha hw (.spread hw1 hs hw2 h0 hz) hw' ht
  obtain ⟨o, e1, e2⟩ := TextParser.spanOps_last
    (l := (asRead xs).map fun c => (v ++ vs) ++ [.text (utf8append c)]) (by simpa [ex] using h0) id ref
  have hf := TextParser.ops_frame hp (.op ho e1 (by rw [e2, List.length_map, ex, List.length_map]; exact hq))
  have hc := (C20_frames_partial _ hn _ hf).1
  have e3 := TextParser.spanOps_eq ((asRead xs).map fun c => (v ++ vs) ++ [.text (utf8append c)]) id ref 0
  rw [TextParser.idAfter_zero] at e3
  have e4 : spanOps id ref ((asRead xs).map fun c => (v ++ vs) ++ [.text (utf8append c)]) =
      xs.zipIdx.map fun x => ⟨idAfter id x.2,
        if x.2 = 0 then ref else idAfter id (x.2 - 1), v ++ vs ++ [.text (utf8append x.1.1)]⟩ := by
    rw [e3, ex]
    apply List.ext_getElem
    · simp
    · intro i _ _; simp
  simp only [List.map_append, List.map_map] at hc
  rw [← e4, List.append_assoc (l0.map Prod.snd)]
  have e5 : (Prod.snd ∘ fun o : OpView => (t, o)) = fun o => o := rfl
  rw [e5, List.map_id'] at hc
  exact hc

-- A spread string and a count in the middle of a frame.
example : ∃ ops, Contents (lit "@1+A:rga; 'x'('\u00c3\u00a9\\n'); b (2), c;") ops .endOfFrame ∧
    ops.map (fun o => o.vals.length) = [0, 2, 2, 1, 1, 1] :=
  ⟨_, contents_lit (buf := lit "@1+A:rga; 'x'('\u00c3\u00a9\\n'); b (2), c;") (by decide +kernel), by decide +kernel⟩

end Ron.Props
