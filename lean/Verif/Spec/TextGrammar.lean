import Verif.Spec.Compare
import Verif.Spec.Literals
import Verif.Spec.UuidText
import Verif.Spec.Utf
/-!
Specification of the text notation: which texts are ops and frames, and what they say. The
grammar (`ragel/text-grammar.rl:74-123`) is read as rules for writing, with no automaton and no
positions.
-/
namespace Ron.Spec

/-- White space of the notation: space, CR, LF, tab. -/
def isWs (c : Byte) : Bool :=
  Nat.beq c.toNat 9 || Nat.beq c.toNat 10 || Nat.beq c.toNat 13 || Nat.beq c.toNat 32

/-- Nothing but white space. -/
def Blank (w : List Byte) : Prop := ∀ c ∈ w, isWs c = true

/-- At least one decimal digit and nothing else. -/
def Digits (d : List Byte) : Prop := d ≠ [] ∧ ∀ c ∈ d, IsDigit c

/-- An optional sign. -/
inductive SignText : List Byte → Prop
  | none : SignText []
  | plus : SignText [43]
  | minus : SignText [45]

/-- `EXP`: an exponent. -/
inductive ExpText : List Byte → Prop
  | mk (e : Byte) (s d : List Byte) (he : e = 69 ∨ e = 101) (hs : SignText s) (hd : Digits d) :
      ExpText (e :: (s ++ d))

/-- `FLOAT`: a sign, digits, and a fraction or an exponent or both. -/
inductive FloatText : List Byte → Prop
  | frac (s d f : List Byte) (hs : SignText s) (hd : Digits d) (hf : Digits f) :
      FloatText (s ++ d ++ 46 :: f)
  | fracExp (s d f x : List Byte) (hs : SignText s) (hd : Digits d) (hf : Digits f)
      (hx : ExpText x) : FloatText (s ++ d ++ 46 :: f ++ x)
  | exp (s d x : List Byte) (hs : SignText s) (hd : Digits d) (hx : ExpText x) :
      FloatText (s ++ d ++ x)

/-- `UuidLit t u`: a UUID text with words that fit, and the UUID it denotes. -/
def UuidLit (t : List Byte) (u : Uuid) : Prop :=
  ∃ vr v ver o, UuidText t vr v ver o ∧ v.length ≤ 10 ∧ o.length ≤ 10 ∧ u = denote vr v ver o

/-- The size limit of integer literals: up to 19 digits and up to 2^63-1; of the signed ones of 18
digits, those up to 922337203685477580 (see C17). -/
def IntFits (t : List Byte) : Prop :=
  match t with
  | [] => False
  | c :: s =>
    if c.toNat = 43 ∨ c.toNat = 45 then
      s.length < 18 ∨ (s.length = 18 ∧ decVal s ≤ 922337203685477580) ∨
        (s.length = 19 ∧ decVal s ≤ 2 ^ 63 - 1)
    else t.length < 19 ∨ (t.length = 19 ∧ decVal t ≤ 2 ^ 63 - 1)

/-- An integer literal that fits. -/
def IntLit (t : List Byte) (v : Int) : Prop := IntText t v ∧ IntFits t

/-- A float literal that fits. -/
def FloatLit (t : List Byte) : Prop := FloatText t ∧ t.length ≤ 24

/-- The escapes and what they stand for. -/
def escapes : List (Byte × Nat) :=
  [(34, 34), (39, 39), (47, 47), (92, 92), (98, 8), (110, 10), (114, 13), (116, 9)]

/-- `[0-9a-fA-F]`. -/
def isHexDigit (c : Byte) : Bool :=
  (Nat.ble 48 c.toNat && Nat.ble c.toNat 57) || (Nat.ble 65 c.toNat && Nat.ble c.toNat 70) ||
    (Nat.ble 97 c.toNat && Nat.ble c.toNat 102)

/-- The number a hex digit stands for. -/
def hexDigit (c : Byte) : Nat :=
  if c.toNat ≤ 57 then c.toNat - 48 else if c.toNat ≤ 70 then c.toNat - 55 else c.toNat - 87

/-- A byte that stands for itself in a string. -/
def isPlain (c : Byte) : Bool :=
  !(Nat.beq c.toNat 0 || Nat.beq c.toNat 10 || Nat.beq c.toNat 13 || Nat.beq c.toNat 39 ||
    Nat.beq c.toNat 92)

/-- One code point as written in a string; the flag tells the `\u` form. -/
inductive CpText : List Byte → Nat × Bool → Prop
  | char {bs : List Byte} {cp : Nat} (h : Utf8Char bs cp) (hp : ∀ b ∈ bs, isPlain b = true) :
      CpText bs (cp, false)
  | esc (e : Byte) (v : Nat) (h : (e, v) ∈ escapes) : CpText [92, e] (v, false)
  | uni (a b c d : Byte) (ha : isHexDigit a = true) (hb : isHexDigit b = true)
      (hc : isHexDigit c = true) (hd : isHexDigit d = true) :
      CpText [92, 117, a, b, c, d]
        (((hexDigit a * 16 + hexDigit b) * 16 + hexDigit c) * 16 + hexDigit d, true)

/-- The text between the quotes of a string. -/
inductive StrText : List Byte → List (Nat × Bool) → Prop
  | nil : StrText [] []
  | cons {c s : List Byte} {x : Nat × Bool} {xs : List (Nat × Bool)} :
      CpText c x → StrText s xs → StrText (c ++ s) (x :: xs)

/-- The code points a reader gets: a `\u` form at the very end of a string is read as zero. -/
def asRead : List (Nat × Bool) → List Nat
  | [] => []
  | [x] => [if x.2 then 0 else x.1]
  | x :: y :: xs => x.1 :: asRead (y :: xs)

/-- `AtomText bare s v`: the text `s` is an atom of the value `v`. A bare atom denotes one value
only: a float must not be a UUID text as well, a UUID must be neither an integer nor a float. -/
inductive AtomText : Bool → List Byte → View → Prop
  | int {t : List Byte} {v : Int} (h : IntLit t v) : AtomText true t (.int v)
  | float {t : List Byte} (h : FloatLit t) (hu : ¬ ∃ vr v ver o, UuidText t vr v ver o) :
      AtomText true t (.float t)
  | uuid {t : List Byte} {u : Uuid} (h : UuidLit t u) (hi : ¬ Digits t) (hf : ¬ FloatText t) :
      AtomText true t (.uuid u)
  | qint {w t : List Byte} {v : Int} (hw : Blank w) (h : IntLit t v) :
      AtomText false (61 :: (w ++ t)) (.int v)
  | qfloat {w t : List Byte} (hw : Blank w) (h : FloatLit t) :
      AtomText false (94 :: (w ++ t)) (.float t)
  | quuid {w t : List Byte} {u : Uuid} (hw : Blank w) (h : UuidLit t u) :
      AtomText false (62 :: (w ++ t)) (.uuid u)
  | str {s : List Byte} {xs : List (Nat × Bool)} (h : StrText s xs) :
      AtomText false (39 :: (s ++ [39])) (.text ((asRead xs).flatMap utf8append))

/-- Atoms with the white space before them; there must be some before a bare atom. -/
inductive AtomsText : List Byte → List View → Prop
  | nil : AtomsText [] []
  | cons {w a s : List Byte} {b : Bool} {v : View} {vs : List View} (hw : Blank w)
      (hb : b = true → w ≠ []) (ha : AtomText b a v) (hs : AtomsText s vs) :
      AtomsText (w ++ a ++ s) (v :: vs)

/-- The beginning of an op after an op with the id `prev`: the id, the reference, and the first
value if it is a bare one without an id before it. -/
inductive HeadText (prev : Uuid) : List Byte → Uuid → Uuid → List View → Prop
  | none {w : List Byte} (hw : Blank w) : HeadText prev w prev.inc prev []
  | bare {w a : List Byte} {v : View} (hw : Blank w) (ha : AtomText true a v) :
      HeadText prev (w ++ a) prev.inc prev [v]
  | id {w t : List Byte} {u : Uuid} (hw : Blank w) (hu : UuidLit t u) :
      HeadText prev (w ++ 64 :: t) u prev []
  | ref {w t w' t' : List Byte} {u u' : Uuid} (hw : Blank w) (hu : UuidLit t u) (hw' : Blank w')
      (hu' : UuidLit t' u') : HeadText prev (w ++ 64 :: t ++ w' ++ 58 :: t') u u' []

/-- The ops of a span: the ids go on one by one, each op refers to the one before it. -/
def spanOps : Uuid → Uuid → List (List View) → List OpView
  | _, _, [] => []
  | id, ref, v :: vs => ⟨id, ref, v⟩ :: spanOps id.inc id vs

/-- `SpanText vs s l`: after the values `vs`, the text `s` stands for ops of the values `l`. -/
inductive SpanText (vs : List View) : List Byte → List (List View) → Prop
  | none : SpanText vs [] [vs]
  | count {w d w' : List Byte} (hw : Blank w) (hd : Digits d) (hw' : Blank w')
      (h0 : 0 < decVal d) (h1 : decVal d < 2 ^ 32) :
      SpanText vs (40 :: (w ++ d ++ w' ++ [41])) (List.replicate (decVal d) vs)
  | spread {w s w' : List Byte} {xs : List (Nat × Bool)} (hw : Blank w) (hs : StrText s xs)
      (hw' : Blank w') (h0 : xs ≠ []) (hz : ∀ c ∈ asRead xs, c ≠ 0) :
      SpanText vs (40 :: (w ++ 39 :: (s ++ 39 :: (w' ++ [41]))))
        ((asRead xs).map fun c => vs ++ [.text (utf8append c)])

/-- The terminators and their numbers. -/
def termCodes : List (Byte × Nat) := [(59, 0), (44, 1), (33, 2), (63, 3)]

/-- `OpText prev s t ops`: after an op with the id `prev`, the text `s` stands for the ops `ops`, all
with the terminator number `t`. -/
inductive OpText (prev : Uuid) : List Byte → Nat → List OpView → Prop
  | mk {h a w sp w' : List Byte} {c : Byte} {t : Nat} {id ref : Uuid} {v vs : List View}
      {l : List (List View)} (hh : HeadText prev h id ref v) (ha : AtomsText a vs)
      (hw : Blank w) (hs : SpanText (v ++ vs) sp l) (hw' : Blank w') (ht : (c, t) ∈ termCodes) :
      OpText prev (h ++ a ++ w ++ sp ++ w' ++ [c]) t (spanOps id ref l)

/-- `FrameText prev s l`: a frame, or the rest of a frame after an op with the id `prev`; the ops
come with their terminators. -/
inductive FrameText : Uuid → List Byte → List (Nat × OpView) → Prop
  | stop {prev : Uuid} {w : List Byte} (hw : Blank w) : FrameText prev w []
  | dot {prev : Uuid} {w : List Byte} (hw : Blank w) : FrameText prev (w ++ [46, 10]) []
  | op {prev : Uuid} {s s' : List Byte} {t : Nat} {ops : List OpView} {o : OpView}
      {l : List (Nat × OpView)} (h : OpText prev s t ops) (hl : ops.getLast? = some o)
      (hs : FrameText o.id s' l) : FrameText prev (s ++ s') (ops.map (fun o => (t, o)) ++ l)

/-- `OpsText prev s l last`: a beginning of a frame: after an op with the id `prev`, the text stands for
the ops `l`; the id of the last op is `last`. -/
inductive OpsText : Uuid → List Byte → List (Nat × OpView) → Uuid → Prop
  | nil {prev : Uuid} : OpsText prev [] [] prev
  | cons {prev last : Uuid} {s s' : List Byte} {t : Nat} {ops : List OpView} {o : OpView}
      {l : List (Nat × OpView)} (h : OpText prev s t ops) (hl : ops.getLast? = some o)
      (hs : OpsText o.id s' l last) :
      OpsText prev (s ++ s') (ops.map (fun o => (t, o)) ++ l) last

/-- `ChainText s n`: a frame, or the rest of a frame, of `n` ops with neither ids nor references. -/
inductive ChainText : List Byte → Nat → Prop
  | stop {w : List Byte} (hw : Blank w) : ChainText w 0
  | dot {w : List Byte} (hw : Blank w) : ChainText (w ++ [46, 10]) 0
  | op {w a w' s : List Byte} {vs : List View} {c : Byte} {t n : Nat} (hw : Blank w)
      (ha : AtomsText a vs) (hw' : Blank w') (ht : (c, t) ∈ termCodes) (hs : ChainText s n) :
      ChainText (w ++ a ++ w' ++ [c] ++ s) (n + 1)
  | bare {w b a w' s : List Byte} {v : View} {vs : List View} {c : Byte} {t n : Nat} (hw : Blank w)
      (hb : AtomText true b v) (ha : AtomsText a vs) (hw' : Blank w') (ht : (c, t) ∈ termCodes)
      (hs : ChainText s n) : ChainText (w ++ b ++ a ++ w' ++ [c] ++ s) (n + 1)

/-- `FirstText u r s`: a first op of a frame with the id `u` and the reference `r`, and no span. -/
inductive FirstText (u r : Uuid) : List Byte → Prop
  | mk {h a w : List Byte} {v vs : List View} {c : Byte} {t : Nat}
      (hh : HeadText Uuid.NIL h u r v) (ha : AtomsText a vs) (hw : Blank w)
      (ht : (c, t) ∈ termCodes) : FirstText u r (h ++ a ++ w ++ [c])

/-- The `i`-th id after `u`. -/
def idAfter (u : Uuid) (i : Nat) : Uuid := ⟨BitVec.ofNat 64 (u.value.toNat + i), u.origin⟩

end Ron.Spec
