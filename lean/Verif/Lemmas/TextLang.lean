import Verif.Spec.TextLang
import Verif.Lemmas.TextGo
/-!
The automaton of the cursor accepts the texts of the grammar, and no others. Every state of the
automaton is paired with sets of expressions left to match (partial derivatives of the grammar);
that the pairing agrees with the transitions is checked by evaluation, over all states and all
bytes.
-/
namespace Ron
open Spec

namespace Spec.Re

/-- The empty text matches. -/
def nullable : Re → Bool
  | none => false
  | eps => true
  | set _ => false
  | cat a b => nullable a && nullable b
  | alt a b => nullable a || nullable b
  | star _ => true

/-- Concatenation without a leading empty text. -/
def seq (a b : Re) : Re :=
  match a with
  | eps => b
  | a => cat a b

/-- First bytes and what is left to match after them. -/
def lf : Re → List (List (Nat × Nat) × Re)
  | none => []
  | eps => []
  | set l => [(l, eps)]
  | cat a b => ((lf a).map fun x => (x.1, seq x.2 b)) ++ (if nullable a then lf b else [])
  | alt a b => lf a ++ lf b
  | star a => (lf a).map fun x => (x.1, seq x.2 (star a))

theorem seq_matches {a b : Re} {s : List Byte} : (seq a b).Matches s ↔ (cat a b).Matches s := by
  cases a with
  | eps =>
    constructor
    · intro h; exact .cat (s := []) .eps h
    · intro h
      generalize hr : cat eps b = r at h
      cases h with
      | cat h1 h2 => cases hr; cases h1; exact h2
      | _ => cases hr
  | _ => exact Iff.rfl

theorem cat_matches {a b : Re} {s : List Byte} : (cat a b).Matches s ↔
    ∃ u v, s = u ++ v ∧ a.Matches u ∧ b.Matches v := by
  constructor
  · intro h; cases h with | cat h1 h2 => exact ⟨_, _, rfl, h1, h2⟩
  · rintro ⟨u, v, rfl, h1, h2⟩; exact .cat h1 h2

theorem nullable_iff (r : Re) : r.Matches [] ↔ r.nullable = true := by
  induction r with
  | none => constructor <;> intro h <;> cases h
  | eps => exact ⟨fun _ => rfl, fun _ => .eps⟩
  | set l => constructor <;> intro h <;> cases h
  | cat a b iha ihb =>
    rw [cat_matches, nullable, Bool.and_eq_true, ← iha, ← ihb]
    constructor
    · rintro ⟨u, v, e, h1, h2⟩
      obtain ⟨rfl, rfl⟩ := List.append_eq_nil_iff.1 e.symm
      exact ⟨h1, h2⟩
    · rintro ⟨h1, h2⟩; exact ⟨[], [], rfl, h1, h2⟩
  | alt a b iha ihb =>
    rw [nullable, Bool.or_eq_true, ← iha, ← ihb]
    constructor
    · intro h; cases h with
      | left h => exact .inl h
      | right h => exact .inr h
    · rintro (h | h)
      · exact .left h
      · exact .right h
  | star a _ => exact ⟨fun _ => rfl, fun _ => .nil⟩

theorem lf_of {r : Re} {w : List Byte} (h : r.Matches w) : ∀ {c : Byte} {s : List Byte},
    w = c :: s → ∃ x ∈ lf r, inSet x.1 c = true ∧ x.2.Matches s := by
  induction h with
  | eps => intro c s e; cases e
  | set h => intro c s e; cases e; exact ⟨(_, .eps), by simp only [lf]; exact List.mem_singleton.2 rfl, h, .eps⟩
  | @cat a b u v h1 h2 ih1 ih2 =>
    intro c s e
    cases u with
    | nil =>
      obtain ⟨x, hx, h3, h4⟩ := ih2 e
      exact ⟨x, by simp only [lf, (nullable_iff a).1 h1, if_true]; exact List.mem_append_right _ hx, h3, h4⟩
    | cons y u =>
      simp only [List.cons_append, List.cons.injEq] at e
      obtain ⟨rfl, rfl⟩ := e
      obtain ⟨x, hx, h3, h4⟩ := ih1 rfl
      exact ⟨(x.1, seq x.2 b), by
        rw [lf]; exact List.mem_append_left _ (List.mem_map.2 ⟨x, hx, rfl⟩), h3,
        seq_matches.2 (.cat h4 h2)⟩
  | left _ ih =>
    intro c s e
    obtain ⟨x, hx, h⟩ := ih e
    exact ⟨x, by rw [lf]; exact List.mem_append_left _ hx, h⟩
  | right _ ih =>
    intro c s e
    obtain ⟨x, hx, h⟩ := ih e
    exact ⟨x, by rw [lf]; exact List.mem_append_right _ hx, h⟩
  | nil => intro c s e; cases e
  | @more a u v h1 h2 ih1 ih2 =>
    intro c s e
    cases u with
    | nil => exact ih2 e
    | cons y u =>
      simp only [List.cons_append, List.cons.injEq] at e
      obtain ⟨rfl, rfl⟩ := e
      obtain ⟨x, hx, h3, h4⟩ := ih1 rfl
      exact ⟨(x.1, seq x.2 (star a)), by rw [lf]; exact List.mem_map.2 ⟨x, hx, rfl⟩, h3,
        seq_matches.2 (.cat h4 h2)⟩

theorem of_lf {r : Re} : ∀ {c : Byte} {s : List Byte} {x : List (Nat × Nat) × Re},
    x ∈ lf r → inSet x.1 c = true → x.2.Matches s → r.Matches (c :: s) := by
  induction r with
  | none => intro c s x hx; cases hx
  | eps => intro c s x hx; cases hx
  | set l =>
    intro c s x hx h1 h2
    simp only [lf, List.mem_singleton] at hx
    subst hx
    cases h2
    exact .set h1
  | cat a b iha ihb =>
    intro c s x hx h1 h2
    rw [lf, List.mem_append] at hx
    rcases hx with hx | hx
    · obtain ⟨y, hy, rfl⟩ := List.mem_map.1 hx
      obtain ⟨u, v, rfl, h3, h4⟩ := cat_matches.1 (seq_matches.1 h2)
      exact .cat (s := c :: u) (iha hy h1 h3) h4
    · split at hx
      · rename_i hn
        exact .cat (s := []) ((nullable_iff a).2 hn) (ihb hx h1 h2)
      · cases hx
  | alt a b iha ihb =>
    intro c s x hx h1 h2
    rw [lf, List.mem_append] at hx
    rcases hx with hx | hx
    · exact .left (iha hx h1 h2)
    · exact .right (ihb hx h1 h2)
  | star a ih =>
    intro c s x hx h1 h2
    rw [lf] at hx
    obtain ⟨y, hy, rfl⟩ := List.mem_map.1 hx
    obtain ⟨u, v, rfl, h3, h4⟩ := cat_matches.1 (seq_matches.1 h2)
    exact .more (s := c :: u) (ih hy h1 h3) h4

/-- Equality, for evaluation. -/
def same : Re → Re → Bool
  | none, none => true
  | eps, eps => true
  | set l, set m => sameSet l m
  | cat a b, cat x y => same a x && same b y
  | alt a b, alt x y => same a x && same b y
  | star a, star x => same a x
  | _, _ => false
where
  /-- Equality of sets as written. -/
  sameSet : List (Nat × Nat) → List (Nat × Nat) → Bool
  | [], [] => true
  | x :: l, y :: m => Nat.beq x.1 y.1 && Nat.beq x.2 y.2 && sameSet l m
  | _, _ => false

theorem sameSet_eq : ∀ {l m : List (Nat × Nat)}, same.sameSet l m = true → l = m
  | [], [] => fun _ => rfl
  | x :: l, y :: m => fun h => by
    simp only [same.sameSet, Bool.and_eq_true, Nat.beq_eq] at h
    rw [sameSet_eq h.2, Prod.ext h.1.1 h.1.2]
  | [], _ :: _ => fun h => by cases h
  | _ :: _, [] => fun h => by cases h

theorem same_eq : ∀ {a b : Re}, same a b = true → a = b := by
  intro a
  induction a with
  | none => intro b h; cases b <;> first | rfl | cases h
  | eps => intro b h; cases b <;> first | rfl | cases h
  | set l => intro b h; cases b <;> first | cases h | (rw [sameSet_eq h])
  | cat a b iha ihb =>
    intro c h
    cases c <;> try cases h
    simp only [same, Bool.and_eq_true] at h
    rw [iha h.1, ihb h.2]
  | alt a b iha ihb =>
    intro c h
    cases c <;> try cases h
    simp only [same, Bool.and_eq_true] at h
    rw [iha h.1, ihb h.2]
  | star a ih =>
    intro c h
    cases c <;> try cases h
    rw [ih h]

end Spec.Re

namespace TextLang
open Re Lang

/-- Byte sets of the grammar. -/
abbrev sWS : List (Nat × Nat) := [(32, 32), (13, 13), (10, 10), (9, 9)]
abbrev sDGT : List (Nat × Nat) := [(48, 57), (97, 122), (65, 90), (126, 126), (95, 95)]
abbrev sHEX : List (Nat × Nat) := [(48, 57), (65, 70)]
abbrev sSGN : List (Nat × Nat) := [(45, 45), (43, 43)]
abbrev sDIG : List (Nat × Nat) := [(48, 57)]
abbrev sVER : List (Nat × Nat) := [(36, 36), (37, 37), (43, 43), (45, 45)]
abbrev sTERM : List (Nat × Nat) := [(44, 44), (59, 59), (33, 33), (63, 63)]
abbrev sEXP : List (Nat × Nat) := [(101, 101), (69, 69)]
abbrev sCHR : List (Nat × Nat) := [(1, 9), (11, 12), (14, 38), (40, 91), (93, 127)]
abbrev sXDG : List (Nat × Nat) := [(48, 57), (97, 102), (65, 70)]
abbrev sCONT : List (Nat × Nat) := [(128, 191)]
abbrev sESC : List (Nat × Nat) := [(110, 110), (114, 114), (116, 116), (92, 92), (98, 98), (39, 39), (47, 47), (34, 34)]
/-- One byte. -/
abbrev c (n : Nat) : List (Nat × Nat) := [(n, n)]
abbrev ws : Re := .star WS
abbrev ops : Re := .star (ws ⬝ OP)
abbrev more : Re := .star (ws ⬝ ATOM)

/-- What may be left to match, with what follows after a byte of a set. -/
def nfa : List (Re × List (List (Nat × Nat) × Nat)) := [
  (TEXT_FRAME,
    [(sWS, 1), (c 64, 2), (sSGN, 3), (sDIG, 4), (sSGN, 5), (sDIG, 6), (sHEX, 7), (sDGT, 8), (sWS,
    9), (c 61, 10), (c 94, 11), (c 39, 12), (c 62, 13), (sWS, 14), (sWS, 15), (c 40, 16), (sWS,
    17), (sTERM, 0), (sWS, 18), (c 46, 19)]),
  (((ws ⬝ OP) ⬝ ops) ⬝ ws ⬝ opt DOT,
    [(sWS, 1), (c 64, 2), (sSGN, 3), (sDIG, 4), (sSGN, 5), (sDIG, 6), (sHEX, 7), (sDGT, 8), (sWS,
    9), (c 61, 10), (c 94, 11), (c 39, 12), (c 62, 13), (sWS, 14), (sWS, 15), (c 40, 16), (sWS,
    17), (sTERM, 0)]),
  ((((UUID ⬝ ws ⬝ opt (one 58 ⬝ UUID)) ⬝ ws ⬝ opt ATOMS ⬝ ws ⬝ opt SPAN ⬝ ws ⬝ OPTERM) ⬝ ops) ⬝ ws
   ⬝ opt DOT,
    [(sHEX, 20), (sDGT, 21)]),
  (((DIGITS ⬝ ws ⬝ opt ATOMS ⬝ ws ⬝ opt SPAN ⬝ ws ⬝ OPTERM) ⬝ ops) ⬝ ws ⬝ opt DOT,
    [(sDIG, 4)]),
  (((.star (digit) ⬝ ws ⬝ opt ATOMS ⬝ ws ⬝ opt SPAN ⬝ ws ⬝ OPTERM) ⬝ ops) ⬝ ws ⬝ opt DOT,
    [(sDIG, 4), (sWS, 9), (c 61, 10), (c 94, 11), (c 39, 12), (c 62, 13), (sWS, 14), (sWS, 15), (c
    40, 16), (sWS, 17), (sTERM, 0)]),
  ((((DIGITS ⬝ (FRAC ⬝ opt EXP ⊹ EXP)) ⬝ ws ⬝ opt ATOMS ⬝ ws ⬝ opt SPAN ⬝ ws ⬝ OPTERM) ⬝ ops) ⬝ ws
   ⬝ opt DOT,
    [(sDIG, 6)]),
  ((((.star (digit) ⬝ (FRAC ⬝ opt EXP ⊹ EXP)) ⬝ ws ⬝ opt ATOMS ⬝ ws ⬝ opt SPAN ⬝ ws ⬝ OPTERM) ⬝
   ops) ⬝ ws ⬝ opt DOT,
    [(sDIG, 6), (c 46, 22), (sEXP, 23)]),
  ((((one 47 ⬝ WORD ⬝ opt (VERSION ⬝ WORD)) ⬝ ws ⬝ opt ATOMS ⬝ ws ⬝ opt SPAN ⬝ ws ⬝ OPTERM) ⬝ ops)
   ⬝ ws ⬝ opt DOT,
    [(c 47, 24)]),
  ((((.star (DGT) ⬝ opt (VERSION ⬝ WORD)) ⬝ ws ⬝ opt ATOMS ⬝ ws ⬝ opt SPAN ⬝ ws ⬝ OPTERM) ⬝ ops) ⬝
   ws ⬝ opt DOT,
    [(sDGT, 8), (sVER, 25), (sWS, 9), (c 61, 10), (c 94, 11), (c 39, 12), (c 62, 13), (sWS, 14),
    (sWS, 15), (c 40, 16), (sWS, 17), (sTERM, 0)]),
  (((ws ⬝ opt ATOMS ⬝ ws ⬝ opt SPAN ⬝ ws ⬝ OPTERM) ⬝ ops) ⬝ ws ⬝ opt DOT,
    [(sWS, 9), (c 61, 10), (c 94, 11), (c 39, 12), (c 62, 13), (sWS, 14), (sWS, 15), (c 40, 16),
    (sWS, 17), (sTERM, 0)]),
  (((((ws ⬝ INT) ⬝ more) ⬝ ws ⬝ opt SPAN ⬝ ws ⬝ OPTERM) ⬝ ops) ⬝ ws ⬝ opt DOT,
    [(sWS, 10), (sSGN, 26), (sDIG, 27)]),
  (((((ws ⬝ FLOAT) ⬝ more) ⬝ ws ⬝ opt SPAN ⬝ ws ⬝ OPTERM) ⬝ ops) ⬝ ws ⬝ opt DOT,
    [(sWS, 11), (sSGN, 28), (sDIG, 29)]),
  (((((STRING ⬝ one 39) ⬝ more) ⬝ ws ⬝ opt SPAN ⬝ ws ⬝ OPTERM) ⬝ ops) ⬝ ws ⬝ opt DOT,
    [(c 92, 30), (c 92, 31), (sCHR, 12), ([(192, 223)], 32), ([(224, 239)], 33), ([(240, 247)],
    34), (c 39, 35)]),
  (((((ws ⬝ UUID) ⬝ more) ⬝ ws ⬝ opt SPAN ⬝ ws ⬝ OPTERM) ⬝ ops) ⬝ ws ⬝ opt DOT,
    [(sWS, 13), (sHEX, 36), (sDGT, 37)]),
  ((((BARE_ATOM ⬝ more) ⬝ ws ⬝ opt SPAN ⬝ ws ⬝ OPTERM) ⬝ ops) ⬝ ws ⬝ opt DOT,
    [(sSGN, 26), (sDIG, 27), (sSGN, 28), (sDIG, 29), (sHEX, 36), (sDGT, 37)]),
  (((ws ⬝ opt SPAN ⬝ ws ⬝ OPTERM) ⬝ ops) ⬝ ws ⬝ opt DOT,
    [(sWS, 15), (c 40, 16), (sWS, 17), (sTERM, 0)]),
  ((((ws ⬝ (DIGITS ⊹ SPAN_SPREAD) ⬝ ws ⬝ one 41) ⬝ ws ⬝ OPTERM) ⬝ ops) ⬝ ws ⬝ opt DOT,
    [(sWS, 16), (sDIG, 38), (c 39, 39)]),
  (((ws ⬝ OPTERM) ⬝ ops) ⬝ ws ⬝ opt DOT,
    [(sWS, 17), (sTERM, 0)]),
  (ws ⬝ opt DOT,
    [(sWS, 18), (c 46, 19)]),
  (one 10,
    [(c 10, 40)]),
  (((((one 47 ⬝ WORD ⬝ opt (VERSION ⬝ WORD)) ⬝ ws ⬝ opt (one 58 ⬝ UUID)) ⬝ ws ⬝ opt ATOMS ⬝ ws ⬝
   opt SPAN ⬝ ws ⬝ OPTERM) ⬝ ops) ⬝ ws ⬝ opt DOT,
    [(c 47, 41)]),
  (((((.star (DGT) ⬝ opt (VERSION ⬝ WORD)) ⬝ ws ⬝ opt (one 58 ⬝ UUID)) ⬝ ws ⬝ opt ATOMS ⬝ ws ⬝ opt
   SPAN ⬝ ws ⬝ OPTERM) ⬝ ops) ⬝ ws ⬝ opt DOT,
    [(sDGT, 21), (sVER, 42), (sWS, 43), (c 58, 44), (sWS, 9), (c 61, 10), (c 94, 11), (c 39, 12),
    (c 62, 13), (sWS, 14), (sWS, 15), (c 40, 16), (sWS, 17), (sTERM, 0)]),
  ((((DIGITS ⬝ opt EXP) ⬝ ws ⬝ opt ATOMS ⬝ ws ⬝ opt SPAN ⬝ ws ⬝ OPTERM) ⬝ ops) ⬝ ws ⬝ opt DOT,
    [(sDIG, 45)]),
  (((INT ⬝ ws ⬝ opt ATOMS ⬝ ws ⬝ opt SPAN ⬝ ws ⬝ OPTERM) ⬝ ops) ⬝ ws ⬝ opt DOT,
    [(sSGN, 3), (sDIG, 4)]),
  ((((WORD ⬝ opt (VERSION ⬝ WORD)) ⬝ ws ⬝ opt ATOMS ⬝ ws ⬝ opt SPAN ⬝ ws ⬝ OPTERM) ⬝ ops) ⬝ ws ⬝
   opt DOT,
    [(sDGT, 8)]),
  (((WORD ⬝ ws ⬝ opt ATOMS ⬝ ws ⬝ opt SPAN ⬝ ws ⬝ OPTERM) ⬝ ops) ⬝ ws ⬝ opt DOT,
    [(sDGT, 46)]),
  ((((DIGITS ⬝ more) ⬝ ws ⬝ opt SPAN ⬝ ws ⬝ OPTERM) ⬝ ops) ⬝ ws ⬝ opt DOT,
    [(sDIG, 27)]),
  ((((.star (digit) ⬝ more) ⬝ ws ⬝ opt SPAN ⬝ ws ⬝ OPTERM) ⬝ ops) ⬝ ws ⬝ opt DOT,
    [(sDIG, 27), (sWS, 47), (c 61, 10), (c 94, 11), (c 39, 12), (c 62, 13), (sWS, 14), (sWS, 15),
    (c 40, 16), (sWS, 17), (sTERM, 0)]),
  (((((DIGITS ⬝ (FRAC ⬝ opt EXP ⊹ EXP)) ⬝ more) ⬝ ws ⬝ opt SPAN ⬝ ws ⬝ OPTERM) ⬝ ops) ⬝ ws ⬝ opt
   DOT,
    [(sDIG, 29)]),
  (((((.star (digit) ⬝ (FRAC ⬝ opt EXP ⊹ EXP)) ⬝ more) ⬝ ws ⬝ opt SPAN ⬝ ws ⬝ OPTERM) ⬝ ops) ⬝ ws
   ⬝ opt DOT,
    [(sDIG, 29), (c 46, 48), (sEXP, 49)]),
  (((((((one 117 ⬝ XDIGIT ⬝ XDIGIT ⬝ XDIGIT ⬝ XDIGIT) ⬝ STRING) ⬝ one 39) ⬝ more) ⬝ ws ⬝ opt SPAN
   ⬝ ws ⬝ OPTERM) ⬝ ops) ⬝ ws ⬝ opt DOT,
    [(c 117, 50)]),
  ((((((.set [(110, 110), (114, 114), (116, 116), (92, 92), (98, 98), (39, 39), (47, 47), (34,
   34)] ⬝ STRING) ⬝ one 39) ⬝ more) ⬝ ws ⬝ opt SPAN ⬝ ws ⬝ OPTERM) ⬝ ops) ⬝ ws ⬝ opt DOT,
    [(sESC, 12)]),
  ((((((CONT ⬝ STRING) ⬝ one 39) ⬝ more) ⬝ ws ⬝ opt SPAN ⬝ ws ⬝ OPTERM) ⬝ ops) ⬝ ws ⬝ opt DOT,
    [(sCONT, 12)]),
  (((((((CONT ⬝ CONT) ⬝ STRING) ⬝ one 39) ⬝ more) ⬝ ws ⬝ opt SPAN ⬝ ws ⬝ OPTERM) ⬝ ops) ⬝ ws ⬝ opt
   DOT,
    [(sCONT, 32)]),
  (((((((CONT ⬝ CONT ⬝ CONT) ⬝ STRING) ⬝ one 39) ⬝ more) ⬝ ws ⬝ opt SPAN ⬝ ws ⬝ OPTERM) ⬝ ops) ⬝
   ws ⬝ opt DOT,
    [(sCONT, 33)]),
  (((more ⬝ ws ⬝ opt SPAN ⬝ ws ⬝ OPTERM) ⬝ ops) ⬝ ws ⬝ opt DOT,
    [(sWS, 47), (c 61, 10), (c 94, 11), (c 39, 12), (c 62, 13), (sWS, 14), (sWS, 15), (c 40, 16),
    (sWS, 17), (sTERM, 0)]),
  (((((one 47 ⬝ WORD ⬝ opt (VERSION ⬝ WORD)) ⬝ more) ⬝ ws ⬝ opt SPAN ⬝ ws ⬝ OPTERM) ⬝ ops) ⬝ ws ⬝
   opt DOT,
    [(c 47, 51)]),
  (((((.star (DGT) ⬝ opt (VERSION ⬝ WORD)) ⬝ more) ⬝ ws ⬝ opt SPAN ⬝ ws ⬝ OPTERM) ⬝ ops) ⬝ ws ⬝
   opt DOT,
    [(sDGT, 37), (sVER, 52), (sWS, 47), (c 61, 10), (c 94, 11), (c 39, 12), (c 62, 13), (sWS, 14),
    (sWS, 15), (c 40, 16), (sWS, 17), (sTERM, 0)]),
  ((((.star (digit) ⬝ ws ⬝ one 41) ⬝ ws ⬝ OPTERM) ⬝ ops) ⬝ ws ⬝ opt DOT,
    [(sDIG, 38), (sWS, 53), (c 41, 17)]),
  (((((STRING ⬝ one 39) ⬝ ws ⬝ one 41) ⬝ ws ⬝ OPTERM) ⬝ ops) ⬝ ws ⬝ opt DOT,
    [(c 92, 54), (c 92, 55), (sCHR, 39), ([(192, 223)], 56), ([(224, 239)], 57), ([(240, 247)],
    58), (c 39, 53)]),
  (.eps,
    []),
  (((((WORD ⬝ opt (VERSION ⬝ WORD)) ⬝ ws ⬝ opt (one 58 ⬝ UUID)) ⬝ ws ⬝ opt ATOMS ⬝ ws ⬝ opt SPAN ⬝
   ws ⬝ OPTERM) ⬝ ops) ⬝ ws ⬝ opt DOT,
    [(sDGT, 21)]),
  ((((WORD ⬝ ws ⬝ opt (one 58 ⬝ UUID)) ⬝ ws ⬝ opt ATOMS ⬝ ws ⬝ opt SPAN ⬝ ws ⬝ OPTERM) ⬝ ops) ⬝ ws
   ⬝ opt DOT,
    [(sDGT, 59)]),
  ((((ws ⬝ opt (one 58 ⬝ UUID)) ⬝ ws ⬝ opt ATOMS ⬝ ws ⬝ opt SPAN ⬝ ws ⬝ OPTERM) ⬝ ops) ⬝ ws ⬝ opt
   DOT,
    [(sWS, 43), (c 58, 44), (sWS, 9), (c 61, 10), (c 94, 11), (c 39, 12), (c 62, 13), (sWS, 14),
    (sWS, 15), (c 40, 16), (sWS, 17), (sTERM, 0)]),
  (((UUID ⬝ ws ⬝ opt ATOMS ⬝ ws ⬝ opt SPAN ⬝ ws ⬝ OPTERM) ⬝ ops) ⬝ ws ⬝ opt DOT,
    [(sHEX, 7), (sDGT, 8)]),
  ((((.star (digit) ⬝ opt EXP) ⬝ ws ⬝ opt ATOMS ⬝ ws ⬝ opt SPAN ⬝ ws ⬝ OPTERM) ⬝ ops) ⬝ ws ⬝ opt
   DOT,
    [(sDIG, 45), (sEXP, 23), (sWS, 9), (c 61, 10), (c 94, 11), (c 39, 12), (c 62, 13), (sWS, 14),
    (sWS, 15), (c 40, 16), (sWS, 17), (sTERM, 0)]),
  (((.star (DGT) ⬝ ws ⬝ opt ATOMS ⬝ ws ⬝ opt SPAN ⬝ ws ⬝ OPTERM) ⬝ ops) ⬝ ws ⬝ opt DOT,
    [(sDGT, 46), (sWS, 9), (c 61, 10), (c 94, 11), (c 39, 12), (c 62, 13), (sWS, 14), (sWS, 15),
    (c 40, 16), (sWS, 17), (sTERM, 0)]),
  (((((ws ⬝ ATOM) ⬝ more) ⬝ ws ⬝ opt SPAN ⬝ ws ⬝ OPTERM) ⬝ ops) ⬝ ws ⬝ opt DOT,
    [(sWS, 47), (c 61, 10), (c 94, 11), (c 39, 12), (c 62, 13), (sWS, 14)]),
  (((((DIGITS ⬝ opt EXP) ⬝ more) ⬝ ws ⬝ opt SPAN ⬝ ws ⬝ OPTERM) ⬝ ops) ⬝ ws ⬝ opt DOT,
    [(sDIG, 60)]),
  ((((INT ⬝ more) ⬝ ws ⬝ opt SPAN ⬝ ws ⬝ OPTERM) ⬝ ops) ⬝ ws ⬝ opt DOT,
    [(sSGN, 26), (sDIG, 27)]),
  (((((((XDIGIT ⬝ XDIGIT ⬝ XDIGIT ⬝ XDIGIT) ⬝ STRING) ⬝ one 39) ⬝ more) ⬝ ws ⬝ opt SPAN ⬝ ws ⬝
   OPTERM) ⬝ ops) ⬝ ws ⬝ opt DOT,
    [(sXDG, 61)]),
  (((((WORD ⬝ opt (VERSION ⬝ WORD)) ⬝ more) ⬝ ws ⬝ opt SPAN ⬝ ws ⬝ OPTERM) ⬝ ops) ⬝ ws ⬝ opt DOT,
    [(sDGT, 37)]),
  ((((WORD ⬝ more) ⬝ ws ⬝ opt SPAN ⬝ ws ⬝ OPTERM) ⬝ ops) ⬝ ws ⬝ opt DOT,
    [(sDGT, 62)]),
  ((((ws ⬝ one 41) ⬝ ws ⬝ OPTERM) ⬝ ops) ⬝ ws ⬝ opt DOT,
    [(sWS, 53), (c 41, 17)]),
  (((((((one 117 ⬝ XDIGIT ⬝ XDIGIT ⬝ XDIGIT ⬝ XDIGIT) ⬝ STRING) ⬝ one 39) ⬝ ws ⬝ one 41) ⬝ ws ⬝
   OPTERM) ⬝ ops) ⬝ ws ⬝ opt DOT,
    [(c 117, 63)]),
  ((((((.set [(110, 110), (114, 114), (116, 116), (92, 92), (98, 98), (39, 39), (47, 47), (34,
   34)] ⬝ STRING) ⬝ one 39) ⬝ ws ⬝ one 41) ⬝ ws ⬝ OPTERM) ⬝ ops) ⬝ ws ⬝ opt DOT,
    [(sESC, 39)]),
  ((((((CONT ⬝ STRING) ⬝ one 39) ⬝ ws ⬝ one 41) ⬝ ws ⬝ OPTERM) ⬝ ops) ⬝ ws ⬝ opt DOT,
    [(sCONT, 39)]),
  (((((((CONT ⬝ CONT) ⬝ STRING) ⬝ one 39) ⬝ ws ⬝ one 41) ⬝ ws ⬝ OPTERM) ⬝ ops) ⬝ ws ⬝ opt DOT,
    [(sCONT, 56)]),
  (((((((CONT ⬝ CONT ⬝ CONT) ⬝ STRING) ⬝ one 39) ⬝ ws ⬝ one 41) ⬝ ws ⬝ OPTERM) ⬝ ops) ⬝ ws ⬝ opt
   DOT,
    [(sCONT, 57)]),
  ((((.star (DGT) ⬝ ws ⬝ opt (one 58 ⬝ UUID)) ⬝ ws ⬝ opt ATOMS ⬝ ws ⬝ opt SPAN ⬝ ws ⬝ OPTERM) ⬝
   ops) ⬝ ws ⬝ opt DOT,
    [(sDGT, 59), (sWS, 43), (c 58, 44), (sWS, 9), (c 61, 10), (c 94, 11), (c 39, 12), (c 62, 13),
    (sWS, 14), (sWS, 15), (c 40, 16), (sWS, 17), (sTERM, 0)]),
  (((((.star (digit) ⬝ opt EXP) ⬝ more) ⬝ ws ⬝ opt SPAN ⬝ ws ⬝ OPTERM) ⬝ ops) ⬝ ws ⬝ opt DOT,
    [(sDIG, 60), (sEXP, 49), (sWS, 47), (c 61, 10), (c 94, 11), (c 39, 12), (c 62, 13), (sWS, 14),
    (sWS, 15), (c 40, 16), (sWS, 17), (sTERM, 0)]),
  (((((((XDIGIT ⬝ XDIGIT ⬝ XDIGIT) ⬝ STRING) ⬝ one 39) ⬝ more) ⬝ ws ⬝ opt SPAN ⬝ ws ⬝ OPTERM) ⬝
   ops) ⬝ ws ⬝ opt DOT,
    [(sXDG, 64)]),
  ((((.star (DGT) ⬝ more) ⬝ ws ⬝ opt SPAN ⬝ ws ⬝ OPTERM) ⬝ ops) ⬝ ws ⬝ opt DOT,
    [(sDGT, 62), (sWS, 47), (c 61, 10), (c 94, 11), (c 39, 12), (c 62, 13), (sWS, 14), (sWS, 15),
    (c 40, 16), (sWS, 17), (sTERM, 0)]),
  (((((((XDIGIT ⬝ XDIGIT ⬝ XDIGIT ⬝ XDIGIT) ⬝ STRING) ⬝ one 39) ⬝ ws ⬝ one 41) ⬝ ws ⬝ OPTERM) ⬝
   ops) ⬝ ws ⬝ opt DOT,
    [(sXDG, 65)]),
  (((((((XDIGIT ⬝ XDIGIT) ⬝ STRING) ⬝ one 39) ⬝ more) ⬝ ws ⬝ opt SPAN ⬝ ws ⬝ OPTERM) ⬝ ops) ⬝ ws ⬝
   opt DOT,
    [(sXDG, 66)]),
  (((((((XDIGIT ⬝ XDIGIT ⬝ XDIGIT) ⬝ STRING) ⬝ one 39) ⬝ ws ⬝ one 41) ⬝ ws ⬝ OPTERM) ⬝ ops) ⬝ ws ⬝
   opt DOT,
    [(sXDG, 67)]),
  ((((((XDIGIT ⬝ STRING) ⬝ one 39) ⬝ more) ⬝ ws ⬝ opt SPAN ⬝ ws ⬝ OPTERM) ⬝ ops) ⬝ ws ⬝ opt DOT,
    [(sXDG, 12)]),
  (((((((XDIGIT ⬝ XDIGIT) ⬝ STRING) ⬝ one 39) ⬝ ws ⬝ one 41) ⬝ ws ⬝ OPTERM) ⬝ ops) ⬝ ws ⬝ opt DOT,
    [(sXDG, 68)]),
  ((((((XDIGIT ⬝ STRING) ⬝ one 39) ⬝ ws ⬝ one 41) ⬝ ws ⬝ OPTERM) ⬝ ops) ⬝ ws ⬝ opt DOT,
    [(sXDG, 39)])]

/-- The states of the automaton and what is left to match in them. -/
def pairs : List (Nat × List Nat) := [(74, [0]), (74, [1, 9, 14, 15, 17, 18]), (1, [12]), (5, [16]), (21, [3, 5]), (60, [19]), (40,
  [4, 6, 7, 8]), (25, [10]), (28, [13]), (61, [2]), (50, [7, 8]), (44, [8]), (32, [11]), (21, [3,
  5, 26, 28]), (40, [4, 6, 7, 8, 27, 29, 36, 37]), (50, [7, 8, 36, 37]), (44, [8, 37]), (2, [12]),
  (3, [35]), (51, [30, 31]), (57, [32]), (58, [33]), (59, [34]), (6, [39]), (20, [38]), (22, [4,
  6]), (75, [40]), (4, [9, 14, 15, 17]), (41, [25]), (23, [22]), (43, [24]), (45, [4, 6, 8]), (46,
  [8, 23]), (26, [26]), (27, [27]), (29, [36, 37]), (39, [37]), (62, [20, 21]), (73, [21]), (33,
  [28]), (34, [29]), (22, [4, 6, 27, 29]), (4, [9, 14, 15, 17, 47]), (41, [25, 52]), (23, [22,
  48]), (43, [24, 51]), (45, [4, 6, 8, 27, 29, 37]), (46, [8, 23, 37, 49]), (4, [14, 15, 17, 47]),
  (52, [50]), (7, [39]), (8, [53]), (11, [54, 55]), (17, [56]), (18, [57]), (19, [58]), (9, [53]),
  (10, [17]), (35, [23]), (21, [26, 28]), (40, [27, 29, 36, 37]), (50, [36, 37]), (44, [37]), (42,
  [46]), (24, [45]), (47, [3, 25]), (49, [4, 8]), (30, [52]), (38, [51]), (63, [9, 14, 15, 17,
  43]), (70, [42]), (72, [41]), (64, [44]), (23, [48]), (35, [49]), (35, [23, 49]), (42, [46,
  62]), (24, [45, 60]), (47, [3, 25, 26, 52]), (49, [4, 8, 27, 37]), (53, [61]), (12, [63]), (36,
  [3]), (37, [4]), (22, [27, 29]), (41, [52]), (43, [51]), (45, [27, 29, 37]), (46, [37, 49]),
  (48, [4, 46]), (31, [62]), (71, [59]), (65, [7, 8]), (69, [8]), (24, [60]), (36, [26]), (37,
  [27]), (36, [3, 26]), (37, [4, 27]), (48, [4, 27, 46, 62]), (54, [64]), (13, [65]), (42, [62]),
  (47, [26, 52]), (49, [27, 37]), (66, [25]), (68, [24]), (55, [66]), (14, [67]), (48, [27, 62]),
  (67, [46]), (56, [12]), (15, [68]), (16, [39])]

/-- The expression of a number. -/
def term (i : Nat) : Re := ((nfa[i]?).map (·.1)).getD .none
def edges (i : Nat) : List (List (Nat × Nat) × Nat) := ((nfa[i]?).map (·.2)).getD []

/-- Equality of what follows, for evaluation. -/
def sameLf : List (List (Nat × Nat) × Re) → List (List (Nat × Nat) × Nat) → Bool
  | [], [] => true
  | x :: l, y :: m => same.sameSet x.1 y.1 && same x.2 (term y.2) && sameLf l m
  | _, _ => false

theorem sameLf_eq : ∀ {l : List (List (Nat × Nat) × Re)} {m : List (List (Nat × Nat) × Nat)},
    sameLf l m = true → l = m.map fun y => (y.1, term y.2)
  | [], [] => fun _ => rfl
  | x :: l, y :: m => fun h => by
    simp only [sameLf, Bool.and_eq_true] at h
    rw [sameLf_eq h.2, List.map_cons, ← sameSet_eq h.1.1, ← same_eq h.1.2]
  | [], _ :: _ => fun h => by cases h
  | _ :: _, [] => fun h => by cases h

theorem nfa_ok : (nfa.all fun x => sameLf (lf x.1) x.2) = true := by decide +kernel

theorem lf_term (i : Nat) : lf (term i) = (edges i).map fun y => (y.1, term y.2) := by
  unfold edges
  cases h : nfa[i]? with
  | none =>
    have : term i = .none := by unfold term; rw [h]; rfl
    rw [this]; rfl
  | some x =>
    have ht : term i = x.1 := by unfold term; rw [h]; rfl
    rw [ht]
    exact sameLf_eq ((List.all_eq_true.1 nfa_ok) x (List.mem_of_getElem? h))

/-- What follows a byte. -/
def follow (c : Byte) (l : List Nat) : List Nat :=
  l.flatMap fun i => ((edges i).filter fun y => inSet y.1 c).map (·.2)

theorem term_cons (l : List Nat) (c : Byte) (s : List Byte) :
    (∃ i ∈ l, (term i).Matches (c :: s)) ↔ ∃ i ∈ follow c l, (term i).Matches s := by
  constructor
  · rintro ⟨i, hi, h⟩
    obtain ⟨x, hx, h1, h2⟩ := lf_of h rfl
    rw [lf_term] at hx
    obtain ⟨y, hy, rfl⟩ := List.mem_map.1 hx
    exact ⟨y.2, List.mem_flatMap.2 ⟨i, hi, List.mem_map.2 ⟨y, List.mem_filter.2 ⟨hy, h1⟩, rfl⟩⟩, h2⟩
  · rintro ⟨j, hj, h⟩
    obtain ⟨i, hi, h1⟩ := List.mem_flatMap.1 hj
    obtain ⟨y, hy, rfl⟩ := List.mem_map.1 h1
    obtain ⟨h2, h3⟩ := List.mem_filter.1 hy
    exact ⟨i, hi, of_lf (by rw [lf_term]; exact List.mem_map.2 ⟨y, h2, rfl⟩) h3 h⟩

/-- A set of numbers as bits. -/
def mask (l : List Nat) : Nat := l.foldr (fun i m => Nat.lor (Nat.shiftLeft 1 i) m) 0

theorem testBit_mask (l : List Nat) (j : Nat) : (mask l).testBit j = true ↔ j ∈ l := by
  induction l with
  | nil => simp [mask]
  | cons i l ih =>
    have : mask (i :: l) = (1 <<< i) ||| mask l := rfl
    rw [this, Nat.testBit_or, Bool.or_eq_true, ih, Nat.testBit_shiftLeft, List.mem_cons]
    simp only [Bool.and_eq_true, decide_eq_true_eq]
    constructor
    · rintro (⟨h1, h2⟩ | h)
      · left
        have : j - i = 0 := by
          by_cases h0 : j - i = 0
          · exact h0
          · rw [Nat.testBit_one_eq_true_iff_self_eq_zero] at h2; exact h2
        omega
      · exact .inr h
    · rintro (rfl | h)
      · left; simp
      · exact .inr h

theorem mem_of_mask {l m : List Nat} (h : mask l = mask m) (j : Nat) : j ∈ l ↔ j ∈ m := by
  rw [← testBit_mask, ← testBit_mask, h]

/-- The numbers of the expressions that match the empty text. -/
def nulls (l : List Nat) : Bool := l.any fun i => nullable (term i)

/-- The pairing of states agrees with the transitions. -/
def pairOk (x : Nat × List Nat) : Bool :=
  (Nat.ble TextTable.firstFinal x.1 == nulls x.2) && TextParser.allBytes fun c =>
    match stepIn TextTable.rows x.1 c with
    | Option.none => (follow c x.2).isEmpty
    | some (_, t) =>
      let m := mask (follow c x.2)
      pairs.any fun y => Nat.beq y.1 t && Nat.beq (mask y.2) m

theorem pairs_ok : pairs.all pairOk = true := by decide +kernel

theorem walk_pairs : ∀ (w : List Byte) (x : Nat × List Nat), x ∈ pairs →
    ((∃ t, walk x.1 w = some t ∧ TextTable.firstFinal ≤ t) ↔ ∃ i ∈ x.2, (term i).Matches w) := by
  intro w
  induction w with
  | nil =>
    intro x hx
    have h := (List.all_eq_true.1 pairs_ok) x hx
    simp only [pairOk, Bool.and_eq_true, beq_iff_eq] at h
    have h1 := h.1
    simp only [walk, Option.some.injEq, exists_eq_left']
    rw [← Nat.ble_eq, h1, nulls, List.any_eq_true]
    simp only [nullable_iff]
  | cons c w ih =>
    intro x hx
    have h := (List.all_eq_true.1 pairs_ok) x hx
    simp only [pairOk, Bool.and_eq_true] at h
    have h2 := TextParser.of_allBytes h.2 c
    rw [term_cons]
    simp only [walk]
    split at h2
    · rename_i hst
      rw [hst]
      rw [List.isEmpty_iff] at h2
      rw [h2]
      simp
    · rename_i as t hst
      rw [hst]
      simp only [List.any_eq_true, Bool.and_eq_true, Nat.beq_eq] at h2
      obtain ⟨y, hy, rfl, hm⟩ := h2
      rw [ih y hy]
      constructor
      · rintro ⟨i, hi, h⟩; exact ⟨i, (mem_of_mask hm i).1 hi, h⟩
      · rintro ⟨i, hi, h⟩; exact ⟨i, (mem_of_mask hm i).2 hi, h⟩

/-- The automaton ends in a final state exactly on the texts of the grammar. -/
theorem walk_lang (w : List Byte) :
    (∃ t, walk TextTable.start w = some t ∧ TextTable.firstFinal ≤ t) ↔ TEXT_FRAME.Matches w := by
  rw [walk_pairs w (TextTable.start, [0]) (by decide)]
  have : term 0 = TEXT_FRAME := rfl
  simp [this]

end TextLang
end Ron
