import Verif.Lemmas.TextEnd
import Verif.Props.Text
/-!
Property theorem C21: syntax errors are reported as errors. `Spec.Lang.TEXT_FRAME` is the grammar
of `ragel/text-grammar.rl` as a regular expression.
-/
namespace Ron.Props
open Spec Cursor Lang

/-- The automaton against the grammar. -/
theorem wholeOk_iff (buf : List Byte) : WholeOk buf ↔ TEXT_FRAME.Matches buf :=
  TextLang.walk_lang buf

/-- C21: a text that is not a frame does not end with the end-of-frame status. -/
def C21_claim : Prop :=
  ∀ (buf : List Byte) (ops : List OpView), Contents buf ops .endOfFrame → TEXT_FRAME.Matches buf

/-- C21, the other half: the end-of-frame status means that all the text has been read. -/
def C21_all_claim : Prop :=
  ∀ (buf : List Byte) (cur cur' : Cursor), Reach buf cur →
    Cursor.next cur = .ok (cur', .endOfFrame) → cur'.beg = buf.length

theorem not_matches {buf : List Byte} (h : walk TextTable.start buf = none) :
    ¬ TEXT_FRAME.Matches buf := by
  rw [← wholeOk_iff]
  rintro ⟨t, h1, _⟩
  rw [h] at h1; cases h1

/-- An integer of 20 digits, and then no RON at all: a frame with no ops. -/
theorem C21_violated : ¬ C21_claim := by
  intro h
  have h1 := h (lit "@1+A 12345678901234567890;)))") [] (contents_of 20 (by decide +kernel))
  exact not_matches (by decide +kernel) h1

/-- The two well-formed ops after the integer are lost without an error. -/
theorem C21_all_violated : ¬ C21_all_claim := by
  intro h
  have h1 := h (lit "@1+A 12345678901234567890;@2+A 5;@3+A 6;") (init _)
    (match next (init (lit "@1+A 12345678901234567890;@2+A 5;@3+A 6;")) with
      | .ok (c, _) => c
      | _ => init []) .init (by decide +kernel)
  exact absurd h1 (by decide +kernel)

theorem trail_not_ok {c : Cursor} {l : List Cursor} {st : NextStatus} (h : Chains.Trail c l st) :
    st ≠ .ok := by
  induction h with
  | stop _ h => exact h
  | more _ _ ih => exact ih

/-- Is there a run of more than 24 bytes of numbers? `n` of them have been seen. -/
def longNum : Nat → List Byte → Bool
  | _, [] => false
  | n, x :: xs => if isNumByte x then decide (24 ≤ n) || longNum (n + 1) xs else longNum 0 xs

theorem longNum_mono : ∀ (l : List Byte) (n m : Nat), n ≤ m → longNum n l = true →
    longNum m l = true := by
  intro l
  induction l with
  | nil => intro n m _ h; exact h
  | cons x l ih =>
    intro n m hnm h
    simp only [longNum] at h ⊢
    split at h
    · rename_i hx
      rw [if_pos hx]
      simp only [Bool.or_eq_true, decide_eq_true_eq] at h ⊢
      rcases h with h | h
      · exact .inl (by omega)
      · exact .inr (ih _ _ (by omega) h)
    · rename_i hx
      rw [if_neg hx]; exact h

theorem longNum_word : ∀ (w post : List Byte) (n : Nat), (∀ x ∈ w, isNumByte x = true) →
    24 < w.length + n → n ≤ 24 → longNum n (w ++ post) = true := by
  intro w
  induction w with
  | nil => intro post n _ h1 h2; simp at h1; omega
  | cons x w ih =>
    intro post n h h1 h2
    simp only [List.cons_append, longNum]
    rw [if_pos (h x List.mem_cons_self)]
    by_cases hn : n = 24
    · simp [hn]
    · rw [ih post (n + 1) (fun y hy => h y (List.mem_cons_of_mem _ hy)) (by simp at h1; omega) (by omega)]
      simp

theorem notLongNum_of {buf : List Byte} (h : longNum 0 (outside 0 buf) = false) :
    ¬ LongNumber buf := by
  rintro ⟨w, ⟨pre, post, e⟩, hl, hw⟩
  have : longNum 0 (outside 0 buf) = true := by
    rw [← e, List.append_assoc]
    clear e
    generalize 0 = n
    induction pre generalizing n with
    | nil => exact longNum_mono _ 0 _ (Nat.zero_le _) (longNum_word w post 0 hw (by omega) (by omega))
    | cons x pre ih =>
      simp only [List.cons_append, longNum]
      split
      · rw [ih]; simp
      · exact ih _
  rw [h] at this; cases this

/-- C21 for frames (below `10^9 - 1` bytes) without oversized literals: outside of quotes no more
than 10 Base64 characters in a row, and no more than 24 bytes of numbers. Every such text can be
read to the end, and the reading ends with the end-of-frame status if and only if the text is a
frame by the grammar; otherwise it ends with an error. Missing from the claim: oversized integers,
floats and UUIDs among the values, which end the frame without an error. -/
theorem C21_partial (buf : List Byte) (hn : buf.length < 10 ^ 9 - 1) (hw : ¬ LongWord buf)
    (hl : ¬ LongNumber buf) :
    ∃ ops st, Contents buf ops st ∧ (st = .endOfFrame ↔ TEXT_FRAME.Matches buf) ∧
      (st = .badState ↔ ¬ TEXT_FRAME.Matches buf) := by
  obtain ⟨ops, st, hc⟩ := C50_contents buf hn hw
  have hc' := hc
  obtain ⟨fuel, l, h1, _⟩ := hc'
  have ht := Chains.trail_of_iterate _ _ _ _ h1
  have he := trail_end hn hw hl ht (.init buf) (fun e => absurd rfl e)
    ⟨fun _ => rfl, fun e => absurd rfl e⟩
  rw [wholeOk_iff] at he
  refine ⟨ops, st, hc, he, ?_⟩
  rw [← he]
  have hne := trail_not_ok ht
  cases st with
  | ok => exact absurd rfl hne
  | endOfFrame => simp
  | badState => simp

def good21 : List Byte :=
  lit "@1+A :lww 'a_string_longer_than_ten_characters' 'it\\'s' -1.5e+10 12345, 'x' >B;\n"
def bad21 : List Byte := lit "@1+A :lww 'key' 1.5;\n @2+A 'unclosed;"

/-- The hypotheses hold both for a well-formed frame and for a malformed one. -/
example : good21.length < 10 ^ 9 - 1 ∧ ¬ LongWord good21 ∧ ¬ LongNumber good21 ∧
    TEXT_FRAME.Matches good21 ∧ Contents good21 (opsOf good21) .endOfFrame ∧
    (opsOf good21).length = 2 :=
  ⟨by decide +kernel, notLong_of (by decide +kernel), notLongNum_of (by decide +kernel),
    (wholeOk_iff _).1 ⟨74, by decide +kernel, by decide⟩,
    contents_lit (buf := good21) (by decide +kernel), by decide +kernel⟩

example : bad21.length < 10 ^ 9 - 1 ∧ ¬ LongWord bad21 ∧ ¬ LongNumber bad21 ∧
    ¬ TEXT_FRAME.Matches bad21 ∧ Contents bad21 (opsOf bad21) .badState ∧
    (opsOf bad21).length = 1 :=
  ⟨by decide +kernel, notLong_of (by decide +kernel), notLongNum_of (by decide +kernel),
    fun h => absurd ((wholeOk_iff _).2 h) (by rintro ⟨t, h1, h2⟩; revert t; decide +kernel),
    contents_lit (buf := bad21) (by decide +kernel), by decide +kernel⟩

/-- C21 for all frames below `10^9 - 1` bytes: what was consumed up to the end-of-frame status is a
frame by the grammar, so if that is the whole text then the text is well-formed. -/
theorem C21_consumed_partial (buf : List Byte) (hn : buf.length < 10 ^ 9 - 1) (cur cur' : Cursor)
    (hr : Reach buf cur) (h : Cursor.next cur = .ok (cur', .endOfFrame)) :
    TEXT_FRAME.Matches (buf.take cur'.beg) := by
  rw [← wholeOk_iff]
  exact next_eof (reach_safe hn hr) (reach_path hr).2 h

/-- The frame of `C21_all_violated`, up to where it is read. -/
example : TEXT_FRAME.Matches (lit "@1+A 12345678901234567890;") ∧
    next (init (lit "@1+A 12345678901234567890;@2+A 5;")) =
      .ok ({ init (lit "@1+A 12345678901234567890;@2+A 5;") with
        beg := 26, op := [denote 0 (lit "1") 2 (lit "A"), Uuid.NIL] }, .endOfFrame) :=
  ⟨(wholeOk_iff _).1 ⟨74, by decide +kernel, by decide⟩, by decide +kernel⟩

end Ron.Props
