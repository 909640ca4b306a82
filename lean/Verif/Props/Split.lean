import Verif.Lemmas.Split
/-!
Property theorems C51 (splitting a text into frames).
-/
namespace Ron.Props
open Spec Cursor

/-- C51: splitting any text ends and loses nothing but white space after the frames: the text
is the pieces in order, with white space after each. Every piece but the last ends with the
frame terminator, and none has a terminator inside. -/
theorem C51_text (d : List Byte) : ∃ l : List (List Byte × List Byte),
    split d = some (l.map (·.1)) ∧ d = joinFrames l ∧ l ≠ [] ∧
    (∀ x ∈ l, White x.2 ∧ OneTerm x.1) ∧ (∀ x ∈ l.dropLast, Terminated x.1) :=
  Split.loop_text _ d (by omega)

example : split (lit "@1+A'x';.\n  @2+A;\n.\n:lww;") =
    some [lit "@1+A'x';.\n", lit "@2+A;\n.\n", lit ":lww;"] := by decide +kernel

/-- C51: a text the cursor reads to the end without an error has a frame terminator at its
end at most, so no op is ever cut in two. -/
theorem C51_accepted (d : List Byte) (h : Accepted d) : OneTerm d := by
  obtain ⟨t, ht⟩ := accepted_walk h
  exact walk_one ht

/-- C51: splitting one well-formed frame gives the same frame. -/
theorem C51_frame (d : List Byte) (h : Accepted d) : split d = some [d] := by
  have h1 := C51_accepted d h
  have := Split.loop_frames [(d, [])] (d.length + 1) (by simp [joinFrames]) (by simp)
    (by intro x hx; rw [List.mem_singleton.1 hx]; exact ⟨Split.white_nil, h1⟩) (by simp)
    (by intro x hx; simp at hx; rw [← hx]; exact .inr rfl) (by simp)
  simpa [joinFrames, split] using this

/-- The whole frame is read. -/
def readsAll : Nat → Cursor → Bool
  | 0, _ => false
  | fuel + 1, cur =>
    match next cur with
    | .ok (c, .ok) => readsAll fuel c
    | .ok (c, .endOfFrame) => decide (c.beg = c.buf.length)
    | _ => false

theorem accepted_of_reads {buf : List Byte} : ∀ (fuel : Nat) (cur : Cursor), Reach buf cur →
    readsAll fuel cur = true → Accepted buf := by
  intro fuel
  induction fuel with
  | zero => intro _ _ h; cases h
  | succ fuel ih =>
    intro cur hr h
    unfold readsAll at h
    split at h
    · rename_i c e
      exact ih c (.next hr e) h
    · rename_i c e
      have hb := (next_cases (reach_path hr).1 e).1.buf
      rw [hb] at h
      exact ⟨cur, c, hr, e, of_decide_eq_true h⟩
    · cases h

/-- Deciding acceptance of a concrete frame. -/
theorem accepted_of {buf : List Byte} (fuel : Nat) (h : readsAll fuel (init buf) = true) :
    Accepted buf := accepted_of_reads fuel _ .init h

example : Accepted (lit "@1+A :lww, 'a.b' 1.5 ;\n.\n") :=
  accepted_of 10 (by decide +kernel)

/-- C51: well-formed frames, each ended by the frame terminator and written one after another
with any white space in between, are found again: each exactly once, in order, with its exact
text, hence with its ops. Only the last frame may lack the terminator. White space before a
frame counts as a part of the separator. -/
theorem C51_frames (l : List (List Byte × List Byte)) (hl : l ≠ [])
    (hw : ∀ x ∈ l, White x.2 ∧ Accepted x.1) (ht : ∀ x ∈ l.dropLast, Terminated x.1)
    (hlast : ∀ x, l.getLast? = some x → Terminated x.1 ∨ x.2 = [])
    (hs : ∀ x ∈ l.tail, ∃ c r, x.1 = c :: r ∧ ¬ White [c]) :
    split (joinFrames l) = some (l.map (·.1)) := by
  refine Split.loop_frames l _ (by omega) hl
    (fun x hx => ⟨(hw x hx).1, C51_accepted _ (hw x hx).2⟩) ht hlast fun x hx => ?_
  obtain ⟨c, r, h1, h2⟩ := hs x hx
  refine ⟨c, r, h1, ?_⟩
  cases hc : Split.isSpace c with
  | false => rfl
  | true =>
    refine absurd (fun y hy => ?_) h2
    rw [List.mem_singleton.1 hy]
    exact (Split.isSpace_iff c).1 hc

example : split (lit "@1+A 'x.';.\n\n @2+A :1+A 2;.\n") =
    some [lit "@1+A 'x.';.\n", lit "@2+A :1+A 2;.\n"] :=
  C51_frames [(lit "@1+A 'x.';.\n", lit "\n "), (lit "@2+A :1+A 2;.\n", [])] (by decide)
    (by
      intro x hx
      rcases List.mem_cons.1 hx with rfl | hx
      · exact ⟨by intro c hc; revert c; decide, accepted_of 10 (by decide +kernel)⟩
      · rw [List.mem_singleton.1 hx]
        exact ⟨Split.white_nil, accepted_of 10 (by decide +kernel)⟩)
    (by
      intro x hx
      rw [List.mem_singleton.1 (show x ∈ [(lit "@1+A 'x.';.\n", lit "\n ")] from hx)]
      exact ⟨lit "@1+A 'x.';", by decide⟩)
    (by
      intro x hx
      simp only [List.getLast?_cons_cons, List.getLast?_singleton, Option.some.injEq] at hx
      subst hx
      exact .inr rfl)
    (by
      intro x hx
      rw [List.mem_singleton.1 (show x ∈ [(lit "@2+A :1+A 2;.\n", ([] : List Byte))] from hx)]
      exact ⟨64, lit "2+A :1+A 2;.\n", by decide, by unfold White; decide⟩)

end Ron.Props
