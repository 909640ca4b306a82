import Verif.Model.Split
import Verif.Lemmas.TextPath
/-!
Cutting a text at the frame terminators.
-/
namespace Ron.Split
open Spec

theorem isSpace_iff (c : Byte) : isSpace c = true ↔ c ∈ ([9, 10, 11, 12, 13, 32] : List Byte) := by
  unfold isSpace
  simp only [Bool.or_eq_true, beq_iff_eq, Bool.and_eq_true, decide_eq_true_eq, List.mem_cons,
    List.not_mem_nil, or_false, ← UInt8.toNat_inj]
  rw [show (9 : UInt8).toNat = 9 from rfl, show (10 : UInt8).toNat = 10 from rfl,
    show (11 : UInt8).toNat = 11 from rfl, show (12 : UInt8).toNat = 12 from rfl,
    show (13 : UInt8).toNat = 13 from rfl, show (32 : UInt8).toNat = 32 from rfl]
  omega

theorem eq_term {a b : Byte} : (a.toNat = 46 ∧ b.toNat = 10) ↔ [a, b] = frameTerm := by
  unfold frameTerm
  simp only [List.cons.injEq, and_true, ← UInt8.toNat_inj]
  rfl

theorem cut_join (d : List Byte) : (cut d).1 ++ (cut d).2 = d := by
  fun_induction cut d with
  | case1 => rfl
  | case2 => rfl
  | case3 => rfl
  | case4 a b rest h ih => simpa using ih

/-- What is cut off: terminated, or all of the text. -/
theorem cut_end (d : List Byte) : Terminated (cut d).1 ∨ (cut d).2 = [] := by
  fun_induction cut d with
  | case1 => exact .inr rfl
  | case2 => exact .inr rfl
  | case3 a b rest h => exact .inl ⟨[], eq_term.1 h⟩
  | case4 a b rest h ih =>
    rcases ih with ⟨g, hg⟩ | h
    · exact .inl ⟨a :: g, by simp only [hg, List.cons_append]⟩
    · exact .inr h

theorem oneTerm_nil : OneTerm [] := by
  intro u v e
  have := congrArg List.length e
  simp [frameTerm] at this

theorem oneTerm_single (a : Byte) : OneTerm [a] := by
  intro u v e
  have := congrArg List.length e
  simp only [List.length_append, List.length_cons, List.length_nil, frameTerm] at this
  omega

theorem oneTerm_cons {a : Byte} {p : List Byte} (h : OneTerm p)
    (ha : ∀ q, a :: p = frameTerm ++ q → q = []) : OneTerm (a :: p) := by
  intro u v e
  cases u with
  | nil => exact ha v (by simpa using e)
  | cons x u =>
    simp only [List.cons_append, List.cons.injEq] at e
    exact h u v (by simpa using e.2)

theorem OneTerm.tail {a : Byte} {p : List Byte} (h : OneTerm (a :: p)) : OneTerm p := by
  intro u v e
  exact h (a :: u) v (by simp [e])

theorem cut_head (b : Byte) (rest : List Byte) : ∃ q, (cut (b :: rest)).1 = b :: q := by
  cases rest with
  | nil => exact ⟨[], rfl⟩
  | cons c r =>
    simp only [cut]
    split
    · exact ⟨[c], rfl⟩
    · exact ⟨_, rfl⟩

theorem cut_one (d : List Byte) : OneTerm (cut d).1 := by
  fun_induction cut d with
  | case1 => exact oneTerm_nil
  | case2 a => exact oneTerm_single a
  | case3 a b rest h =>
    intro u v e
    have hl := congrArg List.length e
    simp only [List.length_append, List.length_cons, List.length_nil, frameTerm] at hl
    exact List.length_eq_zero_iff.1 (by omega)
  | case4 a b rest h ih =>
    refine oneTerm_cons ih fun q e => ?_
    obtain ⟨q', hq⟩ := cut_head b rest
    rw [hq] at e
    simp only [frameTerm, List.cons_append, List.nil_append, List.cons.injEq] at e
    exact absurd (eq_term.2 (by rw [e.1, e.2.1]; rfl)) h

/-- Cutting a terminated frame off. -/
theorem cut_frame {p rest : List Byte} (h1 : OneTerm p) (ht : Terminated p) :
    cut (p ++ rest) = (p, rest) := by
  induction p with
  | nil => obtain ⟨g, hg⟩ := ht; simp [frameTerm] at hg
  | cons a p ih =>
    cases p with
    | nil =>
      obtain ⟨g, hg⟩ := ht
      have := congrArg List.length hg
      simp [frameTerm] at this
    | cons b p =>
      simp only [List.cons_append, cut]
      by_cases h : a.toNat = 46 ∧ b.toNat = 10
      · rw [if_pos h]
        have e := eq_term.1 h
        have hp := h1 [] p (by rw [← e]; rfl)
        rw [hp, List.nil_append]
      · rw [if_neg h]
        have ht' : Terminated (b :: p) := by
          obtain ⟨g, hg⟩ := ht
          cases g with
          | nil =>
            simp only [frameTerm, List.nil_append, List.cons.injEq] at hg
            exact absurd (eq_term.2 (by rw [hg.1, hg.2.1]; rfl)) h
          | cons x g =>
            simp only [List.cons_append, List.cons.injEq] at hg
            exact ⟨g, hg.2⟩
        have := ih (OneTerm.tail h1) ht'
        rw [List.cons_append] at this
        rw [this]

/-- A text with no inner terminator is not cut. -/
theorem cut_all {p : List Byte} (h1 : OneTerm p) : cut p = (p, []) := by
  rcases cut_end p with ⟨g, hg⟩ | h
  · have e := cut_join p
    have := h1 g (cut p).2 (by rw [← hg, e])
    rw [this, List.append_nil] at e
    exact Prod.ext e this
  · have e := cut_join p
    rw [h, List.append_nil] at e
    exact Prod.ext e h

theorem white_nil : White [] := by intro c hc; cases hc

theorem takeWhile_white (d : List Byte) : White (d.takeWhile isSpace) := by
  intro c hc
  have := List.all_takeWhile (p := isSpace) (l := d)
  rw [List.all_eq_true] at this
  exact (isSpace_iff c).1 (this c hc)

/-- What the loop returns. -/
theorem loop_text : ∀ (fuel : Nat) (d : List Byte), d.length < fuel →
    ∃ l : List (List Byte × List Byte), loop fuel d = some (l.map (·.1)) ∧ d = joinFrames l ∧
      l ≠ [] ∧ (∀ x ∈ l, White x.2 ∧ OneTerm x.1) ∧ (∀ x ∈ l.dropLast, Terminated x.1) := by
  intro fuel
  induction fuel with
  | zero => intro d h; omega
  | succ fuel ih =>
    intro d hd
    simp only [loop]
    have hj := cut_join d
    have htd : (cut d).2.takeWhile isSpace ++ (cut d).2.dropWhile isSpace = (cut d).2 :=
      List.takeWhile_append_dropWhile
    cases hr : (cut d).2.dropWhile isSpace with
    | nil =>
      refine ⟨[((cut d).1, (cut d).2)], rfl, ?_, by simp, ?_, by simp⟩
      · simp [joinFrames, hj]
      · intro x hx
        rw [List.mem_singleton.1 hx]
        refine ⟨?_, cut_one d⟩
        rw [hr, List.append_nil] at htd
        simp only
        rw [← htd]; exact takeWhile_white _
    | cons c rest =>
      have hne : (cut d).2 ≠ [] := by intro e; rw [e] at hr; simp at hr
      have ht : Terminated (cut d).1 := (cut_end d).resolve_right hne
      have hlen : (c :: rest).length < fuel := by
        have l1 := congrArg List.length hj
        have l2 := congrArg List.length htd
        rw [hr] at l2
        obtain ⟨g, hg⟩ := ht
        have l3 := congrArg List.length hg
        simp only [List.length_append, frameTerm, List.length_cons, List.length_nil] at *
        omega
      obtain ⟨l, h1, h2, h3, h4, h5⟩ := ih (c :: rest) hlen
      refine ⟨((cut d).1, (cut d).2.takeWhile isSpace) :: l, ?_, ?_, by simp, ?_, ?_⟩
      · simp [h1]
      · unfold joinFrames at h2 ⊢
        rw [List.flatMap_cons, ← h2, ← hr]
        rw [List.append_assoc, htd, hj]
      · intro x hx
        rcases List.mem_cons.1 hx with rfl | hx
        · exact ⟨takeWhile_white _, cut_one d⟩
        · exact h4 x hx
      · intro x hx
        rw [List.dropLast_cons_of_ne_nil h3] at hx
        rcases List.mem_cons.1 hx with rfl | hx
        · exact ht
        · exact h5 x hx

theorem dropWhile_white {w t : List Byte} (hw : White w)
    (ht : ∀ c r, t = c :: r → isSpace c = false) : (w ++ t).dropWhile isSpace = t := by
  induction w with
  | nil =>
    cases t with
    | nil => rfl
    | cons c r => simp [ht c r rfl]
  | cons x w ih =>
    have hx := (isSpace_iff x).2 (hw x (by simp))
    simp only [List.cons_append, List.dropWhile, hx]
    exact ih fun c hc => hw c (by simp [hc])

/-- Frames joined by white space are found again. -/
theorem loop_frames : ∀ (l : List (List Byte × List Byte)) (fuel : Nat),
    (joinFrames l).length < fuel → l ≠ [] →
    (∀ x ∈ l, White x.2 ∧ OneTerm x.1) → (∀ x ∈ l.dropLast, Terminated x.1) →
    (∀ x, l.getLast? = some x → Terminated x.1 ∨ x.2 = []) →
    (∀ x ∈ l.tail, ∃ c r, x.1 = c :: r ∧ isSpace c = false) →
    loop fuel (joinFrames l) = some (l.map (·.1)) := by
  intro l
  induction l with
  | nil => intro _ _ h; exact absurd rfl h
  | cons x l ih =>
    intro fuel hf _ h1 h2 h3 h4
    obtain ⟨p, w⟩ := x
    cases fuel with
    | zero => omega
    | succ fuel =>
    have hx := h1 (p, w) (by simp)
    cases l with
    | nil =>
      have hc : cut (joinFrames [(p, w)]) = (p, w) := by
        simp only [joinFrames, List.flatMap_cons, List.flatMap_nil, List.append_nil]
        rcases h3 (p, w) rfl with ht | he
        · exact cut_frame hx.2 ht
        · simp only at he
          rw [he, List.append_nil]; exact cut_all hx.2
      simp only [loop, hc]
      have : w.dropWhile isSpace = [] := by
        have := dropWhile_white (t := []) hx.1 (by simp)
        simpa using this
      simp [this]
    | cons y l =>
      have ht : Terminated p := h2 (p, w) (by simp)
      have hj : joinFrames ((p, w) :: y :: l) = p ++ (w ++ joinFrames (y :: l)) := by
        simp [joinFrames]
      obtain ⟨c, r, hy, hcs⟩ := h4 y (by simp)
      have hjy : joinFrames (y :: l) = c :: (r ++ y.2 ++ joinFrames l) := by
        simp [joinFrames, hy]
      have hd : (w ++ joinFrames (y :: l)).dropWhile isSpace = joinFrames (y :: l) := by
        refine dropWhile_white hx.1 fun c' r' e => ?_
        rw [hjy] at e
        simp only [List.cons.injEq] at e
        rw [← e.1]; exact hcs
      simp only [loop, hj, cut_frame hx.2 ht, hd]
      rw [if_neg (by rw [hjy]; simp)]
      rw [ih fuel ?_ (by simp) (fun x hx => h1 x (by simp [List.mem_cons.1 hx]))
        (fun x hx => h2 x (by rw [List.dropLast_cons_of_ne_nil (by simp)]; simp [hx]))
        (fun x hx => h3 x (by rw [List.getLast?_cons_cons]; exact hx))
        (fun x hx => h4 x (by simp only [List.tail_cons] at hx ⊢; simp [hx]))]
      · rfl
      · rw [hj] at hf
        obtain ⟨g, hg⟩ := ht
        have := congrArg List.length hg
        simp only [List.length_append, frameTerm, List.length_cons, List.length_nil] at *
        omega

end Ron.Split
