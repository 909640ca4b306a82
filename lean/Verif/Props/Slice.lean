import Verif.Model.Slice
import Verif.Lemmas.TextCursor
/-!
C73: slices are strings of bytes.
-/
namespace Ron.Props

/-- The slice is within its memory. -/
def Inside (s : Slice) : Prop := s.b ≤ s.e ∧ s.e ≤ s.buf.length

/-- The bytes of a slice. -/
def sbytes (s : Slice) : List Byte := (s.buf.take s.e).drop s.b

/-- C73: slices are the strings of their bytes: comparison, hash, `str`. -/
def C73_claim : Prop := ∀ (f : Word → Word) (g : Byte → Word) (s t : Slice), Inside s → Inside t →
  s.eq t = .ok (decide (sbytes s = sbytes t)) ∧ (sbytes s = sbytes t → s.hash f g = t.hash f g) ∧
  s.str = .ok (sbytes s)

theorem sbytes_eq (s : Slice) : sbytes s = (s.buf.drop s.b).take (s.e - s.b) := by
  unfold sbytes
  rw [List.drop_take]

theorem sbytes_length {s : Slice} (h : Inside s) : (sbytes s).length = s.e - s.b := by
  unfold sbytes
  have := h.2
  simp
  omega

/-- C73 is violated: `str` of a slice that does not begin with its memory goes on past its end. -/
theorem C73_violated : ¬ C73_claim := by
  intro h
  have := (h id (fun _ => 0#64) ⟨[97, 98, 99, 100, 101, 0], 1, 3⟩ ⟨[], 0, 0⟩ (by unfold Inside; decide)
    (by unfold Inside; decide)).2.2
  revert this
  decide

/-- `str` is right for a slice from the beginning of its memory that has no NUL, if there is one after it.
Missing from the claim: all other slices; `C73_str` says what they get. -/
theorem C73_str_partial (s : Slice) (h : Inside s) (hb : s.b = 0) (hz : (0 : Byte) ∉ sbytes s)
    (hm : (0 : Byte) ∈ s.buf) : s.str = .ok (sbytes s) := by
  have hl : (s.buf.takeWhile fun x => x != 0).length ≠ s.buf.length := by
    intro e
    have h0 : s.buf.takeWhile (fun x => x != 0) = s.buf := (List.takeWhile_prefix _).eq_of_length e
    have h1 : (0 : Byte) ∈ s.buf.takeWhile (fun x => x != 0) := by rw [h0]; exact hm
    have h2 := List.all_takeWhile (p := fun x : Byte => x != 0) (l := s.buf)
    rw [List.all_eq_true] at h2
    have := h2 0 h1
    simp at this
  unfold Slice.str
  simp only
  rw [if_neg hl, if_neg (by omega), hb, List.drop_zero]
  congr 1
  unfold sbytes at hz ⊢
  rw [hb, List.drop_zero] at hz ⊢
  have hsplit : s.buf = s.buf.take s.e ++ s.buf.drop s.e := (List.take_append_drop ..).symm
  have hall : ∀ x ∈ s.buf.take s.e, (x != 0) = true := by
    intro x hx
    simp only [bne_iff_ne, ne_eq]
    intro e
    exact hz (e ▸ hx)
  have htl : (s.buf.take s.e).length = s.e := by rw [List.length_take]; have := h.2; omega
  conv => lhs; rw [hsplit]
  rw [List.takeWhile_append_of_pos hall, List.take_left' htl]

example : Inside ⟨lit "ab\x00", 0, 1⟩ ∧ (0 : Byte) ∉ sbytes ⟨lit "ab\x00", 0, 1⟩ ∧ (0 : Byte) ∈ lit "ab\x00" := by
  unfold Inside; decide

/-- What `str` gives for any slice with a NUL after its begin: from the begin up to the NUL, but at most as
many bytes as the end is far from the beginning of the memory. -/
theorem C73_str (pre a post : List Byte) (e : Nat) (hp : (0 : Byte) ∉ pre) (ha : (0 : Byte) ∉ a) :
    (Slice.mk (pre ++ a ++ 0 :: post) pre.length e).str = .ok (a.take e) := by
  have h1 : (pre ++ a ++ 0 :: post).takeWhile (fun x : Byte => x != 0) = pre ++ a := by
    rw [List.takeWhile_append_of_pos, List.takeWhile_cons_of_neg (by simp), List.append_nil]
    intro x hx
    simp only [bne_iff_ne, ne_eq]
    intro e
    subst e
    rcases List.mem_append.1 hx with h | h
    · exact hp h
    · exact ha h
  unfold Slice.str
  simp only [h1]
  rw [if_neg (by simp), if_neg (by simp), List.drop_left' rfl]

/-- C73: comparison is comparison of the bytes. -/
theorem C73_eq (s t : Slice) (hs : Inside s) (ht : Inside t) : s.eq t = .ok (decide (sbytes s = sbytes t)) := by
  unfold Slice.eq Slice.size
  rw [if_pos hs.1, if_pos ht.1]
  simp only [Out.bind]
  split
  · rename_i e
    unfold Slice.sameBytes
    rw [if_pos ⟨by have := hs.2; have := hs.1; omega, by have := ht.2; have := ht.1; omega⟩, sbytes_eq, sbytes_eq, e]
  · rename_i e
    have : sbytes s ≠ sbytes t := by
      intro h
      have := congrArg List.length h
      rw [sbytes_length hs, sbytes_length ht] at this
      exact e this
    rw [decide_eq_false this]

theorem wordAt_bytes {s : Slice} (h : Inside s) {i : Nat} (hi : i + 8 ≤ s.e - s.b) :
    Slice.wordAt s.buf (s.b + i) = Slice.wordAt (sbytes s) i := by
  unfold Slice.wordAt
  rw [if_pos (by have := h.2; have := h.1; omega), if_pos (by rw [sbytes_length h]; exact hi)]
  have e : (s.buf.drop (s.b + i)).take 8 = ((sbytes s).drop i).take 8 := by
    rw [sbytes_eq, List.drop_take, List.take_take, List.drop_drop, Nat.min_eq_left (by omega)]
  rw [e]

theorem at_bytes {s : Slice} {i : Nat} (hi : i < s.e - s.b) :
    s.at_ i = Out.ofOption (sbytes s)[i]? := by
  unfold Slice.at_
  rw [if_pos (by omega), sbytes_eq, List.getElem?_take, if_pos hi, List.getElem?_drop]

/-- A word of eight bytes, the first one the least significant. -/
def wordOf (l : List Byte) : Word := BitVec.ofNat 64 (l.foldr (fun c n => c.toNat + 256 * n) 0)

/-- The hash of a string of bytes: of its words and of the bytes left over. -/
def hashOf (f : Word → Word) (g : Byte → Word) : List Byte → Word
  | a :: b :: c :: d :: i :: j :: k :: l :: rest => f (wordOf [a, b, c, d, i, j, k, l]) ^^^ hashOf f g rest
  | l => l.foldr (fun c h => g c ^^^ h) 0#64

theorem hashOf_words (f : Word → Word) (g : Byte → Word) (l : List Byte) (h : 8 ≤ l.length) :
    hashOf f g l = f (wordOf (l.take 8)) ^^^ hashOf f g (l.drop 8) := by
  match l, h with
  | a :: b :: c :: d :: i :: j :: k :: l :: rest, _ => rfl

theorem hashOf_short (f : Word → Word) (g : Byte → Word) (l : List Byte) (h : l.length < 8) :
    hashOf f g l = l.foldr (fun c h => g c ^^^ h) 0#64 := by
  match l, h with
  | [], _ => rfl
  | [_], _ => rfl
  | [_, _], _ => rfl
  | [_, _, _], _ => rfl
  | [_, _, _, _], _ => rfl
  | [_, _, _, _, _], _ => rfl
  | [_, _, _, _, _, _], _ => rfl
  | [_, _, _, _, _, _, _], _ => rfl

theorem hashBytes_value (g : Byte → Word) {s : Slice} (hs : Inside s) : ∀ (n i : Nat) (r : Word),
    i + n = s.e - s.b → Slice.hashBytes g s i n r =
      .ok (r ^^^ ((sbytes s).drop i).foldr (fun c h => g c ^^^ h) 0#64) := by
  intro n
  induction n with
  | zero =>
    intro i r hi
    rw [List.drop_eq_nil_of_le (by rw [sbytes_length hs]; omega)]
    simp [Slice.hashBytes]
  | succ n ih =>
    intro i r hi
    have hlt : i < (sbytes s).length := by rw [sbytes_length hs]; omega
    rw [Slice.hashBytes, at_bytes (by omega), List.getElem?_eq_getElem hlt]
    simp only [Out.ofOption, Out.bind]
    rw [ih (i + 1) _ (by omega), List.drop_eq_getElem_cons hlt, List.foldr_cons, BitVec.xor_assoc]

theorem hashWords_value (f : Word → Word) (g : Byte → Word) {s : Slice} (hs : Inside s) : ∀ (n i : Nat) (r : Word),
    (i + n) = (s.e - s.b) / 8 → ((Slice.hashWords f s i n r).bind fun r =>
      Slice.hashBytes g s ((s.e - s.b) / 8 * 8) ((s.e - s.b) % 8) r) =
      .ok (r ^^^ hashOf f g ((sbytes s).drop (8 * i))) := by
  intro n
  induction n with
  | zero =>
    intro i r hi
    have : 8 * i = (s.e - s.b) / 8 * 8 := by omega
    rw [Slice.hashWords]
    simp only [Out.bind]
    rw [hashBytes_value g hs _ _ _ (by omega), this, hashOf_short _ _ _ (by
      rw [List.length_drop, sbytes_length hs]; omega)]
  | succ n ih =>
    intro i r hi
    have h8 : 8 * i + 8 ≤ s.e - s.b := by omega
    have hw : Slice.wordAt s.buf (s.b + 8 * i) = .ok (wordOf (((sbytes s).drop (8 * i)).take 8)) := by
      rw [wordAt_bytes hs h8]
      unfold Slice.wordAt
      rw [if_pos (by rw [sbytes_length hs]; exact h8)]
      rfl
    rw [Slice.hashWords, hw]
    have := ih (i + 1) (r ^^^ f (wordOf (((sbytes s).drop (8 * i)).take 8))) (by omega)
    simp only [Out.bind] at this ⊢
    rw [this, hashOf_words f g ((sbytes s).drop (8 * i)) (by rw [List.length_drop, sbytes_length hs]; omega),
      List.drop_drop, BitVec.xor_assoc, Nat.mul_add]

/-- C73: the hash reads nothing outside of the slice; it is that of the bytes, and takes in every one. -/
theorem C73_hash (f : Word → Word) (g : Byte → Word) (s : Slice) (hs : Inside s) :
    s.hash f g = .ok (hashOf f g (sbytes s)) := by
  have := hashWords_value f g hs ((s.e - s.b) / 8) 0 0#64 (by omega)
  unfold Slice.hash Slice.size
  rw [if_pos hs.1]
  simp only [Out.bind] at this ⊢
  rw [this]
  simp

/-- The empty part at the end of a slice fails an assert. -/
theorem C73_sub_end (s : Slice) (hs : Inside s) : s.sub (s.e - s.b) (s.e - s.b) = .abort := by
  have h1 := hs.1
  unfold Slice.sub Slice.size
  rw [if_pos hs.1]
  simp only [Out.bind]
  rw [if_neg (by omega), if_pos (by omega)]

/-- C73: a part of a slice, if it does not begin at the end. -/
theorem C73_sub (s : Slice) (hs : Inside s) (b e : Nat) (hb : b ≤ e) (he : e ≤ s.e - s.b) (hn : b < s.e - s.b) :
    ∃ t, s.sub b e = .ok t ∧ Inside t ∧ sbytes t = ((sbytes s).take e).drop b ∧ s.rangeOf t = .ok (b, e) := by
  have h1 := hs.1
  have h2 := hs.2
  refine ⟨⟨s.buf, s.b + b, s.b + b + (e - b)⟩, ?_, ⟨by simp, ?_⟩, ?_, ?_⟩
  · unfold Slice.sub Slice.size
    rw [if_pos hs.1]
    simp only [Out.bind]
    rw [if_neg (by omega), if_neg (by omega), if_neg (by omega)]
  · show s.b + b + (e - b) ≤ s.buf.length
    omega
  · rw [sbytes_eq, sbytes_eq]
    simp only
    rw [List.take_take, Nat.min_eq_left he, List.drop_take, List.drop_drop]
    congr 1
    omega
  · unfold Slice.rangeOf Slice.size
    simp only
    rw [if_neg (by omega), if_neg (by omega), if_pos (by omega)]
    simp only [Out.bind]
    congr 2 <;> omega

example : ∃ t, (Slice.mk [1, 2, 3, 4, 5] 1 5).sub 1 3 = .ok t ∧ sbytes t = [3, 4] := ⟨⟨[1, 2, 3, 4, 5], 2, 4⟩, by decide⟩

/-- C73: consuming a slice cuts it in two. -/
theorem C73_consume (s : Slice) (hs : Inside s) (n : Nat) (hn : n ≤ s.e - s.b) :
    ∃ t, s.consume n = .ok t ∧ Inside t ∧ Inside (s.cutOff t) ∧ sbytes (s.cutOff t) = (sbytes s).take n ∧
      sbytes t = (sbytes s).drop n := by
  have h1 := hs.1
  have h2 := hs.2
  refine ⟨{ s with b := s.b + n }, ?_, ⟨by simp only; omega, h2⟩, ⟨by simp only [Slice.cutOff]; omega, ?_⟩, ?_, ?_⟩
  · unfold Slice.consume
    rw [if_pos (by omega)]
  · simp only [Slice.cutOff]; omega
  · rw [sbytes_eq, sbytes_eq]
    simp only [Slice.cutOff]
    rw [List.take_take]
    congr 1
    omega
  · unfold sbytes
    rw [List.drop_drop]

/-- A slice within some memory, of more than eight bytes. -/
example : Inside ⟨[1, 2, 3, 4, 5, 6, 7, 8, 9, 10, 11, 12], 1, 11⟩ ∧
    sbytes ⟨[1, 2, 3, 4, 5, 6, 7, 8, 9, 10, 11, 12], 1, 11⟩ = sbytes ⟨[2, 3, 4, 5, 6, 7, 8, 9, 10, 11], 0, 10⟩ := by
  unfold Inside; decide

/-- C73: a byte of a slice is at its place, and no byte before or after the slice is given out. -/
theorem C73_at (s : Slice) (hs : Inside s) (i : Nat) :
    s.at_ i = match (sbytes s)[i]? with | some c => .ok c | none => .abort := by
  have h1 := hs.1
  have h2 := hs.2
  unfold Slice.at_ sbytes
  rw [List.getElem?_drop, List.getElem?_take]
  split
  · rename_i h
    rw [List.getElem?_eq_getElem (by omega)]
    rfl
  · rfl

/-- The first byte after a slice is not a byte of it, though it is in the memory. -/
example : Slice.at_ ⟨[1, 2, 3, 4], 1, 3⟩ 1 = .ok 3 ∧ Slice.at_ ⟨[1, 2, 3, 4], 1, 3⟩ 2 = .abort := by decide

end Ron.Props
