import Verif.Model.Random
/-!
C123: random words and the yarns of new branches.
-/
namespace Ron.Props
open Random

/-- A run of `swarmdb create` or `swarmdb fork`, anywhere. -/
structure Run where
  host : Nat
  pid : Nat
  seconds : Nat

/-- C123: with a good generator, two runs begin different yarns. -/
def C123_claim : Prop := ∃ gen : Generator, ∀ p q : Run, p ≠ q → yarn gen p.seconds ≠ yarn gen q.seconds

/-- C123 is violated, whatever the generator: runs of the same second begin the same yarn. -/
theorem C123_violated : ¬ C123_claim := by
  rintro ⟨gen, h⟩
  exact h ⟨0, 1, 1542000000⟩ ⟨1, 1, 1542000000⟩ (fun e => nomatch e) rfl

/-- C123: a random word is a payload, it has no flags. -/
theorem C123_payload (a b : Draw) : (random a b).toNat < 2 ^ 60 := by
  unfold random
  rw [BitVec.toNat_and]
  exact Nat.lt_of_le_of_lt Nat.and_le_right (by decide)

theorem random_bit (a b : Draw) (i : Nat) :
    (random a b).getLsbD i = (decide (i < 60) && ((decide (30 ≤ i) && a.getLsbD (i - 30)) ^^ b.getLsbD i)) := by
  unfold random Word.MAX_VALUE
  rw [BitVec.getLsbD_and, BitVec.getLsbD_xor, BitVec.getLsbD_shiftLeft, BitVec.getLsbD_setWidth, BitVec.getLsbD_setWidth,
    BitVec.getLsbD_ofNat, Nat.testBit_two_pow_sub_one]
  by_cases h : i < 60
  · have h1 : i < 64 := by omega
    have h2 : i - 30 < 64 := by omega
    by_cases h' : 30 ≤ i
    · have h3 : ¬ i < 30 := by omega
      simp only [h, h1, h2, h3, h', decide_true, decide_false, Bool.true_and, Bool.not_false, Bool.and_true]
    · have h3 : i < 30 := by omega
      simp only [h, h1, h2, h3, h', decide_true, decide_false, Bool.true_and, Bool.not_true, Bool.and_true, Bool.false_and,
        Bool.and_false]
  · simp only [h, decide_false, Bool.and_false, Bool.false_and]

/-- The draws that give a word: two bits are free. -/
def draws (w : Word) (s t : BitVec 1) : Draw × Draw :=
  (s ++ ((w >>> 30).setWidth 30 ^^^ t.setWidth 30), t ++ w.setWidth 30)

theorem draws_bits {w : Word} {a b : Draw} (h : random a b = w) : (a, b) = draws w ((a >>> 30).setWidth 1) ((b >>> 30).setWidth 1) := by
  subst h
  unfold draws
  have hb : b = (b >>> 30).setWidth 1 ++ (random a b).setWidth 30 := by
    apply BitVec.eq_of_getLsbD_eq
    intro i hi
    rw [BitVec.getLsbD_append, BitVec.getLsbD_setWidth, BitVec.getLsbD_setWidth, random_bit, BitVec.getLsbD_ushiftRight]
    by_cases h : i < 30
    · have h1 : i < 60 := by omega
      have h2 : ¬ 30 ≤ i := by omega
      simp only [h, h1, h2, decide_true, decide_false, Bool.true_and, Bool.false_and, Bool.false_xor, ite_true]
    · have h1 : i = 30 := by omega
      subst h1
      rfl
  have ha : a = (a >>> 30).setWidth 1 ++ ((random a b >>> 30).setWidth 30 ^^^ ((b >>> 30).setWidth 1).setWidth 30) := by
    apply BitVec.eq_of_getLsbD_eq
    intro i hi
    rw [BitVec.getLsbD_append, BitVec.getLsbD_xor, BitVec.getLsbD_setWidth, BitVec.getLsbD_setWidth, BitVec.getLsbD_setWidth,
      BitVec.getLsbD_ushiftRight, random_bit, BitVec.getLsbD_setWidth, BitVec.getLsbD_ushiftRight, BitVec.getLsbD_ushiftRight]
    by_cases h : i < 30
    · have h1 : 30 + i < 60 := by omega
      have h2 : 30 ≤ 30 + i := by omega
      have h3 : 30 + i - 30 = i := by omega
      simp only [h, h1, h2, h3, decide_true, Bool.true_and, ite_true]
      by_cases h0 : i < 1
      · simp only [h0, decide_true, Bool.true_and, Bool.xor_assoc, Bool.xor_self, Bool.xor_false]
      · have : b.getLsbD (30 + i) = false := BitVec.getLsbD_of_ge _ _ (by omega)
        simp only [h0, this, decide_false, Bool.false_and, Bool.xor_false]
    · have h1 : i = 30 := by omega
      subst h1
      rfl
  exact Prod.ext ha hb

theorem draws_random {w : Word} (hw : w.toNat < 2 ^ 60) (s t : BitVec 1) : random (draws w s t).1 (draws w s t).2 = w := by
  apply BitVec.eq_of_getLsbD_eq
  intro i hi
  rw [random_bit]
  unfold draws
  simp only
  by_cases h : i < 60
  · by_cases h' : 30 ≤ i
    · obtain ⟨j, rfl⟩ : ∃ j, i = 30 + j := ⟨i - 30, by omega⟩
      have h1 : j < 30 := by omega
      have h2 : 30 + j - 30 = j := by omega
      have h3 : ¬ 30 + j < 30 := by omega
      rw [h2, BitVec.getLsbD_append, BitVec.getLsbD_append, BitVec.getLsbD_xor, BitVec.getLsbD_setWidth, BitVec.getLsbD_setWidth,
        BitVec.getLsbD_ushiftRight]
      simp only [h, h', h1, h2, h3, decide_true, Bool.true_and, ite_true, ite_false, Bool.xor_assoc, Bool.xor_self,
        Bool.xor_false]
    · have h1 : i < 30 := by omega
      rw [BitVec.getLsbD_append (x := t), BitVec.getLsbD_setWidth]
      simp only [h, h', h1, decide_true, decide_false, Bool.true_and, Bool.false_and, Bool.false_xor, ite_true]
  · have : w.getLsbD i = false := Nat.testBit_lt_two_pow (Nat.lt_of_lt_of_le hw (Nat.pow_le_pow_right (by omega) (by omega)))
    rw [this]
    simp only [h, decide_false, Bool.false_and]

/-- C123: each payload comes of exactly four pairs of draws, so that all payloads are equally likely if all pairs are. -/
theorem C123_uniform (w : Word) (hw : w.toNat < 2 ^ 60) :
    ∃ l : List (Draw × Draw), l.Nodup ∧ l.length = 4 ∧ ∀ a b, random a b = w ↔ (a, b) ∈ l := by
  refine ⟨[draws w 0 0, draws w 0 1, draws w 1 0, draws w 1 1], ?_, rfl, fun a b => ⟨fun h => ?_, fun h => ?_⟩⟩
  · have inj : ∀ s t s' t', draws w s t = draws w s' t' → s = s' ∧ t = t' := by
      intro s t s' t' e
      unfold draws at e
      injection e with e1 e2
      have g : ∀ {m n : Nat} {x x' : BitVec m} {y y' : BitVec n}, x ++ y = x' ++ y' → x = x' := by
        intro m n x x' y y' e
        apply BitVec.eq_of_getLsbD_eq
        intro i hi
        have := congrArg (fun z => z.getLsbD (n + i)) e
        simp only [BitVec.getLsbD_append] at this
        rwa [if_neg (by omega), if_neg (by omega), Nat.add_sub_cancel_left] at this
      exact ⟨g e1, g e2⟩
    have ne : ∀ s t s' t', ¬ (s = s' ∧ t = t') → draws w s t ≠ draws w s' t' := fun s t s' t' h e => h (inj s t s' t' e)
    simp only [List.nodup_cons, List.mem_cons, List.not_mem_nil, or_false, not_or, List.nodup_nil, and_true, not_false_eq_true]
    exact ⟨⟨ne _ _ _ _ (by decide), ne _ _ _ _ (by decide), ne _ _ _ _ (by decide)⟩,
      ⟨ne _ _ _ _ (by decide), ne _ _ _ _ (by decide)⟩, ne _ _ _ _ (by decide)⟩
  · rw [draws_bits h]
    have two : ∀ x : BitVec 1, x = 0 ∨ x = 1 := by decide
    rcases two ((a >>> 30).setWidth 1) with e | e <;> rcases two ((b >>> 30).setWidth 1) with f | f <;> rw [e, f] <;>
      simp only [List.mem_cons, true_or, or_true]
  · simp only [List.mem_cons, List.not_mem_nil, or_false] at h
    rcases h with h | h | h | h <;>
    · rw [show a = (a, b).1 from rfl, show b = (a, b).2 from rfl, h]
      exact draws_random hw _ _

/-- C123: the word zero, which is no yarn (`Replica::Receive` refuses its events), is one of them. -/
theorem C123_zero : ∃ a b, random a b = 0#64 := ⟨0, 0, by decide⟩

theorem nodup_le {α : Type} [DecidableEq α] : ∀ {l m : List α}, l.Nodup → (∀ x ∈ l, x ∈ m) → l.length ≤ m.length
  | [], _, _, _ => Nat.zero_le _
  | a :: l, m, hn, h => by
    obtain ⟨h1, h2⟩ := List.nodup_cons.1 hn
    have ha := h a List.mem_cons_self
    have := nodup_le (m := m.erase a) h2 fun x hx =>
      (List.mem_erase_of_ne fun e => h1 (by rw [← e]; exact hx)).2 (h x (List.mem_cons_of_mem _ hx))
    rw [List.length_erase_of_mem ha] at this
    have := List.length_pos_of_mem ha
    rw [List.length_cons]
    omega

/-- C123: whatever the generator, new branches have no more than 2^32 yarns, of the 2^60 there are. -/
theorem C123_few (gen : Generator) : ∃ l : List Word, l.length = 2 ^ 32 ∧ ∀ seconds, yarn gen seconds ∈ l := by
  refine ⟨(List.range (2 ^ 32)).map (yarn gen), by rw [List.length_map, List.length_range], fun n => ?_⟩
  refine List.mem_map.2 ⟨n % 2 ^ 32, List.mem_range.2 (Nat.mod_lt _ (by decide)), ?_⟩
  have : seed (n % 2 ^ 32) = seed n := by
    unfold seed
    apply BitVec.eq_of_toNat_eq
    rw [BitVec.toNat_ofNat, BitVec.toNat_ofNat, Nat.mod_mod]
  unfold yarn
  rw [this]

/-- C123: so there is a payload that is never the yarn of a new branch. -/
theorem C123_never (gen : Generator) : ∃ w : Word, w.toNat < 2 ^ 60 ∧ ∀ seconds, yarn gen seconds ≠ w := by
  obtain ⟨l, h1, h2⟩ := C123_few gen
  refine Classical.byContradiction fun hn => ?_
  have h3 : ∀ x ∈ (List.range (2 ^ 32 + 1)).map (BitVec.ofNat 64), x ∈ l := by
    intro x hx
    obtain ⟨i, hi, rfl⟩ := List.mem_map.1 hx
    have hi := List.mem_range.1 hi
    refine Classical.byContradiction fun hm => hn ⟨BitVec.ofNat 64 i, ?_, fun s e => hm (e ▸ h2 s)⟩
    rw [BitVec.toNat_ofNat]
    exact Nat.lt_of_le_of_lt (Nat.mod_le _ _) (by omega)
  have h4 : ((List.range (2 ^ 32 + 1)).map (BitVec.ofNat 64)).Nodup := by
    rw [List.nodup_iff_pairwise_ne, List.pairwise_map]
    refine (List.nodup_iff_pairwise_ne.1 (List.nodup_range (n := 2 ^ 32 + 1))).imp_of_mem fun {a b} ha hb hne e => hne ?_
    have := congrArg BitVec.toNat e
    rw [BitVec.toNat_ofNat, BitVec.toNat_ofNat, Nat.mod_eq_of_lt, Nat.mod_eq_of_lt] at this
    · exact this
    · have := List.mem_range.1 hb; omega
    · have := List.mem_range.1 ha; omega
  have := nodup_le h4 h3
  rw [List.length_map, List.length_range, h1] at this
  omega

/-- C123: with a generator that does not repeat itself, runs of different seconds begin different yarns, for 136 years.
Missing from the claim: runs of the same second. -/
theorem C123_seconds_partial : ∃ gen : Generator, ∀ p q : Run, p.seconds < 2 ^ 32 → q.seconds < 2 ^ 32 →
    p.seconds ≠ q.seconds → yarn gen p.seconds ≠ yarn gen q.seconds := by
  let gen : Generator := fun s i => if i = 0 then (s >>> 30).setWidth 31 else (s.setWidth 30).setWidth 31
  have h : ∀ n i, i < 32 → (yarn gen n).getLsbD i = (seed n).getLsbD i := by
    intro n i hi
    show (random (((seed n) >>> 30).setWidth 31) (((seed n).setWidth 30).setWidth 31)).getLsbD i = _
    rw [random_bit, BitVec.getLsbD_setWidth, BitVec.getLsbD_ushiftRight, BitVec.getLsbD_setWidth, BitVec.getLsbD_setWidth]
    have h1 : i < 60 := by omega
    by_cases h : i < 30
    · have h2 : ¬ 30 ≤ i := by omega
      have h3 : i < 31 := by omega
      simp only [h, h1, h2, h3, decide_true, decide_false, Bool.true_and, Bool.false_and, Bool.false_xor]
    · have h2 : 30 ≤ i := by omega
      have h3 : i - 30 < 31 := by omega
      have h4 : 30 + (i - 30) = i := by omega
      simp only [h, h1, h2, h3, h4, decide_true, decide_false, Bool.true_and, Bool.false_and, Bool.and_false, Bool.xor_false]
  refine ⟨gen, fun p q hp hq hne e => hne ?_⟩
  have : seed p.seconds = seed q.seconds := by
    apply BitVec.eq_of_getLsbD_eq
    intro i hi
    rw [← h _ i hi, ← h _ i hi, e]
  have := congrArg BitVec.toNat this
  unfold seed at this
  rwa [BitVec.toNat_ofNat, BitVec.toNat_ofNat, Nat.mod_eq_of_lt hp, Nat.mod_eq_of_lt hq] at this

/-- A word and the draws of it. -/
example : random 5 7 = 0x0000000140000007#64 ∧ (random 5 7).toNat < 2 ^ 60 := by decide

/-- A generator that gives different yarns at different seconds, for a while. -/
example : yarn (fun s i => if i = 0 then 0 else s.setWidth 31) 1542000000 ≠
    yarn (fun s i => if i = 0 then 0 else s.setWidth 31) 1542000001 := by decide

end Ron.Props
