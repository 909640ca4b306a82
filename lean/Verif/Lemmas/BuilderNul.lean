import Verif.Lemmas.BuilderOp
/-!
Strings with NULs in an `Op`: the builder writes them up to the first one.
-/
namespace Ron
open Spec

namespace Op

/-- The loop stops at a code point that is 0. -/
theorem writeCps_nul (o : Op) : ∀ {rest : List Nat} {a : Atom} {c n : Nat}, At o.strings a c rest →
    (∀ d ∈ rest, d < 2 ^ 32) → rest.length + 2 ≤ n →
    Builder.writeCps o.nextCodepoint n a = .ok (((c :: rest).takeWhile fun d => decide (d ≠ 0)).flatMap utf8escAppend) := by
  intro rest
  induction rest with
  | nil =>
    intro a c n h _ hn
    by_cases hc : c = 0
    · subst hc
      obtain ⟨m, rfl⟩ : ∃ m, n = m + 1 := ⟨n - 1, by simp at hn; omega⟩
      rw [Builder.writeCps, if_pos h.cp]
      rfl
    · rw [writeCps_at o h hc (fun _ h => nomatch h) hn, List.takeWhile_cons_of_pos (by simpa using hc), List.takeWhile_nil]
  | cons d rest ih =>
    intro a c n h hr hn
    obtain ⟨m, rfl⟩ : ∃ m, n = m + 1 := ⟨n - 1, by simp at hn; omega⟩
    by_cases hc : c = 0
    · subst hc
      rw [Builder.writeCps, if_pos h.cp]
      rfl
    · obtain ⟨a', e1, h'⟩ := h.next (hr d (by simp))
      rw [Builder.writeCps, if_neg (by rw [h.cp]; exact hc), e1, obind,
        ih h' (fun x hx => hr x (by simp [hx])) (by simp at hn; omega), obind, h.cp,
        List.takeWhile_cons_of_pos (a := c) (by simpa using hc), List.flatMap_cons]

/-- An op with a string. -/
theorem mk_string (id ref : Uuid) {cps : List Nat} (hc : ∀ c ∈ cps, c < 2 ^ 21) (hl : cps.length < 2 ^ 28) :
    ∃ o a, Op.mk' id ref [.str (cps.flatMap utf8append)] = .ok o ∧ o.atoms = [id, ref, a] ∧
      Atom.type a = Atom.tSTRING ∧
      Builder.writeCps o.nextCodepoint (Atom.cpSize a + 2) a =
        .ok ((cps.takeWhile fun d => decide (d ≠ 0)).flatMap utf8escAppend) := by
  have hp := Utf8Parser.parse_text (utf8append_text cps hc) []
  unfold mk' writeAtoms writeAtom
  simp only
  rw [hp]
  simp only [Out.ofOption, obind, List.nil_append, List.length_nil, Nat.sub_zero]
  cases cps with
  | nil =>
    rw [if_neg (by simp), obind]
    obtain ⟨s1, s2, s3, -, -⟩ := string_spec 0 0 0 0 (by decide) (by decide) (by decide) (by decide)
    refine ⟨_, _, rfl, rfl, s1, ?_⟩
    rw [Builder.writeCps, if_pos (show (Atom.string 0 0 0 ([] : List Nat).length).cp = 0 from s2)]
    rfl
  | cons c rest =>
    rw [if_pos (by simp), obind]
    simp only [List.length_cons] at hl
    have hcc := hc c (by simp)
    obtain ⟨s1, s2, s3, s4, s5⟩ := string_spec c (0 + 1) (rest.length + 1) rest.length
      (by omega) (by omega) (by omega) (by omega)
    have h : At (c :: rest) (Atom.string c (0 + 1) (rest.length + 1) rest.length) c rest :=
      ⟨s1, s2, s3, s4, _, [], s5, by simp, by omega, by simp⟩
    refine ⟨_, _, rfl, rfl, s1, ?_⟩
    exact writeCps_nul ⟨_, c :: rest⟩ h (fun d hd => by have := hc d (by simp [hd]); omega)
      (by
        have := h.size
        show _ ≤ Atom.cpSize (Atom.string c (0 + 1) (rest.length + 1) rest.length) + 2
        omega)

end Op

namespace Builder

/-- The text of an op with a string, first in a frame. -/
def oneText (id ref : Uuid) (d : List Byte) : List Byte :=
  64 :: id.str ++ (if ref ≠ Uuid.NIL then 32 :: 58 :: ref.str else []) ++ (32 :: 39 :: (d ++ [39])) ++ [59, 10]

theorem release_one {b : Builder} (h : b.span = 1) : ∃ b', b.release = .ok (b.data ++ [59, 10], b') := by
  unfold release endChunk writeTerm
  rw [if_pos (by omega), if_neg (by decide), if_neg (by omega), if_neg (by omega), Op.obind, Op.obind]
  exact ⟨_, rfl⟩

theorem one_written {fmt : Word → List Byte} {id ref : Uuid} (hn : id ≠ Uuid.NIL.inc) {o : Op} {a : Atom} {d : List Byte}
    (h1 : o.atoms = [id, ref, a]) (h2 : Atom.type a = Atom.tSTRING)
    (h3 : writeCps o.nextCodepoint (Atom.cpSize a + 2) a = .ok d) :
    ∃ b b', Builder.init.appendOp fmt o = .ok b ∧ b.release = .ok (oneText id ref d, b') := by
  have hv : writeValue fmt o.src a = .ok (32 :: 39 :: (d ++ [39])) := by
    unfold writeValue
    rw [if_neg (by rw [h2]; decide), if_neg (by rw [h2]; decide), if_pos h2, show o.src.nextCp = o.nextCodepoint from rfl, h3,
      Op.obind]
  have hs : isSameSpan Builder.init o.src id ref = false := by
    unfold isSameSpan
    rw [show decide (id = Builder.init.prevId.inc) = false from decide_eq_false hn]
    simp
  have ht : ∀ t, writeTerm Builder.init t = .ok Builder.init := fun t => by
    unfold writeTerm
    rw [if_pos (by decide)]
  unfold appendOp appendSrc
  rw [show o.src.op = [id, ref, a] from h1]
  simp only
  rw [hs, if_neg (by decide), ht, Op.obind]
  unfold writeSpec
  rw [ht, Op.obind]
  simp only
  rw [Op.obind, writeAll, hv, Op.obind, writeAll, Op.obind, Op.obind]
  have hd : decide (id = Builder.init.prevId.inc) = false := decide_eq_false hn
  rw [hd]
  obtain ⟨b', hb⟩ := release_one (b := { (Builder.write { prevId := id, prev2 := _, span := 1, data := _ } _) with
    prev2 := spanSignature o.src }) rfl
  refine ⟨_, b', rfl, hb.trans (congrArg (fun t => Out.ok (t, b')) ?_)⟩
  unfold oneText
  by_cases hr : ref = Uuid.NIL
  · rw [if_neg (fun h => h hr)]
    simp [write, init, hr]
  · rw [if_pos hr]
    simp [write, init, hr]

end Builder
end Ron
