import Verif.Spec.Merkle
import Verif.Lemmas.Key
import Verif.Lemmas.Utf
/-!
The hashed strings determine what is hashed.
-/
namespace Ron
open Spec Key

theorem be64_length (w : Word) : (be64 w).length = 8 := memLE_length _

theorem be64_inj {a b : Word} (h : be64 a = be64 b) : a = b := by
  unfold be64 at h
  rw [bswap_bytes, bswap_bytes] at h
  exact BitVec.eq_of_toNat_eq ((memLE_rev_eq a b).1 h)

theorem be64_cut {a b : Word} {x y : List Byte} (h : be64 a ++ x = be64 b ++ y) : a = b ∧ x = y := by
  have := List.append_inj h (by rw [be64_length, be64_length])
  exact ⟨be64_inj this.1, this.2⟩

theorem atomBytes_length (a : Atom) : (atomBytes a).length = 16 := by
  unfold atomBytes; rw [List.length_append, be64_length, be64_length]

theorem atomBytes_cut {a b : Atom} {x y : List Byte} (h : atomBytes a ++ x = atomBytes b ++ y) :
    a = b ∧ x = y := by
  unfold atomBytes at h
  rw [List.append_assoc, List.append_assoc] at h
  obtain ⟨h1, h⟩ := be64_cut h
  obtain ⟨h2, h⟩ := be64_cut h
  refine ⟨?_, h⟩
  cases a; cases b
  simp only at h1 h2
  rw [h1, h2]

/-- The first two words of an atom's string. -/
def HAtom.head : HAtom → Atom
  | .uuid u => u
  | .int hi w => ⟨w, BitVec.ofNat 64 ((1 * 4 + hi) * 2 ^ 60)⟩
  | .float hi w => ⟨w, BitVec.ofNat 64 ((3 * 4 + hi) * 2 ^ 60)⟩
  | .str hi n _ => ⟨Atom.valueWord n 0, BitVec.ofNat 64 ((2 * 4 + hi) * 2 ^ 60)⟩
  | .chr cp => ⟨Atom.valueWord 0 cp, BitVec.ofNat 64 ((2 * 4 + 0) * 2 ^ 60)⟩

/-- And the text after them. -/
def HAtom.tail : HAtom → List Nat
  | .str _ _ cps => cps
  | .chr cp => [cp]
  | _ => []

theorem HAtom.bytes_eq (a : HAtom) : a.bytes = atomBytes a.head ++ a.tail.flatMap utf8append := by
  cases a <;> simp [HAtom.bytes, HAtom.head, HAtom.tail, atomBytes, rangelessBytes, Atom.tINT, Atom.tSTRING, Atom.tFLOAT]

theorem utf8_cut : ∀ (a b : List Nat) {x y : List Byte}, a.length = b.length →
    (∀ c ∈ a, c < 2 ^ 21) → (∀ c ∈ b, c < 2 ^ 21) →
    a.flatMap utf8append ++ x = b.flatMap utf8append ++ y → a = b ∧ x = y := by
  intro a
  induction a with
  | nil =>
    intro b x y hl _ _ h
    match b, hl with
    | [], _ => exact ⟨rfl, h⟩
  | cons c a ih =>
    intro b x y hl ha hb h
    match b, hl with
    | d :: b, hl =>
      rw [List.flatMap_cons, List.flatMap_cons, List.append_assoc, List.append_assoc] at h
      have h1 := utf8read_char (utf8append_char c (ha c List.mem_cons_self)).1 (a.flatMap utf8append ++ x)
      have h2 := utf8read_char (utf8append_char d (hb d List.mem_cons_self)).1 (b.flatMap utf8append ++ y)
      rw [h] at h1
      rw [h1] at h2
      injection h2 with h2
      injection h2 with e1 e2
      obtain ⟨e3, e4⟩ := ih b (by simpa using hl) (fun c hc => ha c (List.mem_cons_of_mem _ hc))
        (fun c hc => hb c (List.mem_cons_of_mem _ hc)) e2
      exact ⟨by rw [e1, e3], e4⟩

theorem flag_toNat {k : Nat} (h : k < 16) : (BitVec.ofNat 64 (k * 2 ^ 60)).toNat = k * 2 ^ 60 := by
  rw [BitVec.toNat_ofNat, Nat.mod_eq_of_lt (by omega)]

theorem flag_inj {j k : Nat} (hj : j < 16) (hk : k < 16)
    (h : BitVec.ofNat 64 (j * 2 ^ 60) = BitVec.ofNat 64 (k * 2 ^ 60)) : j = k := by
  have := congrArg BitVec.toNat h
  rw [flag_toNat hj, flag_toNat hk] at this
  omega

theorem valueWord_inj {a b c d : Nat} (ha : a < 2 ^ 32) (hb : b < 2 ^ 32) (hc : c < 2 ^ 32) (hd : d < 2 ^ 32)
    (h : Atom.valueWord a b = Atom.valueWord c d) : a = c ∧ b = d := by
  have := congrArg BitVec.toNat h
  unfold Atom.valueWord at this
  rw [BitVec.toNat_ofNat, BitVec.toNat_ofNat] at this
  omega

/-- The heads determine all but the text, and the length of that. -/
theorem HAtom.head_cut {a b : HAtom} (ha : HAtomOk a) (hb : HAtomOk b) (h : a.head = b.head) :
    a.tail.length = b.tail.length ∧ (a.tail = b.tail → a = b) ∧
    (∀ c ∈ a.tail, c < 2 ^ 21) ∧ ∀ c ∈ b.tail, c < 2 ^ 21 := by
  have hv : a.head.value = b.head.value := by rw [h]
  have ho : a.head.origin = b.head.origin := by rw [h]
  cases a <;> cases b <;> simp only [HAtom.head] at hv ho h <;> simp only [HAtomOk] at ha hb
  all_goals first
    | (exfalso
       have := congrArg BitVec.toNat ho
       rw [flag_toNat (by omega)] at this
       omega)
    | (exfalso
       have := congrArg BitVec.toNat ho
       rw [flag_toNat (by omega), flag_toNat (by omega)] at this
       omega)
    | skip
  · subst h; exact ⟨rfl, fun _ => rfl, by simp [HAtom.tail], by simp [HAtom.tail]⟩
  · rename_i i _ j _
    have e : i = j := by have := flag_inj (by omega) (by omega) ho; omega
    exact ⟨rfl, fun _ => by rw [hv, e], by simp [HAtom.tail], by simp [HAtom.tail]⟩
  · rename_i i _ j _
    have e : i = j := by have := flag_inj (by omega) (by omega) ho; omega
    exact ⟨rfl, fun _ => by rw [hv, e], by simp [HAtom.tail], by simp [HAtom.tail]⟩
  · rename_i i n l j m k
    obtain ⟨h1, rfl, h2, h3⟩ := ha
    obtain ⟨g1, rfl, g2, g3⟩ := hb
    have e : i = j := by have := flag_inj (by omega) (by omega) ho; omega
    have e2 := (valueWord_inj h2 (by omega) g2 (by omega) hv).1
    exact ⟨e2, fun h => by rw [e, show l = k from h], h3, g3⟩
  · exfalso
    have := (valueWord_inj ha.2.2.1 (by omega) (by omega) (by omega) hv).2
    omega
  · exfalso
    have := (valueWord_inj (by omega) (by omega) hb.2.2.1 (by omega) hv).2
    omega
  · have e2 := valueWord_inj (by omega) (by omega) (by omega) (by omega) hv
    refine ⟨rfl, fun _ => by rw [e2.2], ?_, ?_⟩
    · simp [HAtom.tail]; omega
    · simp [HAtom.tail]; omega

theorem HAtom.cut {a b : HAtom} (ha : HAtomOk a) (hb : HAtomOk b) {x y : List Byte}
    (h : a.bytes ++ x = b.bytes ++ y) : a = b ∧ x = y := by
  rw [HAtom.bytes_eq, HAtom.bytes_eq, List.append_assoc, List.append_assoc] at h
  obtain ⟨h1, h⟩ := atomBytes_cut h
  obtain ⟨h2, h3, h4, h5⟩ := HAtom.head_cut ha hb h1
  obtain ⟨h6, h7⟩ := utf8_cut _ _ h2 h4 h5 h
  exact ⟨h3 h6, h7⟩

theorem HAtom.bytes_length (a : HAtom) : 16 ≤ a.bytes.length := by
  rw [HAtom.bytes_eq, List.length_append, atomBytes_length]; omega

theorem atoms_inj : ∀ (a b : List HAtom), (∀ v ∈ a, HAtomOk v) → (∀ v ∈ b, HAtomOk v) →
    a.flatMap HAtom.bytes = b.flatMap HAtom.bytes → a = b := by
  intro a
  induction a with
  | nil =>
    intro b _ _ h
    match b with
    | [] => rfl
    | c :: b =>
      have := congrArg List.length h
      have h2 := HAtom.bytes_length c
      rw [List.flatMap_nil, List.flatMap_cons, List.length_append] at this
      simp only [List.length_nil] at this
      omega
  | cons c a ih =>
    intro b ha hb h
    match b with
    | [] =>
      have := congrArg List.length h
      have h2 := HAtom.bytes_length c
      rw [List.flatMap_nil, List.flatMap_cons, List.length_append] at this
      simp only [List.length_nil] at this
      omega
    | d :: b =>
      rw [List.flatMap_cons, List.flatMap_cons] at h
      obtain ⟨h1, h2⟩ := HAtom.cut (ha c List.mem_cons_self) (hb d List.mem_cons_self) h
      rw [h1, ih b (fun v hv => ha v (List.mem_cons_of_mem _ hv)) (fun v hv => hb v (List.mem_cons_of_mem _ hv)) h2]

theorem opBytes_inj {i j r s : Uuid} {a b : List HAtom} {p q u v : List Byte} (ha : ∀ v ∈ a, HAtomOk v)
    (hb : ∀ v ∈ b, HAtomOk v) (hp : p.length = q.length) (hu : u.length = v.length)
    (h : opBytes i r a p u = opBytes j s b q v) : i = j ∧ r = s ∧ a = b ∧ p = q ∧ u = v := by
  unfold opBytes at h
  obtain ⟨h1, h⟩ := atomBytes_cut h
  obtain ⟨h2, h⟩ := List.append_inj h hp
  obtain ⟨h3, h⟩ := atomBytes_cut h
  obtain ⟨h4, h⟩ := List.append_inj h hu
  exact ⟨h1, h3, atoms_inj _ _ ha hb h, h2, h4⟩

theorem opBytes_length (i r : Uuid) (a : List HAtom) (p u : List Byte) : 32 ≤ (opBytes i r a p u).length := by
  unfold opBytes
  simp only [List.length_append, atomBytes_length]
  omega

theorem _root_.Ron.Spec.Hist.hash_length {H : List Byte → List Byte} (hs : ∀ s, (H s).length = 32) (h : Hist) :
    (h.hash H).length = 32 := by
  cases h <;> simp [Hist.hash, hs]

/-- Equal hashes, equal histories. -/
theorem _root_.Ron.Spec.Hist.hash_inj {H : List Byte → List Byte} {S : List (List Byte)} (hf : Fine H S) :
    ∀ (a b : Hist), a.Ok → b.Ok → (∀ s ∈ a.strings H, s ∈ S) → (∀ s ∈ b.strings H, s ∈ S) →
    a.hash H = b.hash H → a = b := by
  intro a
  induction a with
  | none =>
    intro b _ _ _ hb h
    cases b with
    | none => rfl
    | form u => exact absurd h.symm (hf.nonzero _ (hb _ List.mem_cons_self))
    | op => exact absurd h.symm (hf.nonzero _ (hb _ List.mem_cons_self))
  | form u =>
    intro b _ _ ha hb h
    cases b with
    | none => exact absurd h (hf.nonzero _ (ha _ List.mem_cons_self))
    | form v =>
      have := hf.inj _ (ha _ List.mem_cons_self) _ (hb _ List.mem_cons_self) h
      have e := (atomBytes_cut (a := u) (b := v) (x := []) (y := []) (by rw [this])).1
      rw [e]
    | op i r x p q =>
      have := hf.inj _ (ha _ List.mem_cons_self) _ (hb _ List.mem_cons_self) h
      have h1 := congrArg List.length this
      have h2 := opBytes_length i r x (p.hash H) (q.hash H)
      rw [atomBytes_length] at h1
      omega
  | op j s y m n ih1 ih2 =>
    intro b ka kb ha hb h
    cases b with
    | none => exact absurd h (hf.nonzero _ (ha _ List.mem_cons_self))
    | form v =>
      have := hf.inj _ (ha _ List.mem_cons_self) _ (hb _ List.mem_cons_self) h
      have h1 := congrArg List.length this
      have h2 := opBytes_length j s y (m.hash H) (n.hash H)
      rw [atomBytes_length] at h1
      omega
    | op i r x p q =>
      have := hf.inj _ (ha _ List.mem_cons_self) _ (hb _ List.mem_cons_self) h
      obtain ⟨h1, h2, h3, h4, h5⟩ := opBytes_inj ka.1 kb.1
        (by rw [Hist.hash_length hf.size, Hist.hash_length hf.size])
        (by rw [Hist.hash_length hf.size, Hist.hash_length hf.size]) this
      have e1 := ih1 p ka.2.1 kb.2.1 (fun s hs => ha s (List.mem_cons_of_mem _ (List.mem_append_left _ hs)))
        (fun s hs => hb s (List.mem_cons_of_mem _ (List.mem_append_left _ hs))) h4
      have e2 := ih2 q ka.2.2 kb.2.2 (fun s hs => ha s (List.mem_cons_of_mem _ (List.mem_append_right _ hs)))
        (fun s hs => hb s (List.mem_cons_of_mem _ (List.mem_append_right _ hs))) h5
      rw [h1, h2, h3, e1, e2]

end Ron
