import Verif.Lemmas.BuilderOp
/-!
The builder writes no code points longer than they need to be.
-/
namespace Ron
open Spec

/-- No code points written longer than they need to be, and none cut at the end. -/
def Whole (s : List Byte) : Prop := NoOverlong (s ++ [0])

/-- ASCII. -/
def Ascii (s : List Byte) : Prop := ∀ c ∈ s, c.toNat < 128

theorem Whole.noOverlong {s : List Byte} (h : Whole s) : NoOverlong s := by
  unfold Whole at h
  induction s with
  | nil => trivial
  | cons a l ih =>
    cases l with
    | nil => exact ⟨h.1, h.2.1⟩
    | cons b l => exact ⟨h.1, h.2.1, h.2.2.1, h.2.2.2.1, ih h.2.2.2.2⟩

theorem whole_nil : Whole [] := by show (0 : Byte).toNat ≠ 0xc0 ∧ (0 : Byte).toNat ≠ 0xc1; decide

theorem whole_append {a b : List Byte} (ha : Whole a) (hb : Whole b) : Whole (a ++ b) := by
  unfold Whole at *
  induction a with
  | nil => exact hb
  | cons x l ih =>
    cases l with
    | nil =>
      obtain ⟨h1, h2, h3, h4, -⟩ := ha
      have h0 : (0 : Byte).toNat = 0 := rfl
      have e0 : x.toNat ≠ 0xe0 := fun h => h3 ⟨h, by rw [h0]; omega⟩
      have f0 : x.toNat ≠ 0xf0 := fun h => h4 ⟨h, by rw [h0]; omega⟩
      show NoOverlong (x :: (b ++ [0]))
      cases b with
      | nil => exact ⟨h1, h2, h3, h4, hb⟩
      | cons y b => exact ⟨h1, h2, fun h => e0 h.1, fun h => f0 h.1, hb⟩
    | cons y l => exact ⟨ha.1, ha.2.1, ha.2.2.1, ha.2.2.2.1, ih ha.2.2.2.2⟩

theorem whole_ascii {s : List Byte} (h : Ascii s) : Whole s := by
  induction s with
  | nil => exact whole_nil
  | cons a l ih =>
    have e : a :: l = [a] ++ l := rfl
    rw [e]
    refine whole_append ?_ (ih fun c hc => h c (by simp [hc]))
    have := h a (by simp)
    show NoOverlong [a, 0]
    exact ⟨by omega, by omega, by omega, by omega, whole_nil⟩

theorem whole_left {a b : List Byte} {c : Byte} (hc : c.toNat < 128) (h : Whole (a ++ c :: b)) : Whole a := by
  unfold Whole at *
  induction a with
  | nil => exact whole_nil
  | cons x l ih =>
    cases l with
    | nil =>
      obtain ⟨h1, h2, h3, h4, -⟩ := h
      refine ⟨h1, h2, ?_, ?_, whole_nil⟩
      · rintro ⟨h, -⟩; exact h3 ⟨h, by omega⟩
      · rintro ⟨h, -⟩; exact h4 ⟨h, by omega⟩
    | cons y l => exact ⟨h.1, h.2.1, h.2.2.1, h.2.2.2.1, ih h.2.2.2.2⟩

theorem ascii_append {a b : List Byte} (ha : Ascii a) (hb : Ascii b) : Ascii (a ++ b) := by
  intro c hc
  rcases List.mem_append.1 hc with h | h
  · exact ha c h
  · exact hb c h

theorem ascii_cons {a : Byte} {b : List Byte} (ha : a.toNat < 128) (hb : Ascii b) : Ascii (a :: b) := by
  intro c hc
  rcases List.mem_cons.1 hc with rfl | h
  · exact ha
  · exact hb c h

theorem ascii_nil : Ascii [] := by intro c h; simp at h

theorem ascii_b64 {s : List Byte} (h : ∀ c ∈ s, isB64 c = true) : Ascii s := fun c hc => isB64_lt c (h c hc)

theorem ascii_digits {s : List Byte} (h : ∀ c ∈ s, IsDigit c) : Ascii s := fun c hc => by
  have := h c hc
  unfold IsDigit at this
  omega

theorem ascii_uuid {s : List Byte} {u : Uuid} (h : UuidLit s u) : Ascii s := by
  obtain ⟨vr, v, ver, o, ⟨⟨pre, tail, rfl, hp, ht⟩, hw⟩, -⟩ := h
  refine ascii_append (ascii_append ?_ (ascii_b64 hw.2)) ?_
  · cases hp with
    | none => exact ascii_nil
    | some h hh =>
      refine ascii_cons ?_ (ascii_cons (by decide) ascii_nil)
      unfold isHex at hh
      simp only [Bool.or_eq_true, Bool.and_eq_true, Nat.ble_eq] at hh
      omega
  · cases ht with
    | none => exact ascii_nil
    | some s o hs ho =>
      refine ascii_cons ?_ (ascii_b64 ho.2)
      unfold isSep at hs
      simp only [Bool.or_eq_true, Nat.beq_eq] at hs
      omega

theorem ascii_int {s : List Byte} {v : Int} (h : IntText s v) : Ascii s := by
  cases h with
  | plain s hn h => exact ascii_digits h
  | plus c s hc hn h => exact ascii_cons (by omega) (ascii_digits h)
  | minus c s hc hn h => exact ascii_cons (by omega) (ascii_digits h)

theorem ascii_sign {s : List Byte} (h : SignText s) : Ascii s := by
  cases h with
  | none => exact ascii_nil
  | plus => exact ascii_cons (by decide) ascii_nil
  | minus => exact ascii_cons (by decide) ascii_nil

theorem ascii_exp {s : List Byte} (h : ExpText s) : Ascii s := by
  obtain ⟨e, s, d, he, hs, hd⟩ := h
  refine ascii_cons ?_ (ascii_append (ascii_sign hs) (ascii_digits hd.2))
  rcases he with rfl | rfl <;> decide

theorem ascii_float {s : List Byte} (h : FloatText s) : Ascii s := by
  cases h with
  | frac s d f hs hd hf =>
    exact ascii_append (ascii_append (ascii_sign hs) (ascii_digits hd.2)) (ascii_cons (by decide) (ascii_digits hf.2))
  | fracExp s d f x hs hd hf hx =>
    exact ascii_append (ascii_append (ascii_append (ascii_sign hs) (ascii_digits hd.2))
      (ascii_cons (by decide) (ascii_digits hf.2))) (ascii_exp hx)
  | exp s d x hs hd hx =>
    exact ascii_append (ascii_append (ascii_sign hs) (ascii_digits hd.2)) (ascii_exp hx)

theorem ascii_decDigits : ∀ (k n : Nat), Ascii (decDigits k n) := by
  intro k
  induction k with
  | zero => intro n; exact ascii_nil
  | succ k ih =>
    intro n
    have hd : ∀ m, m < 10 → (UInt8.ofNat (48 + m)).toNat < 128 := by
      intro m hm
      have key : ∀ m : Fin 10, (UInt8.ofNat (48 + m.val)).toNat < 128 := by decide
      exact key ⟨m, hm⟩
    unfold decDigits
    split
    · exact ascii_cons (hd _ (by omega)) ascii_nil
    · exact ascii_append (ih _) (ascii_cons (hd _ (by omega)) ascii_nil)

theorem ascii_writeInt {v : Int} {d : List Byte} (h : writeInt v = some d) : Ascii d := by
  unfold writeInt at h
  split at h
  · injection h with h
    subst h
    unfold sprintfInt
    split
    · exact ascii_cons (by decide) (ascii_decDigits _ _)
    · exact ascii_decDigits _ _
  · cases h

/-- Text that is of whole code points is whole if none is too long. -/
theorem whole_str {s : List Byte} {xs : List (Nat × Bool)} (h : StrText s xs) (hn : NoOverlong s) : Whole s := by
  have key : ∀ {s : List Byte} {a : Byte}, NoOverlong (s ++ [a]) → a.toNat < 0xc0 → Whole (s ++ [a]) := by
    intro s a h1 h2
    unfold Whole
    induction s with
    | nil => exact ⟨by omega, by omega, by omega, by omega, whole_nil⟩
    | cons x l ih =>
      cases l with
      | nil => exact ⟨h1.1, h1.2.1, h1.2.2.1, h1.2.2.2.1, ih h1.2.2.2.2⟩
      | cons y l => exact ⟨h1.1, h1.2.1, h1.2.2.1, h1.2.2.2.1, ih h1.2.2.2.2⟩
  have hlast : s = [] ∨ ∃ l a, s = l ++ [a] ∧ a.toNat < 0xc0 := by
    clear hn
    induction h with
    | nil => exact .inl rfl
    | @cons c s x xs hc _ ih =>
      right
      rcases ih with rfl | ⟨l, a, rfl, ha⟩
      · rw [List.append_nil]
        cases hc with
        | char h hp =>
          cases h with
          | one a h => exact ⟨[], a, rfl, by omega⟩
          | two a b ha hb => exact ⟨[a], b, rfl, by omega⟩
          | three a b c ha hb hc => exact ⟨[a, b], c, rfl, by omega⟩
          | four a b c d ha hb hc hd => exact ⟨[a, b, c], d, rfl, by omega⟩
        | esc e v h =>
          refine ⟨[92], e, rfl, ?_⟩
          have : ∀ p ∈ escapes, p.1.toNat < 0xc0 := by decide
          exact this _ h
        | uni a b c d ha hb hc hd =>
          refine ⟨[92, 117, a, b, c], d, rfl, ?_⟩
          unfold isHexDigit at hd
          simp only [Bool.or_eq_true, Bool.and_eq_true, Nat.ble_eq] at hd
          omega
      · exact ⟨c ++ l, a, by simp, ha⟩
  rcases hlast with rfl | ⟨l, a, rfl, ha⟩
  · exact whole_nil
  · exact key hn ha

theorem whole_utf8 {c : Nat} (h : c < 2 ^ 21) : Whole (utf8append c) := by
  obtain ⟨h1, h2⟩ := utf8append_char c h
  unfold Whole
  generalize utf8append c = s at h1 h2
  have z : (0 : Byte).toNat = 0 := rfl
  unfold utf8len at h2
  cases h1 with
  | one a h => exact ⟨by omega, by omega, by omega, by omega, whole_nil⟩
  | two a b ha hb =>
    have : 128 ≤ (a.toNat - 0xc0) * 64 + (b.toNat - 0x80) := by
      split at h2
      · simp at h2
      · omega
    exact ⟨by omega, by omega, by omega, by omega, by omega, by omega, by omega, by omega, whole_nil⟩
  | three a b c ha hb hc =>
    have : 2048 ≤ (a.toNat - 0xe0) * 4096 + (b.toNat - 0x80) * 64 + (c.toNat - 0x80) := by
      split at h2
      · simp at h2
      · split at h2
        · simp at h2
        · omega
    exact ⟨by omega, by omega, by omega, by omega, by omega, by omega, by omega, by omega, by omega, by omega,
      by omega, by omega, whole_nil⟩
  | four a b c d ha hb hc hd =>
    have : 65536 ≤ (a.toNat - 0xf0) * 262144 + (b.toNat - 0x80) * 4096 + (c.toNat - 0x80) * 64 + (d.toNat - 0x80) := by
      split at h2
      · simp at h2
      · split at h2
        · simp at h2
        · split at h2
          · simp at h2
          · omega
    exact ⟨by omega, by omega, by omega, by omega, by omega, by omega, by omega, by omega, by omega, by omega,
      by omega, by omega, by omega, by omega, by omega, by omega, whole_nil⟩

theorem whole_esc {c : Nat} (h : c < 2 ^ 21) : Whole (utf8escAppend c) := by
  by_cases h1 : c < 128
  · refine whole_ascii ?_
    have key : ∀ n : Fin 128, ∀ b ∈ utf8escAppend n.val, b.toNat < 128 := by decide +kernel
    exact key ⟨c, h1⟩
  · unfold utf8escAppend
    rw [if_neg h1]
    exact whole_utf8 h

namespace Builder
open Op

theorem whole_write {b : Builder} (h : Whole b.data) {s : List Byte} (hs : Whole s) : Whole (b.write s).data :=
  whole_append h hs

theorem whole_term {b b' : Builder} {t : Nat} (h : Whole b.data) (e : b.writeTerm t = .ok b') : Whole b'.data := by
  have hp : Ascii [termPunct t, 10] := by
    refine ascii_cons ?_ (ascii_cons (by decide) ascii_nil)
    unfold termPunct
    split
    · decide
    · split
      · decide
      · split <;> decide
  unfold writeTerm at e
  split at e
  · injection e with e
    rw [← e]; exact h
  · obtain ⟨b1, e1, e2⟩ := Cursor.bind_ok e
    injection e2 with e2
    rw [← e2]
    refine whole_append ?_ (whole_ascii hp)
    split at e1
    · split at e1
      · obtain ⟨d, e3, e4⟩ := Cursor.bind_ok e1
        injection e4 with e4
        rw [← e4]
        cases hw : writeInt (b.span : Int) with
        | none => rw [hw] at e3; cases e3
        | some x =>
          rw [hw] at e3
          injection e3 with e3
          subst e3
          exact whole_write h (whole_ascii (ascii_append (ascii_cons (by decide) (ascii_writeInt hw))
            (ascii_cons (by decide) ascii_nil)))
      · injection e1 with e1
        rw [← e1]
        exact whole_write h (whole_ascii (ascii_cons (by decide) (ascii_cons (by decide) ascii_nil)))
    · injection e1 with e1
      rw [← e1]; exact h

theorem whole_spec {b b' : Builder} {id ref : Uuid} (hi : Ascii id.str) (hr : Ascii ref.str) (h : Whole b.data)
    (e : b.writeSpec id ref = .ok b') : Whole b'.data := by
  unfold writeSpec at e
  obtain ⟨b1, e1, e2⟩ := Cursor.bind_ok e
  have h1 := whole_term h e1
  injection e2 with e2
  rw [← e2]
  show Whole (if _ then _ else _ : Builder).data
  have h2 : Whole (if decide (id = b1.prevId.inc) = true then b1 else b1.write (64 :: id.str)).data := by
    split
    · exact h1
    · exact whole_write h1 (whole_ascii (ascii_cons (by decide) hi))
  split
  · refine whole_write h2 (whole_ascii (ascii_append ?_ (ascii_cons (by decide) hr)))
    split
    · exact ascii_nil
    · exact ascii_cons (by decide) ascii_nil
  · exact h2

/-- The values are written with no code points longer than they need to be. -/
def WholeVals (f : Atom → Out (List Byte)) (s : Src) : Prop :=
  ∀ id ref vals d, s.op = id :: ref :: vals → writeAll f vals = .ok d → Whole d

theorem whole_new {f : Atom → Out (List Byte)} {s : Src} {o : OpView} {x : List Byte} (hs : Shown f s o x)
    (hv : WholeVals f s) {b b' : Builder} (h : Whole b.data) (hsp : isSameSpan b s o.id o.ref = false)
    (e : appendSrc f b s = .ok b') : Whole b'.data := by
  obtain ⟨vals, d, hop, hd, -⟩ := hs.vals
  unfold appendSrc at e
  rw [hop] at e
  simp only at e
  rw [if_neg (by rw [hsp]; simp)] at e
  obtain ⟨b1, e1, e⟩ := Cursor.bind_ok e
  obtain ⟨b2, e2, e⟩ := Cursor.bind_ok e
  rw [hd, obind] at e
  injection e with e
  rw [← e]
  exact whole_append (whole_spec (ascii_uuid hs.idLit) (ascii_uuid hs.refLit) (whole_term h e1) e2) (hv _ _ _ _ hop hd)

theorem whole_more {f : Atom → Out (List Byte)} {s : Src} {o : OpView} {x : List Byte} (hs : Shown f s o x)
    {b b' : Builder} {l : List (Nat × OpView)} {ops : List OpView} {hd : Option (List Byte)} (hp : Pend b l ops hd)
    (hx : ∀ y, hd = some y → y.length = 1) (h : Whole b.data) (hsp : isSameSpan b s o.id o.ref = true)
    (e : appendSrc f b s = .ok b') : Whole b'.data := by
  have hsm := hsp
  unfold isSameSpan at hsm
  simp only [Bool.and_eq_true, decide_eq_true_eq] at hsm
  obtain ⟨⟨⟨href, hid⟩, hnn⟩, hsg⟩ := hsm
  rw [hs.sig] at hsg
  obtain ⟨vals, d, hop, hdd, had, hch⟩ := hs.vals
  have hap : appendSrc f b s = extendSpan b s := by
    unfold appendSrc
    rw [hop]
    simp only
    rw [if_pos hsp]
  rw [hap] at e
  unfold extendSpan at e
  obtain ⟨b2, e1, e2⟩ := Cursor.bind_ok e
  injection e2 with e2
  rw [← e2]
  show Whole b2.data
  split at e1
  · rename_i hty
    have hst : b.prev2 = strSig := by
      cases hp with
      | plain _ _ _ _ _ _ _ ht => exact absurd hty ht
      | char _ _ _ _ _ _ _ hs => exact hs
      | spread _ _ _ _ _ _ _ _ hs => exact hs
    obtain ⟨t, t1, t2⟩ := sig_text hs.valType (by rw [hsg, hst])
    obtain ⟨c, rfl, -, c2, c3, -, a, r, a1, a2, a3⟩ := hch t t1 t2
    have hso : s.op[2]? = vals[0]? := by rw [hop]; rfl
    unfold extendString at e1
    rw [hso, a1] at e1
    simp only at e1
    obtain ⟨b3, e3, e4⟩ := Cursor.bind_ok e1
    rw [a2, obind] at e4
    injection e4 with e4
    rw [← e4, a3]
    refine whole_write ?_ (whole_esc (TextParser.cpText_lt c2))
    split at e3
    · rename_i hone
      cases hp with
      | plain _ _ _ _ _ _ _ ht => exact absurd hty ht
      | spread _ _ _ _ _ _ hn => omega
      | @char pre hh y prev id ref c _ _ hy _ hdt =>
        obtain ⟨y, rfl⟩ : ∃ z, y = [z] := List.length_eq_one_iff.1 (hx y rfl)
        have hyq := cpText_one hy
        unfold reopen at e3
        rw [hdt] at e3
        simp only [List.reverse_append, List.reverse_cons, List.reverse_nil, List.nil_append, List.cons_append,
          List.append_assoc] at e3
        simp only [popChar, if_neg hyq, if_true, Out.bind, show ¬ (8 = 0) by decide, if_false] at e3
        injection e3 with e3
        rw [← e3]
        rw [hdt] at h
        have h1 : Whole (pre ++ hh ++ [32]) := by
          have : Whole ((pre ++ hh ++ [32]) ++ 39 :: ([y] ++ [39])) := by simpa using h
          exact whole_left (by decide) this
        have hy1 : y.toNat < 128 := by
          cases hy with
          | char h _ =>
            cases h with
            | one _ h => exact h
        have := whole_append h1 (whole_ascii (s := [40, 39, y]) (ascii_cons (by decide) (ascii_cons (by decide)
          (ascii_cons hy1 ascii_nil))))
        simpa using this
    · injection e3 with e3
      rw [← e3]; exact h
  · injection e1 with e1
    rw [← e1]; exact h

theorem whole_all {f : Atom → Out (List Byte)} : ∀ {as : List Atom} {d : List Byte},
    (∀ a ∈ as, ∀ t, f a = .ok t → Whole t) → writeAll f as = .ok d → Whole d := by
  intro as
  induction as with
  | nil =>
    intro d _ e
    injection e with e
    rw [← e]; exact whole_nil
  | cons a as ih =>
    intro d h e
    rw [writeAll] at e
    obtain ⟨t, e1, e⟩ := Cursor.bind_ok e
    obtain ⟨ds, e2, e⟩ := Cursor.bind_ok e
    injection e with e
    rw [← e]
    exact whole_append (h a (by simp) t e1) (ih (fun x hx => h x (by simp [hx])) e2)

theorem whole_quoted {t : List Byte} (h : Whole t) : Whole (32 :: 39 :: (t ++ [39])) := by
  have := whole_append (whole_ascii (s := [32, 39]) (by intro c hc; revert c hc; decide)) (whole_append h
    (whole_ascii (s := [39]) (by intro c hc; revert c hc; decide)))
  simpa using this

theorem whole_flatMap : ∀ {cps : List Nat}, (∀ c ∈ cps, c < 2 ^ 21) → Whole (cps.flatMap utf8escAppend) := by
  intro cps
  induction cps with
  | nil => intro _; exact whole_nil
  | cons c cs ih =>
    intro h
    rw [List.flatMap_cons]
    exact whole_append (whole_esc (h c (by simp))) (ih fun d hd => h d (by simp [hd]))

/-- The values of an `Op`. -/
theorem op_whole {fmt : Word → List Byte} {id ref : Uuid} {gs : List Arg} (h : Spec.OpOk fmt id ref gs) {o : Op}
    (ho : Op.mk' id ref gs = .ok o) : WholeVals (writeValue fmt o.src) o.src := by
  obtain ⟨o', as, t, e1, e2, e3, e4⟩ := writeAtoms_ok (o := ⟨[id, ref], []⟩) h.argsOk (by simpa using h.size)
  unfold Op.mk' at ho
  rw [e1] at ho
  injection ho with ho
  subst ho
  intro id' ref' vals d hop hd
  have hv : vals = as := by
    rw [show o'.src.op = o'.atoms from rfl, e2] at hop
    simp at hop
    exact hop.2.2.symm
  subst hv
  refine whole_all ?_ hd
  have hargs := h.argsOk
  clear h e1 e2 hd hop
  induction e4 with
  | nil => intro a ha; simp at ha
  | @cons a g as gs ha _ ih =>
    intro b hb
    rcases List.mem_cons.1 hb with rfl | hb
    · have hg := hargs g (by simp)
      intro t ht
      unfold writeValue at ht
      cases g with
      | int i =>
        have hty : Atom.type b = Atom.tINT := by rw [show b = Atom.integer i from ha]; exact type_integer i
        rw [if_pos hty] at ht
        obtain ⟨d, d1, d2⟩ := Cursor.bind_ok ht
        injection d2 with d2
        rw [← d2]
        cases hw : writeInt b.value.toInt with
        | none => rw [hw] at d1; cases d1
        | some x =>
          rw [hw] at d1
          injection d1 with d1
          subst d1
          exact whole_ascii (ascii_cons (by decide) (ascii_writeInt hw))
      | uuid u =>
        have ha : b = u := ha
        have hty : Atom.type b = Atom.tUUID := by rw [ha]; exact type_plain62 hg.1
        rw [if_neg (by rw [hty]; decide), if_pos hty] at ht
        injection ht with ht
        rw [← ht]
        refine whole_ascii (ascii_cons (by decide) (ascii_append ?_ ?_))
        · split
          · exact ascii_cons (by decide) ascii_nil
          · exact ascii_nil
        · rw [ha]; exact ascii_uuid (uuidLit_str hg.1)
      | float w =>
        have ha : b = floatAtom w := ha
        have hty : Atom.type b = Atom.tFLOAT := by rw [ha]; exact type_float w
        rw [if_neg (by rw [hty]; decide), if_neg (by rw [hty]; decide), if_neg (by rw [hty]; decide), ha] at ht
        injection ht with ht
        rw [← ht]
        exact whole_ascii (ascii_cons (by decide) (ascii_float hg.1.1))
      | str s =>
        obtain ⟨cps, rfl, hc, h⟩ := ha
        have hty : Atom.type b = Atom.tSTRING := by
          rcases h with ⟨-, h, -⟩ | ⟨_, _, -, h⟩
          · exact h
          · exact h.type
        have hw : writeCps o'.src.nextCp (Atom.cpSize b + 2) b = .ok (cps.flatMap utf8escAppend) := by
          rcases h with ⟨rfl, -, h2, h3⟩ | ⟨c, rest, rfl, h⟩
          · rw [writeCps, if_pos h2]; rfl
          · exact writeCps_at o' h (by have := (hc c (by simp)).1; omega)
              (fun d hd => ⟨by have := (hc d (by simp [hd])).1; omega, by have := (hc d (by simp [hd])).2.1; omega⟩)
              (by rw [h.size]; exact Nat.le_refl _)
        rw [if_neg (by rw [hty]; decide), if_neg (by rw [hty]; decide), if_pos hty, hw, obind] at ht
        injection ht with ht
        rw [← ht]
        exact whole_quoted (whole_flatMap fun c h => (hc c h).2.1)
    · exact ih (fun x hx => hargs x (by simp [hx])) b hb

end Builder
end Ron
