import Verif.Lemmas.BuilderRun
/-!
Copying a frame op by op.
-/
namespace Ron
open Spec

/-! ### no overlong characters -/

theorem Spec.NoOverlong.tail {a : Byte} {l : List Byte} (h : NoOverlong (a :: l)) : NoOverlong l := by
  cases l with
  | nil => exact trivial
  | cons b l => exact h.2.2.2.2

theorem Spec.NoOverlong.drop {l : List Byte} (h : NoOverlong l) : ∀ n, NoOverlong (l.drop n) := by
  intro n
  induction n generalizing l with
  | zero => exact h
  | succ n ih =>
    cases l with
    | nil => exact h
    | cons a l => exact ih h.tail

theorem Spec.NoOverlong.take {l : List Byte} (h : NoOverlong l) : ∀ n, NoOverlong (l.take n) := by
  intro n
  induction n generalizing l with
  | zero => exact trivial
  | succ n ih =>
    cases l with
    | nil => exact h
    | cons a l =>
      have := ih h.tail
      cases n with
      | zero =>
        cases l with
        | nil => exact h
        | cons b l => exact ⟨h.1, h.2.1⟩
      | succ n =>
        cases l with
        | nil => exact h
        | cons b l => exact ⟨h.1, h.2.1, h.2.2.1, h.2.2.2.1, this⟩

theorem cpText_short {s : List Byte} {c : Nat} (h : CpText s (c, false)) (hn : NoOverlong s) (h0 : c < 128)
    (h1 : c ∉ [34, 39, 47, 92, 8, 10, 13, 9]) : s.length = 1 := by
  generalize hx : (c, false) = x at h
  cases h with
  | char h hp =>
    injection hx with hx
    subst hx
    cases h with
    | one a h => rfl
    | two a b ha hb =>
      have := hn.1
      have := hn.2.1
      omega
    | three a b d ha hb hd =>
      have := hn.2.2.1
      omega
    | four a b d e ha hb hd he =>
      have := hn.2.2.2.1
      omega
  | esc e v h =>
    injection hx with hx
    subst hx
    exfalso
    have : ∀ x ∈ escapes, x.2 ∈ [34, 39, 47, 92, 8, 10, 13, 9] := by decide
    exact h1 (this _ h)
  | uni => injection hx with _ hx; simp at hx

attribute [local irreducible] Atom.type Atom.rBegin Atom.rEnd Atom.cp Atom.cpSize Atom.setCp
  Atom.setCpSize Atom.consume Atom.ofRange Atom.rawValid Uuid.inc

namespace Builder
open Op TextParser

/-! ### values -/

theorem plain62_type {u : Uuid} (h : Atom.type u = Atom.tUUID) : Plain62 u := by
  unfold Atom.type Atom.tUUID at h
  unfold Plain62
  omega

/-- How an atom presents one character. -/
structure OneChar (cur : Cursor) (a : Atom) (t : List Byte) (c : Nat) (x : List Byte) : Prop where
  char : t = utf8append c
  ok : CpOk c
  text : CpText x (c, false)
  value : copyValue cur a = .ok (32 :: 39 :: (x ++ [39]))
  next : ∃ r, (if Atom.cp a = 0 then cur.src.nextCp a else .ok (a, true)) = .ok r ∧ Atom.cp r.1 = c
  short : copyHeadOk [.text t] = true → x.length = 1

theorem copyHead_char {c : Nat} (h : copyHeadOk [.text (utf8append c)] = true) :
    c < 128 ∧ c ∉ [34, 39, 47, 92, 8, 10, 13, 9] ∧ (utf8escAppend c).length = 1 := by
  by_cases h8 : c < 128
  · have key : ∀ c : Fin 128, copyHeadOk [.text (utf8append c.val)] = true →
        c.val ∉ [34, 39, 47, 92, 8, 10, 13, 9] ∧ (utf8escAppend c.val).length = 1 := by decide +kernel
    exact ⟨h8, key ⟨c, h8⟩ h⟩
  · exfalso
    have hl : (utf8append c).length ≠ 1 := by
      unfold utf8append
      rw [if_neg h8]
      split
      · simp
      · split <;> simp
    unfold copyHeadOk headOk at h
    rw [Bool.and_eq_true] at h
    have h := h.1
    split at h
    · rename_i heq
      simp at heq
      rw [heq] at hl
      exact hl rfl
    · simp at h
    · rename_i n1 n2; exact n2 _ rfl

theorem utf8_ne {c k : Nat} (hk : k < 128) (h : utf8append c ≠ [toChar k]) : c ≠ k := by
  rintro rfl
  apply h
  unfold utf8append
  rw [if_pos hk]

/-- A value of a cursor is written as a text of it. -/
theorem copyValue_ok {buf : List Byte} (hn : buf.length < 2 ^ 30) (hu : NoOverlong buf) {cur : Cursor} (hb : cur.buf = buf)
    {a : Atom} {v : View} (h : RawOrChar buf a v) (hv : CopyOk v) :
    ∃ b t, copyValue cur a = .ok (32 :: t) ∧ AtomText b t v ∧
      ∀ s, v = .text s → Atom.type a = Atom.tSTRING ∧ stringSize (cur.src.atom2 a) = chars s ∧
        (chars s = 1 → ∃ c x, OneChar cur a s c x) := by
  subst hb
  rcases h with h | ⟨rfl, ht, h0, hlt⟩
  · cases v with
    | int i =>
      obtain ⟨ht, w, hd, hw⟩ := h
      refine ⟨true, w, ?_, .int hw, by rintro s ⟨⟩⟩
      unfold copyValue
      rw [if_neg (by rw [ht]; decide), if_neg (by rw [ht]; decide), hd, obind]
    | float w =>
      obtain ⟨ht, hd, hw⟩ := h
      refine ⟨true, w, ?_, .float hw hv, by rintro s ⟨⟩⟩
      unfold copyValue
      rw [if_neg (by rw [ht]; decide), if_neg (by rw [ht]; decide), hd, obind]
    | uuid u =>
      obtain ⟨rfl, ht⟩ := h
      unfold copyValue
      rw [if_pos ht]
      have hp := uuidLit_str (plain62_type ht)
      cases hm : Uuid.isAmbiguous a with
      | true =>
        exact ⟨false, 62 :: Uuid.str a, rfl, .quuid (w := []) (by intro c hc; simp at hc) hp, by rintro s ⟨⟩⟩
      | false => exact ⟨true, Uuid.str a, rfl, .uuid hp (not_digits hm) hv, by rintro s ⟨⟩⟩
    | text t =>
      obtain ⟨h0, s, xs, hs, rfl, ha⟩ := h
      have ht := ha.type
      have hd : atomData cur.buf a = .ok s := by
        rw [Cursor.atomData_ok ha.le ha.inside, ha.text]
      have hval : copyValue cur a = .ok (32 :: 39 :: (s ++ [39])) := by
        unfold copyValue
        rw [if_neg (by rw [ht]; decide), if_pos ht, if_neg (by simp [h0]), hd, obind]
      refine ⟨false, 39 :: (s ++ [39]), hval, .str hs, ?_⟩
      intro t e
      injection e with e
      subst e
      have hch : chars ((asRead xs).flatMap utf8append) = xs.length := by
        rw [chars_flatMap (asRead_lt hs), asRead_length]
      refine ⟨ht, ?_, ?_⟩
      · rw [hch]
        have : cur.src.atom2 a = a := by
          show (if Atom.cp a ≠ 0 then _ else a) = a
          rw [if_neg (by simp [h0])]
        rw [this]
        unfold stringSize
        rw [if_pos h0, ha.size]
      · intro h1
        rw [hch] at h1
        obtain ⟨x, rfl⟩ := List.length_eq_one_iff.1 h1
        cases hs with
        | @cons c s' _ _ hc hs =>
          cases hs
          rw [List.append_nil] at *
          have h2 : x.2 = false := by
            cases hx : x.2 with
            | false => rfl
            | true =>
              exfalso
              apply hv.1
              simp only [asRead, hx, if_true]
              decide
          have hr : asRead [x] = [x.1] := by simp [asRead, h2]
          have hx : x = (x.1, false) := by rw [← h2]
          simp only [hr, List.flatMap_cons, List.flatMap_nil, List.append_nil] at *
          have hl := cpText_lt hc
          have hcp : CpOk x.1 := ⟨by
            have := utf8_ne (k := 0) (by decide) hv.1
            omega, hl, utf8_ne (k := 12) (by decide) hv.2⟩
          obtain ⟨a', f1, f2, f3⟩ := nextCodepoint_str (s := []) hn hc .nil (by rw [List.append_nil]; exact ha)
          refine ⟨x.1, c, rfl, hcp, by rw [← hx]; exact hc, hval, ⟨(a', true), ?_, ?_⟩, ?_⟩
          · rw [if_pos h0]; exact f1
          · simp only [f3, h2]; simp
          · intro hh
            obtain ⟨k1, k2, -⟩ := copyHead_char hh
            refine cpText_short (by rw [← hx]; exact hc) ?_ k1 k2
            rw [← ha.text]
            unfold slice
            exact (hu.drop _).take _
  · have hval : copyValue cur a = .ok (32 :: 39 :: (utf8escAppend (Atom.cp a) ++ [39])) := by
      unfold copyValue
      rw [if_neg (by rw [ht]; decide), if_pos ht, if_pos h0]
    have hok : CpOk (Atom.cp a) := ⟨by omega, hlt, utf8_ne (k := 12) (by decide) hv.2⟩
    have hch : chars (utf8append (Atom.cp a)) = 1 := by
      simpa using chars_flatMap (cps := [Atom.cp a]) (by simpa using hlt)
    refine ⟨false, _, hval, ?_, ?_⟩
    · have := AtomText.str (strText_esc (cps := [Atom.cp a]) (by simpa using hok))
      rw [asRead_false] at this
      simpa using this
    · intro s e
      injection e with e
      subst e
      refine ⟨ht, ?_, fun _ => ⟨Atom.cp a, utf8escAppend (Atom.cp a), rfl, hok, cpText_esc hok, hval, ⟨(a, true), ?_, rfl⟩, ?_⟩⟩
      · rw [hch]
        have e1 : cur.src.atom2 a = ⟨BitVec.ofNat 64 (Atom.cp a), BitVec.ofNat 64 (2 * 2 ^ 62)⟩ := by
          show (if Atom.cp a ≠ 0 then _ else a) = _
          rw [if_pos h0]
        rw [e1]
        have hc : Atom.cp ⟨BitVec.ofNat 64 (Atom.cp a), BitVec.ofNat 64 (2 * 2 ^ 62)⟩ = Atom.cp a ∧
            Atom.cpSize ⟨BitVec.ofNat 64 (Atom.cp a), BitVec.ofNat 64 (2 * 2 ^ 62)⟩ = 0 := by
          generalize Atom.cp a = c at hlt
          unfold Atom.cp Atom.cpSize
          simp only [BitVec.toNat_ofNat]
          omega
        unfold stringSize
        rw [if_neg (by rw [hc.1]; exact h0), hc.2]
      · rw [if_neg h0]
      · intro hh; exact (copyHead_char hh).2.2

theorem copyAll_ok {buf : List Byte} (hn : buf.length < 2 ^ 30) (hu : NoOverlong buf) {cur : Cursor} (hb : cur.buf = buf)
    {as : List Atom} {vs : List View} (h : Same2 (RawOrChar buf) as vs) (hv : ∀ v ∈ vs, CopyOk v) :
    ∃ d, writeAll (copyValue cur) as = .ok d ∧ AtomsText d vs := by
  induction h with
  | nil => exact ⟨[], rfl, .nil⟩
  | cons h _ ih =>
    obtain ⟨d, e1, e2⟩ := ih fun x hx => hv x (by simp [hx])
    obtain ⟨b, t, f1, f2, -⟩ := copyValue_ok hn hu hb h (hv _ (by simp))
    refine ⟨32 :: t ++ d, ?_, ?_⟩
    · rw [writeAll, f1, obind, e1, obind]
    · have := AtomsText.cons blank_sp (by simp) f2 e2
      simpa using this

theorem sig_cursor {buf : List Byte} (hn : buf.length < 2 ^ 30) (hu : NoOverlong buf) {cur : Cursor} (hb : cur.buf = buf)
    {id ref : Uuid} {as : List Atom} {vs : List View} (hop : cur.op = id :: ref :: as)
    (h : Same2 (RawOrChar buf) as vs) (hv : ∀ v ∈ vs, CopyOk v) :
    spanSignature cur.src = sig vs := by
  have hop : cur.src.op = id :: ref :: as := hop
  unfold spanSignature
  rw [hop]
  cases h with
  | nil => rfl
  | @cons a v as vs h hr =>
    cases hr with
    | cons h2 hr => simp [sig]
    | nil =>
      simp only
      have hv := hv v (by simp)
      cases v with
      | int i =>
        rcases h with h | ⟨h, -⟩
        · rw [if_neg (by rw [h.1]; decide), if_neg (by rw [h.1]; decide)]
          rfl
        · simp at h
      | float w =>
        rcases h with h | ⟨h, -⟩
        · rw [if_neg (by rw [h.1]; decide), if_neg (by rw [h.1]; decide)]
          rfl
        · simp at h
      | uuid u =>
        rcases h with h | ⟨h, -⟩
        · rw [if_pos h.2, h.1]
          rfl
        · simp at h
      | text t =>
        obtain ⟨b, t', -, -, f⟩ := copyValue_ok hn hu hb h hv
        obtain ⟨f1, f2, -⟩ := f t rfl
        rw [if_neg (by rw [f1]; decide), if_pos f1, f2]
        rfl

/-- A cursor as a source of the builder. -/
theorem shown_cursor {buf : List Byte} (hn : buf.length < 2 ^ 30) (hu : NoOverlong buf) {cur : Cursor}
    {t : Nat} {o : OpView} (h : Holds buf cur (t, o)) (hv : ∀ v ∈ o.vals, CopyOk v) :
    ∃ x, Shown (copyValue cur) cur.src o x ∧
      ((∃ t, o.vals = [.text t]) → copyHeadOk o.vals = true → x.length = 1) := by
  obtain ⟨hb, -, -, ⟨as, hop, hs⟩, hi, hr⟩ := h
  simp only at hop hs hi hr
  obtain ⟨d, d1, d2⟩ := copyAll_ok hn hu hb hs hv
  have hsig := sig_cursor hn hu hb hop hs hv
  have hvt : ∀ u, o.vals = [.uuid u] → Atom.type u = Atom.tUUID := by
    intro u hu
    rw [hu] at hs
    cases hs with
    | cons h _ =>
      rcases h with h | ⟨h, -⟩
      · rw [← h.1]; exact h.2
      · simp at h
  have i1 := uuidLit_str (plain62_type hi)
  have i2 := uuidLit_str (plain62_type hr)
  by_cases hx : ∃ s, o.vals = [.text s] ∧ chars s = 1
  · obtain ⟨s, e, hs1⟩ := hx
    rw [e] at hs
    cases hs with
    | @cons a _ as _ ha hr' =>
      cases hr'
      obtain ⟨b, t', f0, -, f⟩ := copyValue_ok hn hu hb ha (hv _ (by rw [e]; simp))
      obtain ⟨c, x, hc⟩ := (f s rfl).2.2 hs1
      have hd : d = 32 :: 39 :: (x ++ [39]) := by
        simp only [writeAll, hc.value, obind] at d1
        injection d1 with d1
        rw [← d1]; simp
      refine ⟨x, ⟨⟨[a], d, hop, d1, d2, ?_⟩, hsig, i1, i2, hvt⟩, ?_⟩
      · intro t ht _
        rw [e] at ht
        simp at ht
        obtain ⟨r, r1, r2⟩ := hc.next
        exact ⟨c, by rw [← ht]; exact hc.char, hc.text, cpText_esc hc.ok, by have := hc.ok.1; omega, hd,
          a, r, rfl, r1, r2⟩
      · intro _ hh
        rw [e] at hh
        exact hc.short hh
  · refine ⟨[], ⟨⟨as, d, hop, d1, d2, ?_⟩, hsig, i1, i2, hvt⟩, ?_⟩
    · intro t ht h1
      exact absurd ⟨t, ht, h1⟩ hx
    · rintro ⟨t, ht⟩ hh
      exfalso
      apply hx
      refine ⟨t, ht, ?_⟩
      rw [ht] at hh
      unfold copyHeadOk headOk at hh
      rw [Bool.and_eq_true] at hh
      have hh := hh.1
      split at hh
      · rename_i c heq
        simp only [List.cons.injEq, View.text.injEq, and_true] at heq
        rw [heq]
        simp only [Bool.and_eq_true, Nat.ble_eq] at hh
        have : Nat.ble 128 c.toNat = false := by
          rw [Bool.eq_false_iff]; intro h; rw [Nat.ble_eq] at h; omega
        simp [chars, this]
      · simp at hh
      · rename_i n1 n2; exact absurd rfl (n2 _)

/-- The values of a cursor are copied with no code points longer than they need to be. -/
theorem cursor_whole {buf : List Byte} (hu : NoOverlong buf) {cur : Cursor} {t : Nat} {o : OpView}
    (h : Holds buf cur (t, o)) : WholeVals (copyValue cur) cur.src := by
  obtain ⟨hb, -, -, ⟨as, hop, hs⟩, hi, hr⟩ := h
  simp only at hop hs
  subst hb
  intro id ref vals d ho hd
  rw [show cur.src.op = cur.op from rfl, hop] at ho
  injection ho with _ ho
  injection ho with _ ho
  subst ho
  refine whole_all ?_ hd
  clear hd hop
  generalize o.vals = vs at hs
  induction hs with
  | nil => intro a ha; simp at ha
  | @cons a v as vs ha _ ih =>
    intro b hb
    rcases List.mem_cons.1 hb with rfl | hb
    · intro t ht
      unfold copyValue at ht
      rcases ha with ha | ⟨-, hty, h0, hlt⟩
      · cases v with
        | int i =>
          obtain ⟨hty, w, hd, hw⟩ := ha
          rw [if_neg (by rw [hty]; decide), if_neg (by rw [hty]; decide), hd, obind] at ht
          injection ht with ht
          rw [← ht]
          exact whole_ascii (ascii_cons (by decide) (ascii_int hw.1))
        | float w =>
          obtain ⟨hty, hd, hw⟩ := ha
          rw [if_neg (by rw [hty]; decide), if_neg (by rw [hty]; decide), hd, obind] at ht
          injection ht with ht
          rw [← ht]
          exact whole_ascii (ascii_cons (by decide) (ascii_float hw.1))
        | uuid u =>
          obtain ⟨rfl, hty⟩ := ha
          rw [if_pos hty] at ht
          injection ht with ht
          rw [← ht]
          refine whole_ascii (ascii_cons (by decide) (ascii_append ?_ (ascii_uuid (uuidLit_str (plain62_type hty)))))
          split
          · exact ascii_cons (by decide) ascii_nil
          · exact ascii_nil
        | text w =>
          obtain ⟨h0, s, xs, hs, rfl, ha⟩ := ha
          have hty := ha.type
          have hd : atomData cur.buf b = .ok s := by
            rw [Cursor.atomData_ok ha.le ha.inside, ha.text]
          rw [if_neg (by rw [hty]; decide), if_pos hty, if_neg (by simp [h0]), hd, obind] at ht
          injection ht with ht
          rw [← ht]
          refine whole_quoted (whole_str hs ?_)
          rw [← ha.text]
          unfold slice
          exact (hu.drop _).take _
      · rw [if_neg (by rw [hty]; decide), if_pos hty, if_pos h0] at ht
        injection ht with ht
        rw [← ht]
        exact whole_quoted (whole_esc hlt)
    · exact ih b hb

/-! ### the loop -/

/-- A cursor that cannot go on is not valid. -/
theorem next_invalid {c c' : Cursor} {st : Cursor.NextStatus} (h : c.next = .ok (c', st)) (hs : st ≠ .ok) :
    c'.cs = 0 := by
  have hfin : ∀ cs r, Cursor.finish c cs r = .ok (c', st) → c'.cs = 0 := by
    intro cs r h
    unfold Cursor.finish at h
    simp only at h
    split at h
    · cases hc : Cursor.chr2term r.term with
      | ok t =>
        rw [hc, obind] at h
        injection h with h
        injection h with h1 h2
        exact absurd h2.symm hs
      | abort => rw [hc] at h; simp [Out.bind] at h
      | ub => rw [hc] at h; simp [Out.bind] at h
    · split at h
      · injection h with h
        injection h with h1 h2
        rw [← h1]
      · split at h
        · injection h with h
          injection h with h1 h2
          rw [← h1]
        · simp at h
  have hpf : ∀ s, Cursor.parseFrom c s = .ok (c', st) → c'.cs = 0 := by
    intro s h
    unfold Cursor.parseFrom at h
    split at h
    · injection h with h
      injection h with h1 h2
      rw [← h1]
    · cases hr : TextParser.run c.buf (c.buf.drop c.beg) s (Cursor.startRegs c) with
      | ok sr =>
        rw [hr, obind] at h
        exact hfin _ _ h
      | abort => rw [hr] at h; simp [Out.bind] at h
      | ub => rw [hr] at h; simp [Out.bind] at h
  unfold Cursor.next at h
  split at h
  · exfalso
    split at h
    · simp only at h
      split at h
      · simp at h
      · split at h
        · rename_i l _ _
          cases hc : Ron.nextCodepoint c.buf l with
          | ok a =>
            rw [hc, obind] at h
            injection h with h
            injection h with h1 h2
            exact hs h2.symm
          | abort => rw [hc] at h; simp [Out.bind] at h
          | ub => rw [hc] at h; simp [Out.bind] at h
        · injection h with h
          injection h with h1 h2
          exact hs h2.symm
    · simp at h
  · split at h
    · rename_i h0
      split at h
      · injection h with h
        injection h with h1 h2
        rw [← h1]; exact h0
      · exact hpf _ h
    · split at h
      · injection h with h
        injection h with h1 h2
        rw [← h1]
      · exact hpf _ h

/-- The work of `AppendAll`. -/
def copyWorks : List Cursor → List Work
  | [] => []
  | c :: l =>
    if c.term = 1 then .op (copyValue c) c.src :: copyWorks l
    else .op (copyValue c) c.src :: .endChunk c.term :: copyWorks l

theorem appendAll_work {c : Cursor} {m : List Cursor} {st : Cursor.NextStatus} (h : Chains.Trail c m st) :
    ∀ {b b' : Builder}, (∀ x ∈ c :: m, x.cs ≠ 0) → doWork (copyWorks (c :: m)) b = .ok b' →
    appendAll (m.length + 2) b c = .ok (some b') := by
  have step : ∀ {c : Cursor} {l : List Cursor} {b b' : Builder}, doWork (copyWorks (c :: l)) b = .ok b' →
      ∃ b1, doWork (copyWorks l) b1 = .ok b' ∧ ∀ n, c.cs ≠ 0 →
        appendAll (n + 1) b c = c.next.bind fun r => appendAll n b1 r.1 := by
    intro c l b b' h
    unfold copyWorks at h
    split at h
    · rename_i ht
      rw [doWork] at h
      cases ha : appendSrc (copyValue c) b c.src with
      | ok b1 =>
        rw [ha, obind] at h
        refine ⟨b1, h, fun n hc => ?_⟩
        rw [appendAll, if_neg hc, show b.appendCursor c = .ok b1 from ha, obind, if_neg (by simp [ht]), obind]
      | abort => rw [ha] at h; simp [Out.bind] at h
      | ub => rw [ha] at h; simp [Out.bind] at h
    · rename_i ht
      rw [doWork] at h
      cases ha : appendSrc (copyValue c) b c.src with
      | ok b1 =>
        rw [ha, obind, doWork] at h
        cases he : b1.endChunk c.term with
        | ok b2 =>
          rw [he, obind] at h
          refine ⟨b2, h, fun n hc => ?_⟩
          rw [appendAll, if_neg hc, show b.appendCursor c = .ok b1 from ha, obind, if_pos ht, he, obind]
        | abort => rw [he] at h; simp [Out.bind] at h
        | ub => rw [he] at h; simp [Out.bind] at h
      | abort => rw [ha] at h; simp [Out.bind] at h
      | ub => rw [ha] at h; simp [Out.bind] at h
  induction h with
  | @stop c c' st hn hs =>
    intro b b' hv hw
    obtain ⟨b1, h1, h2⟩ := step hw
    rw [List.length_nil, h2 1 (hv c (by simp)), hn, obind, appendAll, if_pos (next_invalid hn hs)]
    simp only [copyWorks, doWork] at h1
    injection h1 with h1
    rw [h1]
  | @more c c' l st hn _ ih =>
    intro b b' hv hw
    obtain ⟨b1, h1, h2⟩ := step hw
    rw [List.length_cons, h2 _ (hv c (by simp)), hn, obind]
    exact ih (fun x hx => hv x (List.mem_cons_of_mem _ hx)) h1

theorem appendAll_mono : ∀ {n : Nat} {b b' : Builder} {c : Cursor}, appendAll n b c = .ok (some b') →
    ∀ k, appendAll (n + k) b c = .ok (some b') := by
  intro n
  induction n with
  | zero => intro b b' c h; simp [appendAll] at h
  | succ n ih =>
    intro b b' c h k
    rw [show n + 1 + k = n + k + 1 by omega]
    rw [appendAll] at h ⊢
    split
    · rename_i h0; rwa [if_pos h0] at h
    · rename_i h0
      rw [if_neg h0] at h
      obtain ⟨b1, e1, h⟩ := Cursor.bind_ok h
      obtain ⟨b2, e2, h⟩ := Cursor.bind_ok h
      obtain ⟨r, e3, h⟩ := Cursor.bind_ok h
      rw [e1, Op.obind, e2, Op.obind, e3, Op.obind]
      exact ih h k

theorem copy_fits {buf : List Byte} (hn : buf.length < 2 ^ 30) (hu : NoOverlong buf) {m : List Cursor}
    {l : List (Nat × OpView)} (h : Same2 (Holds buf) m l) (hv : ∀ x ∈ l, ∀ v ∈ x.2.vals, CopyOk v) :
    Same2 (Fits copyHeadOk) (copyWorks m) (copySteps l) ∧ ∀ x ∈ m, x.cs ≠ 0 := by
  induction h with
  | nil => exact ⟨.nil, by simp⟩
  | @cons c x m l h _ ih =>
    obtain ⟨i1, i2⟩ := ih fun y hy => hv y (by simp [hy])
    obtain ⟨t, o⟩ := x
    obtain ⟨y, s1, s2⟩ := shown_cursor hn hu h (hv (t, o) (by simp))
    have hf : Fits copyHeadOk (.op (copyValue c) c.src) (.op o) := .op s1 s2
    have htm : c.term = t := h.term
    refine ⟨?_, ?_⟩
    · unfold copyWorks copySteps
      rw [htm]
      split
      · exact .cons hf i1
      · exact .cons hf (.cons (.endChunk t) i1)
    · intro z hz
      rcases List.mem_cons.1 hz with rfl | hz
      · rw [h.cs]; decide
      · exact i2 z hz

theorem copySteps_length : ∀ l : List (Nat × OpView), (copySteps l).length ≤ 2 * l.length
  | [] => by simp [copySteps]
  | (t, o) :: l => by
    have := copySteps_length l
    unfold copySteps
    split <;> simp only [List.length_cons] <;> omega

/-- Copying a frame makes a frame that says what is copied. -/
theorem copy_ok {frame : List Byte} {l : List (Nat × OpView)} (hf : FrameText Uuid.NIL frame l)
    (hn : frame.length < 2 ^ 30) (hu : NoOverlong frame) (hv : ∀ x ∈ l, ∀ v ∈ x.2.vals, CopyOk v)
    (hc : CleanFrom copyHeadOk (copySteps l)) (hl : 2 * l.length < 2 ^ 32) :
    ∃ b text b', appendFrame (l.length + 1) Builder.init frame = .ok (some b) ∧
      release b = .ok (text, b') ∧ FrameText Uuid.NIL text (saidBy (copySteps l)) := by
  obtain ⟨m, h1, -, -, h2⟩ := frame_trail hn hf (cur := Cursor.init frame)
    ⟨rfl, rfl, rfl, .inr ⟨rfl, rfl⟩⟩ Cursor.type_nil rfl
  obtain ⟨k1, k2⟩ := copy_fits hn hu h2 hv
  obtain ⟨b, text, b', f1, f2, f3⟩ := work_ok k1 hc (by have := copySteps_length l; omega)
  refine ⟨b, text, b', ?_, f2, f3⟩
  have hlen : l.length = m.length := by
    have key : ∀ {m : List Cursor} {l : List (Nat × OpView)}, Same2 (Holds frame) m l → l.length = m.length := by
      intro m l h
      induction h with
      | nil => rfl
      | cons _ _ ih => simp [ih]
    exact key h2
  unfold appendFrame
  cases h1 with
  | stop hn hs =>
    rw [hn, obind, if_neg hs]
    simp only [copyWorks, doWork] at f1
    injection f1 with f1
    rw [f1]
  | more hn h1 =>
    rw [hn, obind, if_pos rfl, hlen, List.length_cons]
    exact appendAll_work h1 k2 f1

theorem saidBy_copy : ∀ l : List (Nat × OpView), (saidBy (copySteps l)).map Prod.snd = l.map Prod.snd
  | [] => rfl
  | (t, o) :: l => by
    unfold copySteps
    split
    · rw [saidBy, List.map_cons, saidBy_copy l]; rfl
    · rw [saidBy, saidBy, List.map_cons, saidBy_copy l]; rfl

end Builder
end Ron
