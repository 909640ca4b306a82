import Verif.Spec.TextAtoms
import Verif.Lemmas.TextTable
import Verif.Lemmas.Atom
import Verif.Lemmas.Word
import Verif.Lemmas.Literals
/-!
Invariants of the frame parser (`Cursor.next`): where the marks point in every state of the
automaton, and what holds for the atoms pushed so far.
-/
namespace Ron
open Spec Act

attribute [local irreducible] Atom.type Atom.rBegin Atom.rEnd Atom.cp Atom.cpSize Atom.setCp
  Atom.setCpSize Atom.consume Atom.ofRange Atom.rawValid

/-! ### slices -/

theorem slice_self (buf : List Byte) (m : Nat) : slice buf m m = [] := by simp [slice]

theorem slice_snoc {buf : List Byte} {m p : Nat} {c : Byte} (hm : m ≤ p)
    (hc : buf[p]? = some c) : slice buf m (p + 1) = slice buf m p ++ [c] := by
  unfold slice
  rw [Nat.succ_sub hm, List.take_add_one]
  congr 1
  rw [List.getElem?_drop, show m + (p - m) = p by omega, hc]
  rfl

theorem slice_length {buf : List Byte} {m p : Nat} (hp : p ≤ buf.length) :
    (slice buf m p).length = p - m := by
  unfold slice; rw [List.length_take, List.length_drop]; omega

theorem slice_append {buf : List Byte} {m k p : Nat} (h1 : m ≤ k) (h2 : k ≤ p) :
    slice buf m p = slice buf m k ++ slice buf k p := by
  unfold slice
  rw [show p - m = (k - m) + (p - k) by omega, List.take_add, List.drop_drop,
    show m + (k - m) = k by omega]

theorem drop_eq_slice {buf : List Byte} {m p : Nat} (h : m ≤ p) :
    buf.drop m = slice buf m p ++ buf.drop p := by
  unfold slice
  rw [show buf.drop p = (buf.drop m).drop (p - m) by
    rw [List.drop_drop]; congr 1; omega, List.take_append_drop]

theorem getElem?_of_drop {buf : List Byte} {p : Nat} {c : Byte} {rest : List Byte}
    (h : buf.drop p = c :: rest) : buf[p]? = some c := by
  have := congrArg (·[0]?) h
  simpa using this

theorem drop_succ_of {buf : List Byte} {p : Nat} {c : Byte} {rest : List Byte}
    (h : buf.drop p = c :: rest) : buf.drop (p + 1) = rest := by
  rw [← List.drop_drop, h]; rfl

theorem lt_of_drop {buf : List Byte} {p : Nat} {c : Byte} {rest : List Byte}
    (h : buf.drop p = c :: rest) : p < buf.length := by
  have := congrArg List.length h
  simp at this; omega

/-! ### scanning a quoted string -/

/-- Scanner of `scanQuoted` on a prefix: `some false` in plain text, `some true` right after
a backslash, `none` once the string is over. -/
def scanStep (st : Option Bool) (c : Byte) : Option Bool :=
  match st with
  | none => none
  | some true => if c.toNat = 10 ∨ c.toNat = 13 then none else some false
  | some false =>
    if c.toNat = 39 ∨ c.toNat = 10 ∨ c.toNat = 13 then none
    else if c.toNat = 92 then some true else some false

def scanSt (w : List Byte) : Option Bool := w.foldl scanStep (some false)

theorem scanSt_snoc (w : List Byte) (c : Byte) : scanSt (w ++ [c]) = scanStep (scanSt w) c := by
  simp [scanSt]

theorem scanStep_none (w : List Byte) : w.foldl scanStep none = none := by
  induction w with
  | nil => rfl
  | cons c w ih => simpa [scanStep] using ih

/-- A prefix that leaves the scanner in plain text is skipped by `scanQuoted`. -/
theorem scanQuoted_pre (w : List Byte) (rest : List Byte) (h : scanSt w = some false) :
    scanQuoted (w ++ rest) = (scanQuoted rest).map fun r => (w ++ r.1, r.2) := by
  match w with
  | [] => simp [Option.map]; split <;> simp_all
  | [c] =>
    simp only [scanSt, List.foldl_cons, List.foldl_nil, scanStep] at h
    split at h
    · exact absurd h (by simp)
    · split at h
      · exact absurd h (by simp)
      · rw [List.singleton_append, scanQuoted.eq_def]
        simp_all
  | c :: d :: w' =>
    rw [scanSt, List.foldl_cons] at h
    by_cases h1 : c.toNat = 39 ∨ c.toNat = 10 ∨ c.toNat = 13
    · rw [show scanStep (some false) c = none by simp [scanStep, h1], scanStep_none] at h
      exact absurd h (by simp)
    · by_cases h2 : c.toNat = 92
      · rw [show scanStep (some false) c = some true by simp [scanStep, h2],
          List.foldl_cons] at h
        by_cases h3 : d.toNat = 10 ∨ d.toNat = 13
        · rw [show scanStep (some true) d = none by simp [scanStep, h3], scanStep_none] at h
          exact absurd h (by simp)
        · rw [show scanStep (some true) d = some false by simp [scanStep, h3]] at h
          have ih := scanQuoted_pre w' rest h
          rw [show c :: d :: w' ++ rest = c :: d :: (w' ++ rest) from rfl, scanQuoted.eq_def]
          simp only [h2, h3, if_true, if_false]
          rw [ih]
          simp [Option.map_map, Function.comp_def]
      · rw [show scanStep (some false) c = some false by simp [scanStep, h1, h2]] at h
        have ih := scanQuoted_pre (d :: w') rest h
        rw [show c :: d :: w' ++ rest = c :: ((d :: w') ++ rest) from rfl, scanQuoted.eq_def]
        simp only [h2, if_false]
        rw [if_neg (by omega), if_neg (by omega), ih]
        simp [Option.map_map, Function.comp_def]

theorem scanQuoted_close (w rest : List Byte) (h : scanSt w = some false) :
    scanQuoted (w ++ ch '\'' :: rest) = some (w, rest) := by
  rw [scanQuoted_pre w _ h, scanQuoted.eq_def]
  simp [show (ch '\'').toNat = 39 from rfl]

/-! ### integer literals, byte by byte -/

theorem IntText.snoc {w : List Byte} {v : Int} (h : IntText w v) {c : Byte} (hc : IsDigit c) :
    ∃ v', IntText (w ++ [c]) v' := by
  have mem : ∀ s : List Byte, (∀ c ∈ s, IsDigit c) → ∀ x ∈ s ++ [c], IsDigit x := by
    intro s hs x hx
    rw [List.mem_append, List.mem_singleton] at hx
    rcases hx with hx | rfl
    · exact hs x hx
    · exact hc
  cases h with
  | plain s hn hd => exact ⟨_, IntText.plain _ (by simp) (mem _ hd)⟩
  | plus x s hx hn hd =>
    exact ⟨_, IntText.plus x (s ++ [c]) hx (by simp) (mem s hd)⟩
  | minus x s hx hn hd =>
    exact ⟨_, IntText.minus x (s ++ [c]) hx (by simp) (mem s hd)⟩

theorem IntText.single {c : Byte} (hc : IsDigit c) : ∃ v, IntText [c] v :=
  ⟨_, IntText.plain [c] (by simp) (by simpa using hc)⟩

theorem IntText.signed {x c : Byte} (hx : isSign x = true) (hc : IsDigit c) :
    ∃ v, IntText ([x] ++ [c]) v := by
  unfold isSign at hx
  simp only [Bool.or_eq_true, beq_iff_eq] at hx
  rcases hx with hx | hx
  · exact ⟨_, IntText.minus x [c] hx (by simp) (by simpa using hc)⟩
  · exact ⟨_, IntText.plus x [c] hx (by simp) (by simpa using hc)⟩

/-! ### code points of a string -/

namespace CpParser

/-- States that follow a given number of bytes of a `\uXXXX` escape. -/
def pmin (s : Nat) : Nat :=
  if s = 3 then 1 else if s = 4 then 2 else if s = 5 then 3 else if s = 11 then 4 else 0

def okRow (s : Nat) (r : TRow) : Bool :=
  Nat.ble (pmin r.2.2.2) (pmin s + 1) &&
  (r.2.2.1.all fun a => match a with
    | .string_uesc => Nat.ble 4 (pmin s)
    | .string_cont | .string_lead1 | .string_lead2 | .string_lead3 | .string_lead4
    | .string_esc | .end_cp | .end_cp_brk => true
    | _ => false)

theorem okTable : allRows CpTable.rows 12 okRow = true := by decide +kernel

theorem acts_p (str : List Byte) (c : Byte) (as : List Act) : ∀ (r : Regs),
    (∀ a ∈ as, a = .string_uesc → 4 ≤ r.p) →
    (∀ a ∈ as, a ∈ [Act.string_uesc, .string_cont, .string_lead1, .string_lead2, .string_lead3,
      .string_lead4, .string_esc, .end_cp, .end_cp_brk]) →
    (∃ r', acts str c r as = .cont r' ∧ r'.p = r.p) ∨
    (∃ r', acts str c r as = .brk r' ∧ r'.p = r.p) := by
  induction as with
  | nil => intro r _ _; exact .inl ⟨r, rfl, rfl⟩
  | cons a as ih =>
    intro r h1 h2
    have ha := h2 a (by simp)
    have step : (∃ r', act str c r a = .cont r' ∧ r'.p = r.p) ∨
        (∃ r', act str c r a = .brk r' ∧ r'.p = r.p) := by
      simp only [List.mem_cons, List.not_mem_nil, or_false] at ha
      rcases ha with rfl | rfl | rfl | rfl | rfl | rfl | rfl | rfl | rfl
      · have h4 := h1 _ (by simp) rfl
        exact .inl ⟨{ r with cp := decodeHexCp 0 (slice str (r.p - 4) r.p) },
          by simp only [act]; rw [if_neg (by omega)], rfl⟩
      all_goals first
        | exact .inl ⟨_, rfl, rfl⟩
        | exact .inr ⟨_, rfl, rfl⟩
    rcases step with ⟨r', e, hp⟩ | ⟨r', e, hp⟩
    · rcases ih r' (fun b hb h => hp ▸ h1 b (by simp [hb]) h) (fun b hb => h2 b (by simp [hb]))
        with ⟨r2, e2, hp2⟩ | ⟨r2, e2, hp2⟩
      · left; exact ⟨r2, by simp [acts, e, e2], by omega⟩
      · right; exact ⟨r2, by simp [acts, e, e2], by omega⟩
    · right; exact ⟨r', by simp [acts, e], hp⟩

/-- The code point automaton never reads out of the string and stops inside of it. -/
theorem run_safe (str : List Byte) : ∀ (rest : List Byte) (s : Nat) (r : Regs),
    pmin s ≤ r.p → r.p + rest.length = str.length →
    ∃ s' r', run str rest s r = some (s', r') ∧ r'.p ≤ str.length := by
  intro rest
  induction rest with
  | nil => intro s r _ h; exact ⟨s, r, rfl, by simp at h; omega⟩
  | cons c rest ih =>
    intro s r hp hl
    rw [List.length_cons] at hl
    simp only [run]
    cases hst : stepIn CpTable.rows s c with
    | none => exact ⟨0, r, rfl, by omega⟩
    | some x =>
      obtain ⟨as, t⟩ := x
      obtain ⟨lo, hi, _, _, hrow⟩ := CpTable.step okTable hst
      simp only [okRow, Bool.and_eq_true, Nat.ble_eq, List.all_eq_true] at hrow
      obtain ⟨ht, has⟩ := hrow
      have hh := acts_p str c as r
        (fun a ha e => by have := has a ha; subst e; simp only [Nat.ble_eq] at this; omega)
        (fun a ha => by have := has a ha; cases a <;> simp_all)
      rcases hh with ⟨r', e, hp'⟩ | ⟨r', e, hp'⟩
      · simp only [e]
        exact ih t { r' with p := r'.p + 1 } (by simp only; omega) (by simp only; omega)
      · simp only [e]
        exact ⟨t, r', rfl, by omega⟩

end CpParser

theorem atomData_string {buf : List Byte} {a : Atom} (h1 : Atom.rBegin a ≤ Atom.rEnd a)
    (h2 : Atom.rEnd a ≤ buf.length) :
    atomData buf a = .ok (slice buf (Atom.rBegin a) (Atom.rEnd a)) := by
  unfold atomData; rw [if_neg (by omega), if_neg (by omega)]

/-- Reading a code point of a sound string atom is safe and leaves a sound string atom. -/
theorem nextCodepoint_safe {buf : List Byte} {a : Atom} (hn : buf.length < 2 ^ 30)
    (ht : Atom.type a = Atom.tSTRING) (hok : AtomOk buf a) (hr : Atom.RawOk a) :
    ∃ a' b, nextCodepoint buf a = .ok (a', b) ∧ Atom.type a' = Atom.tSTRING ∧ AtomOk buf a' ∧
      Atom.RawOk a' := by
  obtain ⟨b, hb1, hb2, hbe, hen, hq, hs⟩ := hok.string ht
  have frame : ∀ a' : Atom, Atom.type a' = Atom.tSTRING → Atom.rBegin a ≤ Atom.rBegin a' →
      Atom.rBegin a' ≤ Atom.rEnd a → Atom.rEnd a' = Atom.rEnd a → AtomOk buf a' := by
    intro a' h1 h2 h3 h4
    refine ⟨fun h => ?_, fun h => ?_, fun _ => ?_⟩
    · rw [h1] at h; exact absurd h (by decide)
    · rw [h1] at h; exact absurd h (by decide)
    · exact ⟨b, hb1, by omega, by omega, by omega, hq, by rw [h4]; exact hs⟩
  have hraw : ∀ a' : Atom, a'.origin = a.origin → Atom.RawOk a' := by
    intro a' h; unfold Atom.RawOk; rw [h]; exact hr
  unfold nextCodepoint
  by_cases hz : Atom.cpSize a = 0
  · rw [if_pos hz]
    exact ⟨_, _, rfl, by rw [Atom.type_setCp]; exact ht,
      frame _ (by rw [Atom.type_setCp]; exact ht) (by simp) (by simpa using hbe) (by simp),
      hraw _ (Atom.origin_setCp a 0)⟩
  · rw [if_neg hz, atomData_string hbe (by omega)]
    simp only [Out.bind]
    have hlen := slice_length (buf := buf) (m := Atom.rBegin a) (p := Atom.rEnd a) (by omega)
    obtain ⟨s', r', hrun, hp⟩ := CpParser.run_safe (slice buf (Atom.rBegin a) (Atom.rEnd a))
      (slice buf (Atom.rBegin a) (Atom.rEnd a)) CpTable.start ⟨0, 0⟩ (by decide) (by simp)
    rw [hrun]
    by_cases h0 : s' = 0
    · subst h0
      exact ⟨_, _, rfl, by rw [Atom.type_setCp]; exact ht,
        frame _ (by rw [Atom.type_setCp]; exact ht) (by simp) (by simpa using hbe) (by simp),
        hraw _ (Atom.origin_setCp a 0)⟩
    · obtain ⟨a2, ha2⟩ : ∃ a2, (Atom.setCp a r'.cp).setCpSize (Atom.cpSize a - 1) = a2 := ⟨_, rfl⟩
      have ho : a2.origin = a.origin := by
        rw [← ha2, Atom.origin_setCpSize, Atom.origin_setCp]
      have hb2' : Atom.rBegin a2 = Atom.rBegin a := by rw [← ha2]; simp
      have he2' : Atom.rEnd a2 = Atom.rEnd a := by rw [← ha2]; simp
      have ht2' : Atom.type a2 = Atom.type a := by rw [← ha2]; simp
      have hc := Atom.consume_spec a2 r'.p (hraw _ ho) (by omega)
      have hv := Atom.rawValid_string (Atom.consume a2 r'.p) (by rw [hc.1, ht2', ht]) hc.2.2.2
      refine ⟨Atom.consume a2 r'.p, true, ?_, by rw [hc.1, ht2', ht], ?_, hc.2.2.2⟩
      · split
        · rename_i h; exact absurd h (by simp)
        · rename_i h; simp only [Option.some.injEq, Prod.mk.injEq] at h; exact absurd h.1 h0
        · rename_i h
          simp only [Option.some.injEq, Prod.mk.injEq] at h
          rw [← h.2, ha2, hv]; rfl
      · exact frame _ (by rw [hc.1, ht2', ht]) (by omega) (by omega) (by omega)

end Ron
