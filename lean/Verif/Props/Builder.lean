import Verif.Lemmas.BuilderRun
import Verif.Props.Text
/-!
C22, C25: the text builder.
-/
namespace Ron.Props
open Ron.Spec
open Ron.Cursor (iterate init)

/-- Iterating the frame gives the ops, with the terminators, and ends with the end of the frame. -/
def Reads (text : List Byte) (l : List (Nat × OpView)) : Prop :=
  Contents text (l.map Prod.snd) .endOfFrame ∧
  ∃ m, iterate (m.length + 1) (init text) = .ok (some (m, .endOfFrame)) ∧
    m.map Cursor.term = l.map Prod.fst

/-- Calls with ops of proper UUIDs, 64-bit integers, UUIDs and strings of UTF-8. -/
def Proper : List Call → Prop
  | [] => True
  | .endChunk t :: l => t ∈ [0, 2, 3] ∧ Proper l
  | .op id ref args :: l => Plain62 id ∧ Plain62 ref ∧ (∀ a ∈ args, match a with
      | .int i => -2 ^ 63 ≤ i ∧ i < 2 ^ 63
      | .uuid u => Plain62 u
      | .float _ => False
      | .str s => ∃ cps : List Nat, s = cps.flatMap utf8append ∧ ∀ c ∈ cps, c < 2 ^ 21) ∧ Proper l

/-- C22: the frame made by any calls reads back as the ops said by the calls. -/
def C22_claim : Prop := ∀ (fmt : Word → List Byte) (calls : List Call), Proper calls →
  ∃ text, built fmt calls = .ok text ∧ Reads text (said fmt calls)

/-! ### concrete frames -/

/-- The frame made by the calls cannot be made, or reads differently, for concrete calls. -/
def disagrees (calls : List Call) : Bool :=
  match built (fun _ => []) calls with
  | .ok t =>
    match readOps 20 t with
    | .ok (some (l, st)) => !(decide (l = (said (fun _ => []) calls).map Prod.snd) && decide (st = .endOfFrame))
    | _ => false
  | _ => true

theorem violates {calls : List Call} (hp : Proper calls) (hd : disagrees calls = true) : ¬ C22_claim := by
  intro h
  obtain ⟨t, h1, h2, -⟩ := h (fun _ => []) calls hp
  unfold disagrees at hd
  rw [h1] at hd
  simp only at hd
  split at hd
  · rename_i l st heq
    obtain ⟨e1, e2⟩ := Chains.contents_unique (contents_of 20 heq) h2
    rw [e1, e2] at hd
    simp at hd
  · simp at hd

/-- Test ids: of the version TIME. -/
def tid (v o : Nat) : Uuid := ⟨BitVec.ofNat 64 v, BitVec.ofNat 64 (2 ^ 61 + o)⟩

/-- ASCII strings, other arguments of `Proper`: for concrete calls. -/
def properLit : List Call → Bool
  | [] => true
  | .endChunk t :: l => [0, 2, 3].contains t && properLit l
  | .op id ref args :: l => decide (id.origin.toNat < 2 ^ 62) && decide (ref.origin.toNat < 2 ^ 62) &&
      (args.all fun a => match a with
        | .int i => decide (-2 ^ 63 ≤ i ∧ i < 2 ^ 63)
        | .uuid u => decide (u.origin.toNat < 2 ^ 62)
        | .float _ => false
        | .str s => s.all fun c => decide (c.toNat < 128)) && properLit l

theorem ascii_flatMap {s : List Byte} (h : ∀ c ∈ s, c.toNat < 128) :
    s = (s.map UInt8.toNat).flatMap utf8append := by
  induction s with
  | nil => rfl
  | cons c s ih =>
    rw [List.map_cons, List.flatMap_cons, ← ih fun x hx => h x (by simp [hx])]
    unfold utf8append
    rw [if_pos (h c (by simp))]
    unfold toChar
    rw [Nat.mod_eq_of_lt (by have := h c (by simp); omega)]
    simp

theorem proper_lit : ∀ {calls : List Call}, properLit calls = true → Proper calls
  | [], _ => trivial
  | .endChunk t :: l, h => by
    unfold properLit at h
    simp only [Bool.and_eq_true, List.contains_iff_mem] at h
    exact ⟨h.1, proper_lit h.2⟩
  | .op id ref args :: l, h => by
    unfold properLit at h
    simp only [Bool.and_eq_true, decide_eq_true_eq, List.all_eq_true] at h
    refine ⟨h.1.1.1, h.1.1.2, fun a ha => ?_, proper_lit h.2⟩
    have := h.1.2 a ha
    cases a with
    | int i => simpa using this
    | uuid u => simpa [Plain62] using this
    | float w => simp at this
    | str s =>
      simp only [List.all_eq_true, decide_eq_true_eq] at this
      refine ⟨s.map UInt8.toNat, ascii_flatMap this, ?_⟩
      intro c hc
      obtain ⟨x, hx, rfl⟩ := List.mem_map.1 hc
      have := this x hx
      omega

/-- C22 is violated: the next id with a reference that is not to the op before is written as the
reference alone, which no frame has at that place. -/
theorem C22_violated : ¬ C22_claim :=
  violates (calls := [.op (tid 1 1) Uuid.NIL [.int 1], .op (tid 2 1) (tid 7 1) [.int 2]])
    (proper_lit (by decide +kernel)) (by decide +kernel)

/-- C22 is violated: after the end of a chunk an op is still folded with the one before, so its
value is lost. -/
theorem C22_chunk_violated : ¬ C22_claim :=
  violates (calls := [.op (tid 1 1) Uuid.NIL [.uuid (tid 9 9)], .endChunk 0,
      .op (tid 2 1) (tid 1 1) [.uuid (tid 9 9)], .op (tid 3 1) (tid 7 1) [.int 1]])
    (proper_lit (by decide +kernel)) (by decide +kernel)

/-- C22 is violated: the first op is folded with an op that is not there. -/
theorem C22_first_violated : ¬ C22_claim :=
  violates (calls := [.op Uuid.NIL.inc Uuid.NIL [.uuid Uuid.FATAL]])
    (proper_lit (by decide +kernel)) (by decide +kernel)

/-- C22 is violated: a long negative integer overflows the buffer it is printed into. -/
theorem C22_int_violated : ¬ C22_claim :=
  violates (calls := [.op (tid 1 1) Uuid.NIL [.int (-2 ^ 63)]])
    (proper_lit (by decide +kernel)) (by decide +kernel)

/-- C22 is violated: a negative integer that is printed is not read back. -/
theorem C22_int_read_violated : ¬ C22_claim :=
  violates (calls := [.op (tid 1 1) Uuid.NIL [.int (-922337203685477581)]])
    (proper_lit (by decide +kernel)) (by decide +kernel)

/-- C22 is violated: a string ends at its first zero. -/
theorem C22_zero_violated : ¬ C22_claim :=
  violates (calls := [.op (tid 1 1) Uuid.NIL [.str [97, 0, 98]]])
    (proper_lit (by decide +kernel)) (by decide +kernel)

/-- C22 is violated: a form feed is written with an escape that is not read. -/
theorem C22_feed_violated : ¬ C22_claim :=
  violates (calls := [.op (tid 1 1) Uuid.NIL [.str [97, 12, 98]]])
    (proper_lit (by decide +kernel)) (by decide +kernel)

/-- The UUID `1e5`. -/
def name1e5 : Uuid := denote 0 (lit "1e5") 0 []

/-- C22 is violated: a UUID that looks like a float. -/
theorem C22_float_violated : ¬ C22_claim :=
  violates (calls := [.op (tid 1 1) Uuid.NIL [.uuid name1e5]])
    (proper_lit (by decide +kernel)) (by decide +kernel)

/-! ### C22 -/

/-- C22: clean calls make a frame of the grammar, and it reads back as the ops said by the calls: every
id, reference, value and terminator. Missing from the claim: the calls `CleanCalls` leaves out
(every violation above); frames of 2^30 bytes and more, 2^32 calls and more. -/
theorem C22_partial (fmt : Word → List Byte) (calls : List Call) (hc : CleanCalls fmt calls)
    (hn : calls.length < 2 ^ 32) :
    ∃ text, built fmt calls = .ok text ∧ FrameText Uuid.NIL text (said fmt calls) ∧
      (text.length < 2 ^ 30 → Reads text (said fmt calls)) := by
  obtain ⟨text, h1, h2, -⟩ := Builder.built_ok hc hn
  exact ⟨text, h1, h2, fun h => C20_frames_partial text h _ h2⟩

/-- `ArgOk` for concrete arguments: ASCII strings, UUIDs that do not start with a digit or a sign. -/
def argLit : Arg → Bool
  | .int i => decide (-922337203685477580 ≤ i ∧ i < 2 ^ 63)
  | .uuid u => decide (u.origin.toNat < 2 ^ 62) && (match u.str with
      | [] => false
      | c :: _ => decide (57 < c.toNat))
  | .float _ => true
  | .str s => s.all fun c => decide (0 < c.toNat) && decide (c.toNat < 128) && decide (c.toNat ≠ 12)

theorem arg_lit {fmt : Word → List Byte} (hf : ∀ w, ArgOk fmt (.float w)) {a : Arg}
    (h : argLit a = true) : ArgOk fmt a := by
  cases a with
  | int i =>
    unfold argLit at h
    exact (of_decide_eq_true h : _ ∧ _)
  | uuid u =>
    unfold argLit at h
    simp only [Bool.and_eq_true, decide_eq_true_eq] at h
    refine ⟨h.1, ?_⟩
    have h2 := h.2
    cases hs : u.str with
    | nil => rw [hs] at h2; simp at h2
    | cons c t =>
      rw [hs] at h2
      simp only [decide_eq_true_eq] at h2
      intro hx
      rcases floatText_head hx with rfl | rfl | hd
      · simp at h2
      · simp at h2
      · have := hd.2; omega
  | float w => exact hf w
  | str s =>
    simp only [argLit, List.all_eq_true, Bool.and_eq_true, decide_eq_true_eq] at h
    refine ⟨s.map UInt8.toNat, ascii_flatMap fun c hc => (h c hc).1.2, ?_⟩
    intro c hc
    obtain ⟨x, hx, rfl⟩ := List.mem_map.1 hc
    have := h x hx
    exact ⟨this.1.1, by omega, this.2⟩

/-- `CleanSteps` for concrete steps. -/
def cleanLit (hok : List View → Bool) : Uuid → List View → Bool → Bool → List Step → Bool
  | _, _, _, _, [] => true
  | pid, pv, _, mid, .endChunk t :: l => [0, 2, 3].contains t && cleanLit hok pid pv true mid l
  | pid, pv, closed, mid, .op o :: l =>
    (!decide (o.id = pid.inc) || decide (o.ref = pid)) &&
    (!folds pid pv o || (!closed && (mid || hok pv))) &&
    cleanLit hok o.id o.vals false (folds pid pv o) l

theorem clean_lit {hok : List View → Bool} :
    ∀ {l : List Step} {pid : Uuid} {pv : List View} {closed mid : Bool},
    cleanLit hok pid pv closed mid l = true → CleanSteps hok pid pv closed mid l
  | [], _, _, _, _, _ => by unfold CleanSteps; trivial
  | .endChunk t :: l, _, _, _, _, h => by
    unfold cleanLit at h
    simp only [Bool.and_eq_true, List.contains_iff_mem] at h
    exact ⟨h.1, clean_lit h.2⟩
  | .op o :: l, pid, pv, closed, mid, h => by
    unfold cleanLit at h
    simp only [Bool.and_eq_true] at h
    obtain ⟨⟨h5, h6⟩, h7⟩ := h
    refine ⟨?_, ?_, clean_lit h7⟩
    · intro e
      rw [e] at h5
      simpa using h5
    · intro e
      rw [e] at h6
      simpa using h6

/-- `CleanCalls` for concrete calls. -/
def cleanCallsLit (fmt : Word → List Byte) (l : List Call) : Bool :=
  (l.all fun c => match c with
    | .op id ref args => decide (id.origin.toNat < 2 ^ 62) && decide (ref.origin.toNat < 2 ^ 62) &&
        args.all argLit && decide (strBytes args < 2 ^ 30)
    | .endChunk _ => true) && cleanLit headOk Uuid.NIL [.uuid Uuid.FATAL] true false (steps fmt l)

theorem cleanCalls_lit {fmt : Word → List Byte} (hf : ∀ w, ArgOk fmt (.float w)) {l : List Call}
    (h : cleanCallsLit fmt l = true) : CleanCalls fmt l := by
  unfold cleanCallsLit at h
  simp only [Bool.and_eq_true, List.all_eq_true] at h
  refine ⟨?_, clean_lit h.2⟩
  intro id ref args hm
  have := h.1 _ hm
  simp only [Bool.and_eq_true, decide_eq_true_eq, List.all_eq_true] at this
  obtain ⟨⟨⟨h1, h2⟩, h3⟩, h4⟩ := this
  exact ⟨h1, h2, fun a ha => arg_lit hf (h3 a ha), h4⟩

theorem uuidText_no_dot {s : List Byte} {vr ver : Nat} {v o : List Byte} (h : UuidText s vr v ver o) :
    46 ∉ s := by
  obtain ⟨⟨pre, tail, rfl, h2, h3⟩, h4⟩ := h
  have hb : ∀ c : Byte, isB64 c = true → c ≠ 46 := forall_byte (by decide +kernel)
  have hx : ∀ c : Byte, isHex c = true → c ≠ 46 := forall_byte (by decide +kernel)
  have hs : ∀ c : Byte, isSep c = true → c ≠ 46 := forall_byte (by decide +kernel)
  simp only [List.mem_append, not_or]
  refine ⟨⟨?_, fun hm => hb _ (h4.2 _ hm) rfl⟩, ?_⟩
  · cases h2 with
    | none => simp
    | some h hh =>
      have := hx h hh
      simp only [List.mem_cons, List.not_mem_nil, or_false, not_or]
      exact ⟨fun e => this e.symm, by decide⟩
  · cases h3 with
    | none => simp
    | some s _ hs' ho =>
      have := hs s hs'
      simp only [List.mem_cons, not_or]
      exact ⟨fun e => this e.symm, fun hm => hb _ (ho.2 _ hm) rfl⟩

theorem floats_15 (w : Word) : ArgOk (fun _ => lit "1.5") (.float w) := by
  refine ⟨⟨.frac [] (lit "1") (lit "5") .none (digits_lit (by decide)) (digits_lit (by decide)),
    show (lit "1.5").length ≤ 24 by decide⟩, ?_⟩
  rintro ⟨vr, v, ver, o, h⟩
  exact uuidText_no_dot h (show 46 ∈ lit "1.5" by decide)

-- Integers, floats, strings, UUIDs, a count and a spread, three kinds of terminators.
def someCalls : List Call :=
  [.op (tid 5 1) (denote 0 (lit "lww") 0 []) [.int (-5), .str (lit "it's"), .uuid (denote 0 (lit "abc") 0 []), .float 7#64],
   .endChunk 0,
   .op (tid 7 1) (tid 5 1) [.str (lit "a")], .op (tid 8 1) (tid 7 1) [.str (lit "\\")],
   .op (tid 9 1) (tid 8 1) [.str (lit "c")],
   .op (tid 10 1) (tid 9 1) [.uuid (denote 0 (lit "x") 0 [])],
   .op (tid 11 1) (tid 10 1) [.uuid (denote 0 (lit "x") 0 [])], .endChunk 2,
   .op (tid 12 1) (tid 11 1) []]

example : CleanCalls (fun _ => lit "1.5") someCalls := cleanCalls_lit floats_15 (by decide +kernel)
example : built (fun _ => lit "1.5") someCalls = .ok (lit ("@0000000005+0000000001 :lww -5 'it\\'s' abc 1.5;\n" ++
    "@0000000007+0000000001 ('a\\\\c'),\n x(2)!\n;\n")) := by decide +kernel
example : (said (fun _ => lit "1.5") someCalls).map Prod.fst = [0, 1, 1, 1, 2, 2, 0] := by decide +kernel

/-! ### C25 -/

/-- The calls that append a run of characters. -/
def runCalls : Uuid → Uuid → List Nat → List Call
  | _, _, [] => []
  | id, ref, c :: cs => .op id ref [.str (utf8append c)] :: runCalls id.inc id cs

/-- The ops of a run of characters. -/
def runOps : Uuid → Uuid → List Nat → List OpView
  | _, _, [] => []
  | id, ref, c :: cs => ⟨id, ref, [.text (utf8append c)]⟩ :: runOps id.inc id cs

/-- C25: a run of characters reads back as it is. -/
def C25_claim : Prop := ∀ (fmt : Word → List Byte) (id ref : Uuid) (cs : List Nat),
  Plain62 id → Plain62 ref → (id = Uuid.NIL.inc → ref = Uuid.NIL) → (∀ c ∈ cs, CpOk c) →
  ∃ text, built fmt (runCalls id ref cs) = .ok text ∧
    Contents text (runOps id ref cs) .endOfFrame

/-- C25 is violated: the bytes of the first character are put in backwards when the second one comes. -/
theorem C25_violated : ¬ C25_claim := by
  intro h
  obtain ⟨t, h1, h2⟩ := h (fun _ => []) (tid 1 1) Uuid.NIL [233, 98] (by unfold Plain62; decide +kernel)
    (by unfold Plain62; decide +kernel) (by decide +kernel) (by unfold CpOk; decide)
  have e : built (fun _ => []) (runCalls (tid 1 1) Uuid.NIL [233, 98]) =
      .ok (lit "@0000000001+0000000001 ('" ++ [169, 195] ++ lit "b');\n") := by decide +kernel
  rw [e] at h1
  injection h1 with h1
  rw [← h1] at h2
  have := (Chains.contents_unique (contents_lit (by decide +kernel)) h2).2
  revert this
  decide +kernel

/-- C25 is violated: so are those of its escape. -/
theorem C25_escape_violated : ¬ C25_claim := by
  intro h
  obtain ⟨t, h1, h2⟩ := h (fun _ => []) (tid 1 1) Uuid.NIL [10, 98] (by unfold Plain62; decide +kernel)
    (by unfold Plain62; decide +kernel) (by decide +kernel) (by unfold CpOk; decide)
  have e : built (fun _ => []) (runCalls (tid 1 1) Uuid.NIL [10, 98]) =
      .ok (lit "@0000000001+0000000001 ('n\\b');\n") := by decide +kernel
  rw [e] at h1
  injection h1 with h1
  rw [← h1] at h2
  have := (Chains.contents_unique (contents_lit (by decide +kernel)) h2).1
  revert this
  decide +kernel

/-- A character that is written as it is, in one byte. -/
def PlainChar (c : Nat) : Prop := 0 < c ∧ c < 128 ∧ c ∉ [34, 39, 92, 8, 12, 10, 13, 9]

theorem headOk_plain {c : Nat} (h : PlainChar c) : headOk [.text (utf8append c)] = true := by
  obtain ⟨h1, h2, h3⟩ := h
  have key : ∀ c : Fin 128, 0 < c.val → c.val ∉ [34, 39, 92, 8, 12, 10, 13, 9] →
      headOk [.text (utf8append c.val)] = true := by decide +kernel
  exact key ⟨c, h2⟩ h1 h3

theorem chars_utf8 {c : Nat} (h : CpOk c) : chars (utf8append c) = 1 := by
  have := chars_flatMap (cps := [c]) (by simpa using h.2.1)
  simpa using this

theorem opOk_char {fmt : Word → List Byte} {id ref : Uuid} {c : Nat} (hi : Plain62 id) (hr : Plain62 ref)
    (hc : CpOk c) : Spec.OpOk fmt id ref [.str (utf8append c)] := by
  refine ⟨hi, hr, ?_, ?_⟩
  · intro a ha
    simp only [List.mem_singleton] at ha
    subst ha
    exact ⟨[c], by simp, by simpa using hc⟩
  · have : (utf8append c).length ≤ 4 := by
      unfold utf8append
      split
      · simp
      · split
        · simp
        · split <;> simp
    simp only [strBytes]
    omega

theorem run_clean (fmt : Word → List Byte) : ∀ {cs : List Nat} {pid : Uuid} {p : Nat} {mid : Bool},
    CpOk p → (∀ c ∈ cs, CpOk c) → (mid = true ∨ headOk [.text (utf8append p)] = true) →
    CleanSteps headOk pid [.text (utf8append p)] false mid (steps fmt (runCalls pid.inc pid cs))
  | [], _, _, _, _, _, _ => by unfold runCalls steps CleanSteps; trivial
  | c :: cs, pid, p, mid, hpc, hc, hm => by
    have h1 : CpOk c := hc c (by simp)
    have hf : folds pid [.text (utf8append p)] ⟨pid.inc, pid, [.text (utf8append c)]⟩ = true := by
      simp [folds, follows, alike, chars_utf8 hpc, chars_utf8 h1]
    refine ⟨fun _ => rfl, fun _ => ⟨rfl, hm⟩, ?_⟩
    show CleanSteps headOk pid.inc [.text (utf8append c)] false _ _
    exact run_clean fmt h1 (fun x hx => hc x (by simp [hx])) (.inl hf)

theorem run_ops {fmt : Word → List Byte} : ∀ {cs : List Nat} {i r : Uuid}, Plain62 i → Plain62 r →
    (∀ c ∈ cs, CpOk c) → ∀ id ref args, .op id ref args ∈ runCalls i r cs → Spec.OpOk fmt id ref args
  | [], _, _, _, _, _, _, _, _, h => by simp [runCalls] at h
  | c :: cs, i, r, hi, hr, hc, id, ref, args, h => by
    rw [runCalls, List.mem_cons] at h
    rcases h with h | h
    · injection h with h1 h2 h3
      rw [h1, h2, h3]
      exact opOk_char hi hr (hc c (by simp))
    · exact run_ops (show Plain62 i.inc from hi) hi (fun x hx => hc x (by simp [hx])) id ref args h

theorem run_said (fmt : Word → List Byte) : ∀ (cs : List Nat) (id ref : Uuid),
    (said fmt (runCalls id ref cs)).map Prod.snd = runOps id ref cs
  | [], _, _ => rfl
  | c :: cs, id, ref => by
    rw [runCalls, said, steps, saidBy, List.map_cons, ← said, run_said fmt cs, runOps]
    rfl

theorem run_length : ∀ (cs : List Nat) (id ref : Uuid), (runCalls id ref cs).length = cs.length
  | [], _, _ => rfl
  | _ :: cs, _, _ => by rw [runCalls, List.length_cons, run_length cs, List.length_cons]

theorem run_cleanCalls {fmt : Word → List Byte} {id ref : Uuid} {c : Nat} {cs : List Nat}
    (hid : Plain62 id) (href : Plain62 ref) (h0 : id = Uuid.NIL.inc → ref = Uuid.NIL)
    (hp : PlainChar c) (hc : ∀ c ∈ cs, CpOk c) : CleanCalls fmt (runCalls id ref (c :: cs)) := by
  have h1 : CpOk c := ⟨hp.1, by have := hp.2.1; omega, fun h => hp.2.2 (by simp [h])⟩
  have ha : folds Uuid.NIL [.uuid Uuid.FATAL] ⟨id, ref, [.text (utf8append c)]⟩ = false := by
    simp [folds, alike]
  refine ⟨run_ops hid href (by simpa using ⟨h1, hc⟩), h0, ?_, ?_⟩
  · intro h; exact absurd (ha.symm.trans h) (by decide)
  · exact run_clean fmt h1 hc (.inr (headOk_plain hp))

/-- C25: a run of characters of which the first one is written in one byte reads back as it is, the
rest being any characters. Missing from the claim: other first characters. -/
theorem C25_partial (fmt : Word → List Byte) (id ref : Uuid) (c : Nat) (cs : List Nat)
    (hid : Plain62 id) (href : Plain62 ref) (h0 : id = Uuid.NIL.inc → ref = Uuid.NIL)
    (hp : PlainChar c) (hc : ∀ c ∈ cs, CpOk c) (hn : cs.length < 2 ^ 32 - 1) :
    ∃ text, built fmt (runCalls id ref (c :: cs)) = .ok text ∧
      (text.length < 2 ^ 30 → Contents text (runOps id ref (c :: cs)) .endOfFrame) := by
  obtain ⟨text, h1, -, h2⟩ := C22_partial fmt _ (run_cleanCalls hid href h0 hp hc)
    (by rw [run_length]; simp only [List.length_cons]; omega)
  refine ⟨text, h1, fun h => ?_⟩
  have := (h2 h).1
  rwa [run_said] at this

example : built (fun _ => []) (runCalls (tid 7 1) (tid 5 1) [97, 233, 39, 8364, 128512]) =
    .ok (lit "@0000000007+0000000001 :0000000005+0000000001 ('a" ++
      [195, 169, 92, 39, 226, 130, 172, 240, 159, 152, 128] ++ lit "');\n") := by decide +kernel

end Ron.Props
