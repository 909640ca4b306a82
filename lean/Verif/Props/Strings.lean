import Verif.Model.Strings
import Verif.Lemmas.CpRead
import Verif.Props.Builder
/-!
C68: `Op::Amend`. C69: `ReadString` and `ReadString16`.
-/
namespace Ron.Props
open Ron.Spec

/-! ### C68 -/

/-- The frame of one op, `AppendOp` of a new builder and `Release`. -/
def frameOf (fmt : Word → List Byte) (o : Op) : Out (List Byte) :=
  (Builder.init.appendOp fmt o).bind fun b => b.release.bind fun r => .ok r.1

/-- C68: the values of an op under other ids. -/
def C68_claim : Prop := ∀ (fmt : Word → List Byte) (buf : List Byte) (cur : Cursor) (v : OpView) (id ref : Uuid),
  Reach buf cur → viewOp cur = .ok v → Plain62 id → Plain62 ref →
  ∃ o text, Op.amend id ref cur = .ok o ∧ frameOf fmt o = .ok text ∧
    Contents text [⟨id, ref, v.vals⟩] .endOfFrame

/-- For a concrete frame: the first op is read, and amended it is lost or reads differently. -/
def misamends (buf : List Byte) (id ref : Uuid) : Bool :=
  match Cursor.next (Cursor.init buf) with
  | .ok (cur, .ok) =>
    match viewOp cur with
    | .ok v =>
      match (Op.amend id ref cur).bind (frameOf fun _ => [48, 46, 48]) with
      | .ok t =>
        match readOps 20 t with
        | .ok (some (l, st)) => !(decide (l = [⟨id, ref, v.vals⟩]) && decide (st = .endOfFrame))
        | _ => false
      | _ => true
    | _ => false
  | _ => false

theorem misamend {buf : List Byte} {id ref : Uuid} (h : misamends buf id ref = true)
    (hi : Plain62 id) (hr : Plain62 ref) : ¬ C68_claim := by
  intro hc
  unfold misamends at h
  split at h
  · rename_i cur h1
    split at h
    · rename_i v h2
      obtain ⟨o, t, k1, k2, k3⟩ := hc (fun _ => [48, 46, 48]) buf cur v id ref (.next .init h1) h2 hi hr
      rw [k1, Op.obind, k2] at h
      simp only at h
      split at h
      · rename_i l st h3
        obtain ⟨e1, e2⟩ := Chains.contents_unique (contents_of 20 h3) k3
        rw [e1, e2] at h
        simp at h
      · simp at h
    · simp at h
  · simp at h

/-- C68 is violated: an integer becomes 0. -/
theorem C68_violated : ¬ C68_claim :=
  misamend (buf := lit "@1+A :2+A 5;\n") (id := tid 7 1) (ref := tid 8 1) (by decide +kernel)
    (show 2 ^ 61 + 1 < 2 ^ 62 by decide) (show 2 ^ 61 + 1 < 2 ^ 62 by decide)

/-- C68 is violated: a string becomes the empty one. -/
theorem C68_string_violated : ¬ C68_claim :=
  misamend (buf := lit "@1+A :2+A 'abc';\n") (id := tid 7 1) (ref := tid 8 1) (by decide +kernel)
    (show 2 ^ 61 + 1 < 2 ^ 62 by decide) (show 2 ^ 61 + 1 < 2 ^ 62 by decide)

/-- C68 is violated: the first character of a run becomes a string. -/
theorem C68_run_violated : ¬ C68_claim :=
  misamend (buf := lit "@1+A :2+A ('abc');\n") (id := tid 7 1) (ref := tid 8 1) (by decide +kernel)
    (show 2 ^ 61 + 1 < 2 ^ 62 by decide) (show 2 ^ 61 + 1 < 2 ^ 62 by decide)

/-- C68 is violated: a float becomes 0. -/
theorem C68_float_violated : ¬ C68_claim :=
  misamend (buf := lit "@1+A :2+A 3.5;\n") (id := tid 7 1) (ref := tid 8 1) (by decide +kernel)
    (show 2 ^ 61 + 1 < 2 ^ 62 by decide) (show 2 ^ 61 + 1 < 2 ^ 62 by decide)

/-- C68 is violated: with an empty string the access is out of bounds. -/
theorem C68_empty_violated : ¬ C68_claim ∧
    ∃ cur, Reach (lit "@1+A :2+A '';\n") cur ∧ ∀ id ref, Op.amend id ref cur = .ub := by
  have h : misamends (lit "@1+A :2+A '';\n") (tid 7 1) (tid 8 1) = true := by decide +kernel
  refine ⟨misamend h (show 2 ^ 61 + 1 < 2 ^ 62 by decide) (show 2 ^ 61 + 1 < 2 ^ 62 by decide), ?_⟩
  have k : (match Cursor.next (Cursor.init (lit "@1+A :2+A '';\n")) with
    | .ok (cur, .ok) => decide (cur.op.drop 2 = [Atom.string 0 11 11 0])
    | _ => false) = true := by decide +kernel
  split at k
  · rename_i cur h1
    refine ⟨cur, .next .init h1, fun id ref => ?_⟩
    rw [Op.amend, of_decide_eq_true k]
    rfl
  · simp at k

/-- A reader sees UUIDs only if there are only UUIDs. -/
theorem collect_uuids {cur : Cursor} : ∀ {as : List Atom} {us : List Uuid},
    collect (viewAtom cur) as = .ok (us.map .uuid) → as = us ∧ ∀ a ∈ as, Atom.type a = Atom.tUUID
  | [], us, h => by
    cases us with
    | nil => exact ⟨rfl, by simp⟩
    | cons u us => simp [collect] at h
  | a :: as, us, h => by
    rw [collect] at h
    obtain ⟨b, h1, h⟩ := Cursor.bind_ok h
    obtain ⟨bs, h2, h⟩ := Cursor.bind_ok h
    injection h with h
    cases us with
    | nil => simp at h
    | cons u us =>
      rw [List.map_cons] at h
      injection h with e1 e2
      rw [e2] at h2
      rw [e1] at h1
      obtain ⟨k1, k2⟩ := collect_uuids h2
      unfold viewAtom at h1
      split at h1
      · obtain ⟨x, _, h1⟩ := Cursor.bind_ok h1
        obtain ⟨y, _, h1⟩ := Cursor.bind_ok h1
        cases h1
      split at h1
      · obtain ⟨x, _, h1⟩ := Cursor.bind_ok h1
        cases h1
      split at h1
      · obtain ⟨x, _, h1⟩ := Cursor.bind_ok h1
        cases h1
      · rename_i n1 n2 n3
        injection h1 with h1
        injection h1 with h1
        refine ⟨by rw [h1, k1], fun x hx => ?_⟩
        rcases List.mem_cons.1 hx with rfl | hx
        · have : Atom.type x < 4 := by unfold Atom.type; omega
          simp only [Atom.tINT, Atom.tFLOAT, Atom.tSTRING, Atom.tUUID] at *
          omega
        · exact k2 x hx

theorem writeValues_uuids (buf : List Byte) : ∀ (as : List Atom) (o : Op),
    (∀ a ∈ as, Atom.type a = Atom.tUUID) →
    Op.writeValues buf as o = Op.writeAtoms (as.map Arg.uuid) o
  | [], o, _ => rfl
  | a :: as, o, h => by
    have ha : Atom.type a ≠ Atom.tSTRING := by rw [h a (by simp)]; decide
    rw [Op.writeValues, if_pos ha, List.map_cons, Op.writeAtoms, Op.writeAtom, Op.obind]
    exact writeValues_uuids buf as _ fun x hx => h x (by simp [hx])

/-- C68 for ops whose values are UUIDs: amending is the same as making a new op of those values.
Missing from the claim: every other type of value, as shown above. -/
theorem C68_uuids_partial (cur : Cursor) (i r : Uuid) (us : List Uuid)
    (h : viewOp cur = .ok ⟨i, r, us.map .uuid⟩) (id ref : Uuid) :
    Op.amend id ref cur = Op.mk' id ref (us.map Arg.uuid) := by
  unfold viewOp at h
  split at h
  · rename_i i' r' vals e
    obtain ⟨vs, h1, h⟩ := Cursor.bind_ok h
    injection h with h
    injection h with _ _ h
    rw [h] at h1
    obtain ⟨k1, k2⟩ := collect_uuids h1
    unfold Op.amend Op.mk'
    rw [e, List.drop_succ_cons, List.drop_succ_cons, List.drop_zero, writeValues_uuids _ _ _ k2, k1]
  · cases h

/-- C68 for ops whose values are UUIDs that do not look like floats, read back. -/
theorem C68_partial (fmt : Word → List Byte) (cur : Cursor) (i r : Uuid) (us : List Uuid)
    (h : viewOp cur = .ok ⟨i, r, us.map .uuid⟩) (id ref : Uuid) (hi : Plain62 id) (hr : Plain62 ref)
    (hn : id = Uuid.NIL.inc → ref = Uuid.NIL)
    (hu : ∀ u ∈ us, Plain62 u ∧ ¬ FloatText u.str) (hf : us ≠ [Uuid.FATAL] ∨ ref ≠ Uuid.NIL) :
    ∃ o text, Op.amend id ref cur = .ok o ∧ frameOf fmt o = .ok text ∧
      (text.length < 2 ^ 30 → Contents text [⟨id, ref, us.map .uuid⟩] .endOfFrame) := by
  have hb : ∀ us : List Uuid, strBytes (us.map Arg.uuid) = 0 := by
    intro us
    induction us with
    | nil => rfl
    | cons u us ih => rw [List.map_cons, strBytes]; exact ih; simp
  have hv : ∀ us : List Uuid, (us.map Arg.uuid).map (viewArg fmt) = us.map .uuid := by
    intro us
    rw [List.map_map]; rfl
  have hc : CleanCalls fmt [.op id ref (us.map Arg.uuid)] := by
    constructor
    · intro id' ref' args' hm
      simp only [List.mem_singleton, Call.op.injEq] at hm
      obtain ⟨rfl, rfl, rfl⟩ := hm
      refine ⟨hi, hr, ?_, by rw [hb]; decide⟩
      intro a ha
      obtain ⟨u, hm, rfl⟩ := List.mem_map.1 ha
      exact hu u hm
    · refine ⟨hn, ?_, trivial⟩
      intro hx
      exfalso
      simp only [folds, follows, Bool.and_eq_true, decide_eq_true_eq, hv] at hx
      obtain ⟨⟨e1, e2⟩, e3⟩ := hx
      rcases us with _ | ⟨u, _ | ⟨u', us⟩⟩
      · simp [alike] at e3
      · simp only [List.map_cons, List.map_nil, alike, Bool.and_eq_true, decide_eq_true_eq] at e3
        rcases hf with hf | hf
        · exact hf (by rw [e3.1])
        · exact hf e2
      · simp [alike] at e3
  obtain ⟨text, h1, -, h2⟩ := C22_partial fmt _ hc (by simp)
  unfold built perform at h1
  obtain ⟨b, g1, h1⟩ := Cursor.bind_ok h1
  obtain ⟨o, g2, g1⟩ := Cursor.bind_ok g1
  obtain ⟨b', g3, g1⟩ := Cursor.bind_ok g1
  simp only [perform] at g1
  cases g1
  refine ⟨o, text, by rw [C68_uuids_partial cur i r us h, g2], ?_, fun hl => ?_⟩
  · unfold frameOf
    rw [g3, Op.obind]
    exact h1
  · have := (h2 hl).1
    simpa only [said, steps, saidBy, List.map_cons, List.map_nil, hv] using this

/-- The hypotheses of `C68_uuids_partial` are met. -/
example : ∃ cur, Reach (lit "@1+A :2+A 3+B 4+C;\n") cur ∧
    ∃ (i r : Uuid) (us : List Uuid), us.length = 2 ∧ viewOp cur = .ok ⟨i, r, us.map .uuid⟩ := by
  have k : (match Cursor.next (Cursor.init (lit "@1+A :2+A 3+B 4+C;\n")) with
    | .ok (cur, .ok) =>
      match viewOp cur with
      | .ok ⟨_, _, [.uuid _, .uuid _]⟩ => true
      | _ => false
    | _ => false) = true := by decide +kernel
  split at k
  · rename_i cur h1
    split at k
    · rename_i i r u w h2
      exact ⟨cur, .next .init h1, i, r, [u, w], rfl, h2⟩
    · simp at k
  · simp at k

/-- The values of `C68_partial` can be met: UUIDs that do not look like floats. -/
example : ∀ u ∈ [(⟨BitVec.ofNat 64 881557636825219072, 0#64⟩ : Uuid), ⟨BitVec.ofNat 64 985043671231496192, 0#64⟩], Plain62 u ∧ ¬ FloatText u.str := by
  intro u hu
  have h : ∀ u ∈ [(⟨BitVec.ofNat 64 881557636825219072, 0#64⟩ : Uuid), ⟨BitVec.ofNat 64 985043671231496192, 0#64⟩], argLit (.uuid u) = true := by decide
  have k := h u hu
  unfold argLit at k
  simp only [Bool.and_eq_true, decide_eq_true_eq] at k
  refine ⟨k.1, ?_⟩
  cases hs : u.str with
  | nil => rw [hs] at k; simp at k
  | cons c t =>
    rw [hs] at k
    intro hx
    rcases floatText_head hx with rfl | rfl | hd
    · simp at k
    · simp at k
    · have := hd.2; simp at k; omega

/-- What `WriteValues` keeps of a string: the code point the atom has, and all that are read but the last. -/
theorem amendCps_str {buf : List Byte} (hn : buf.length < 2 ^ 30) {s : List Byte} {xs : List (Nat × Bool)}
    (hs : StrText s xs) : ∀ (a : Atom) (t : List Nat), StrAtom buf a s xs.length → ∀ n, xs.length < n →
    Op.amendCps buf n a t = .ok (t ++ (Atom.cp a :: asRead xs).take xs.length) := by
  induction hs with
  | nil =>
    intro a t ha n hx
    cases n with
    | zero => simp at hx
    | succ n =>
      rw [Op.amendCps, if_pos (by simpa using ha.size)]
      simp
  | @cons c s x xs h hs ih =>
    intro a t ha n hx
    cases n with
    | zero => simp at hx
    | succ n =>
      obtain ⟨a', h1, h2, h3⟩ := nextCodepoint_str hn h hs ha
      have hz : ¬ Atom.cpSize a = 0 := by rw [ha.size]; simp
      rw [Op.amendCps, if_neg hz, h1, Op.obind, ih a' _ h2 n (by simp at hx; omega), asRead_cons, h3]
      simp

/-- C68 for a string that is not in a run: what becomes of it. The string starts with the code point 0, then
come all of the code points but the last; the number of them is right. Missing from the claim: this is not
the string. -/
theorem C68_shift_partial (cur : Cursor) (i r : Atom) (a : Atom) (s : List Byte) (xs : List (Nat × Bool))
    (hn : cur.buf.length < 2 ^ 30) (ho : cur.op = [i, r, a]) (hs : StrText s xs) (hc : Atom.cp a = 0)
    (ha : StrAtom cur.buf a s xs.length) (id ref : Uuid) :
    Op.amend id ref cur =
      if xs = [] then .ub
      else .ok ⟨[id, ref, Atom.string 0 0 xs.length xs.length], 0 :: (asRead xs).dropLast⟩ := by
  unfold Op.amend
  rw [ho]
  simp only [List.drop_succ_cons, List.drop_zero, Op.writeValues]
  rw [if_neg (by rw [ha.type]; decide), ha.size, amendCps_str hn hs a [] ha _ (by omega), Op.obind, hc]
  cases xs with
  | nil => rfl
  | cons x xs =>
    have hl := asRead_length (x :: xs)
    have e : (0 :: asRead (x :: xs)).take (x :: xs).length = 0 :: (asRead (x :: xs)).dropLast := by
      rw [List.length_cons, List.take_succ_cons, List.dropLast_eq_take, hl, List.length_cons, Nat.add_sub_cancel]
    rw [e]
    have hd : (asRead (x :: xs)).dropLast.length = xs.length := by rw [List.length_dropLast, hl]; rfl
    simp [hd]

/-- The hypotheses of `C68_shift_partial` are met. -/
example : ∃ (cur : Cursor) (i r a : Atom), Reach (lit "@1+A :2+A '\\n\\t';\n") cur ∧ cur.op = [i, r, a] ∧
    Atom.cp a = 0 ∧ StrAtom cur.buf a (lit "\\n\\t") 2 ∧ StrText (lit "\\n\\t") [(10, false), (9, false)] := by
  have k : (match Cursor.next (Cursor.init (lit "@1+A :2+A '\\n\\t';\n")) with
    | .ok (cur, .ok) =>
      match cur.op with
      | [_, _, a] => decide (Atom.cp a = 0 ∧ Atom.type a = Atom.tSTRING ∧ a.origin.toNat % 2 ^ 32 < 2 ^ 30 ∧
          Atom.rBegin a ≤ Atom.rEnd a ∧ Atom.rEnd a ≤ cur.buf.length ∧
          slice cur.buf (Atom.rBegin a) (Atom.rEnd a) = lit "\\n\\t" ∧ Atom.cpSize a = 2)
      | _ => false
    | _ => false) = true := by decide +kernel
  split at k
  · rename_i cur h1
    split at k
    · rename_i i r a e
      obtain ⟨k1, k2, k3, k4, k5, k6, k7⟩ := of_decide_eq_true k
      exact ⟨cur, i, r, a, .next .init h1, e, k1, ⟨k2, k3, k4, k5, k6, k7⟩,
        .cons (.esc 110 10 (by decide)) (.cons (.esc 116 9 (by decide)) .nil)⟩
    · simp at k
  · simp at k

/-! ### C69 -/

/-- The two readers agree on a string of an op: both succeed, with the same code points. -/
def SameText (buf : List Byte) (a : Atom) : Prop :=
  ∃ cps : List Nat, Cursor.readStr buf (Cursor.parsedStr a) = .ok (cps.flatMap utf8append, true) ∧
    Cursor.readStr16 buf (Cursor.parsedStr a) = .ok (cps.flatMap utf16append, true)

/-- C69: every string of every op reads the same in UTF-8 and in UTF-16. -/
def C69_claim : Prop := ∀ (buf : List Byte) (cur : Cursor) (a : Atom), Reach buf cur → a ∈ cur.op.drop 2 →
  Atom.type a = Atom.tSTRING → SameText buf a

theorem utf16_ne_nil (c : Nat) : utf16append c ≠ [] := by
  unfold utf16append; split <;> simp

theorem utf8_ne_nil (c : Nat) : utf8append c ≠ [] := by
  unfold utf8append; (repeat' split) <;> simp

/-- C69 is violated: a character of a run is nothing in UTF-16. -/
theorem C69_violated : ¬ C69_claim := by
  intro hc
  have k : (match Cursor.next (Cursor.init (lit "@1+A :2+A ('abc');\n")) with
    | .ok (cur, .ok) =>
      match cur.op with
      | [_, _, a] => decide (Atom.type a = Atom.tSTRING) &&
          (match Cursor.readStr (lit "@1+A :2+A ('abc');\n") (Cursor.parsedStr a),
            Cursor.readStr16 (lit "@1+A :2+A ('abc');\n") (Cursor.parsedStr a) with
            | .ok (_ :: _, _), .ok ([], _) => true
            | _, _ => false)
      | _ => false
    | _ => false) = true := by decide +kernel
  split at k
  · rename_i cur h1
    split at k
    · rename_i i r a e
      rw [Bool.and_eq_true] at k
      obtain ⟨cps, g1, g2⟩ := hc _ cur a (.next .init h1) (by rw [e]; simp) (of_decide_eq_true k.1)
      rw [g1, g2] at k
      cases cps with
      | nil => simp at k
      | cons c cps =>
        rw [List.flatMap_cons, List.flatMap_cons] at k
        have := utf16_ne_nil c
        cases hx : utf16append c with
        | nil => exact this hx
        | cons x xs => rw [hx] at k; simp at k
    · simp at k
  · simp at k

/-- A code point that is read is counted. -/
theorem nextCodepoint_count {buf : List Byte} {a : Atom} {r : Atom × Bool} (h1 : nextCodepoint buf a = .ok r)
    (h2 : r.2 = true) : Atom.cpSize a = Atom.cpSize r.1 + 1 := by
  unfold nextCodepoint at h1
  split at h1
  · injection h1 with h1; rw [← h1] at h2; cases h2
  · rename_i hz
    obtain ⟨str, -, h1⟩ := Cursor.bind_ok h1
    split at h1
    · cases h1
    · injection h1 with h1; rw [← h1] at h2; cases h2
    · simp only at h1
      split at h1
      · injection h1 with h1
        rw [← h1]
        simp only
        have := Atom.cpSize_lt a
        rw [Atom.cpSize_consume, Atom.cpSize_setCpSize _ _ (by omega)]
        omega
      · cases h1

/-- The loops of the two readers do the same, whatever the atom is. They succeed if they have read as many
code points as there are. -/
theorem readLoop_same {α β : Type} (f : Nat → List α) (g : Nat → List β) (buf : List Byte) :
    ∀ (n : Nat) (a : Atom) (s : List α) (st : Bool), Cursor.readLoop f buf n a = .ok (s, st) →
    ∃ cps : List Nat, s = cps.flatMap f ∧ Cursor.readLoop g buf n a = .ok (cps.flatMap g, st) ∧
      cps.length ≤ Atom.cpSize a ∧ (st = true ↔ cps.length = Atom.cpSize a) := by
  intro n
  induction n with
  | zero => intro a s st h; cases h
  | succ n ih =>
    intro a s st h
    rw [Cursor.readLoop] at h
    obtain ⟨r, h1, h⟩ := Cursor.bind_ok h
    rw [Cursor.readLoop, h1, Op.obind]
    split at h
    · rename_i h2
      obtain ⟨q, h3, h⟩ := Cursor.bind_ok h
      injection h with h
      injection h with e1 e2
      obtain ⟨cps, k1, k2, k3, k4⟩ := ih r.1 q.1 q.2 h3
      have hr := nextCodepoint_count h1 h2
      rw [if_pos h2, k2, Op.obind]
      refine ⟨r.1.cp :: cps, by rw [← e1, k1]; rfl, by rw [← e2]; rfl, by rw [hr, List.length_cons]; omega, ?_⟩
      rw [← e2, k4, hr, List.length_cons]
      omega
    · rename_i h2
      injection h with h
      injection h with e1 e2
      rw [if_neg h2]
      refine ⟨[], by rw [← e1]; rfl, by rw [← e2]; rfl, Nat.zero_le _, ?_⟩
      rw [← e2]
      simp [eq_comm]

/-- The loop reads what `readCps` reads. -/
theorem readLoop_readCps {α : Type} (f : Nat → List α) (buf : List Byte) : ∀ (n : Nat) (a : Atom) (s : List α)
    (st : Bool), Cursor.readLoop f buf n a = .ok (s, st) →
    ∃ cps, Cursor.readCps buf n a = .ok cps ∧ s = cps.flatMap f := by
  intro n
  induction n with
  | zero => intro a s st h; cases h
  | succ n ih =>
    intro a s st h
    rw [Cursor.readLoop] at h
    obtain ⟨r, h1, h⟩ := Cursor.bind_ok h
    rw [Cursor.readCps, h1, Op.obind]
    split at h
    · rename_i h2
      obtain ⟨q, h3, h⟩ := Cursor.bind_ok h
      injection h with h
      injection h with e1 e2
      obtain ⟨cps, k1, k2⟩ := ih r.1 q.1 q.2 h3
      rw [if_pos h2, k1, Op.obind]
      exact ⟨_, rfl, by rw [← e1, k2]; rfl⟩
    · rename_i h2
      injection h with h
      injection h with e1 e2
      rw [if_neg h2]
      exact ⟨[], rfl, by rw [← e1]; rfl⟩

/-- C69 for strings that are not in a run: the two readers have the same outcome and the same code
points, whatever the bytes of the string are; the outcome is success if and only if these are as many as
the string has. Missing from the claim: the characters of runs, as shown
above; success, which is `C69_read` for strings of the grammar. -/
theorem C69_partial (buf : List Byte) (a : Atom) (ha : Atom.cp a = 0) (s : List Byte) (st : Bool) :
    (Cursor.readStr buf (Cursor.parsedStr a) = .ok (s, st) → ∃ cps : List Nat,
      s = cps.flatMap utf8append ∧
      Cursor.readStr16 buf (Cursor.parsedStr a) = .ok (cps.flatMap utf16append, st) ∧
      cps.length ≤ Atom.cpSize a ∧ (st = true ↔ cps.length = Atom.cpSize a)) := by
  intro h
  have hp : Cursor.parsedStr a = a := if_neg (by simpa using ha)
  rw [hp] at h ⊢
  unfold Cursor.readStr at h
  rw [if_neg (by simpa using ha)] at h
  exact readLoop_same _ _ buf _ a s st h

/-- A string of the grammar is read in full. -/
theorem readLoop_str {α : Type} (f : Nat → List α) {buf : List Byte} (hn : buf.length < 2 ^ 30)
    {s : List Byte} {xs : List (Nat × Bool)} (hs : StrText s xs) : ∀ (a : Atom), StrAtom buf a s xs.length →
    ∀ n, xs.length < n → Cursor.readLoop f buf n a = .ok ((asRead xs).flatMap f, true) := by
  induction hs with
  | nil =>
    intro a ha n hx
    cases n with
    | zero => simp at hx
    | succ n =>
      have h0 : nextCodepoint buf a = .ok (a.setCp 0, false) := by
        unfold nextCodepoint; rw [if_pos (by simpa using ha.size)]
      have hz : Atom.cpSize a = 0 := by simpa using ha.size
      rw [Cursor.readLoop, h0, Op.obind]
      simp [hz, asRead]
  | @cons c s x xs h hs ih =>
    intro a ha n hx
    cases n with
    | zero => simp at hx
    | succ n =>
      obtain ⟨a', h1, h2, h3⟩ := nextCodepoint_str hn h hs ha
      rw [Cursor.readLoop, h1, Op.obind, if_pos rfl, ih a' h2 n (by simp at hx; omega), Op.obind,
        h3, asRead_cons]
      rfl

/-- C69: a string of the grammar, not in a run, is read in full and with success by both. -/
theorem C69_read (buf : List Byte) (hn : buf.length < 2 ^ 30) (s : List Byte) (xs : List (Nat × Bool))
    (hs : StrText s xs) (a : Atom) (hc : Atom.cp a = 0) (ha : StrAtom buf a s xs.length) :
    Cursor.readStr buf (Cursor.parsedStr a) = .ok ((asRead xs).flatMap utf8append, true) ∧
    Cursor.readStr16 buf (Cursor.parsedStr a) = .ok ((asRead xs).flatMap utf16append, true) := by
  have hp : Cursor.parsedStr a = a := if_neg (by simpa using hc)
  rw [hp]
  unfold Cursor.readStr Cursor.readStr16
  rw [if_neg (by simpa using hc), ha.size]
  exact ⟨readLoop_str _ hn hs a ha _ (by omega), readLoop_str _ hn hs a ha _ (by omega)⟩

/-- The hypotheses of `C69_partial` are met: a string with an escape and a character of two bytes. -/
example : ∃ (cur : Cursor) (a : Atom), Reach (lit "@1+A :2+A 'a\\nb';\n") cur ∧ a ∈ cur.op.drop 2 ∧ Atom.cp a = 0 ∧
    Cursor.readStr cur.buf (Cursor.parsedStr a) = .ok ([97, 10, 98], true) := by
  have k : (match Cursor.next (Cursor.init (lit "@1+A :2+A 'a\\nb';\n")) with
    | .ok (cur, .ok) =>
      match cur.op with
      | [_, _, a] => decide (Atom.cp a = 0) &&
          decide (Cursor.readStr cur.buf (Cursor.parsedStr a) = .ok ([97, 10, 98], true))
      | _ => false
    | _ => false) = true := by decide +kernel
  split at k
  · rename_i cur h1
    split at k
    · rename_i i r a e
      rw [Bool.and_eq_true] at k
      exact ⟨cur, a, .next .init h1, by rw [e]; simp, of_decide_eq_true k.1, of_decide_eq_true k.2⟩
    · simp at k
  · simp at k

/-- The hypotheses of `C69_read` are met. -/
example : StrText (lit "\\n\\t") [(10, false), (9, false)] ∧
    StrAtom (lit "'\\n\\t'") (Atom.string 0 1 5 2) (lit "\\n\\t") 2 :=
  ⟨.cons (.esc 110 10 (by decide)) (.cons (.esc 116 9 (by decide)) .nil),
    by decide, show _ < _ by decide, by decide, by decide, by decide, by decide⟩

end Ron.Props
