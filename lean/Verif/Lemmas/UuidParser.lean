import Verif.Model.UuidParser
import Verif.Lemmas.Word
import Verif.Spec.UuidText
/-!
Helper lemmas about the UUID automaton: what the consumed input looks like in every
state, and that no well-formed input leads to the error state.
-/
namespace Ron
namespace UuidParser
open Spec

theorem slice_append_left (a b c : List Byte) :
    slice (a ++ b ++ c) a.length (a.length + b.length) = b := by
  unfold slice
  rw [List.append_assoc, List.drop_left, Nat.add_sub_cancel_left, List.take_left]

theorem slice_mid (buf pre w rest : List Byte) (b e : Nat) (h : buf = pre ++ w ++ rest)
    (hb : b = pre.length) (he : e = pre.length + w.length) : slice buf b e = w := by
  subst h hb he; exact slice_append_left pre w rest

/-- Invariant: what was consumed when the automaton is in a given state. -/
inductive Inv : List Byte → Nat → Regs → Prop
  | s1 : Inv [] 1 ⟨0, 0, ch '0', ch '$', [], []⟩
  | s4 (h : Byte) (hh : isHex h = true) : Inv [h] 4 ⟨1, 0, ch '0', ch '$', [], []⟩
  | s3 (h : Byte) (hh : isHex h = true) : Inv [h, ch '/'] 3 ⟨2, 0, h, ch '$', [], []⟩
  | s6a (w : List Byte) (hw : IsWord w) : Inv w 6 ⟨w.length, 0, ch '0', ch '$', [], []⟩
  | s6b (h : Byte) (hh : isHex h = true) (w : List Byte) (hw : IsWord w) :
      Inv ([h, ch '/'] ++ w) 6 ⟨2 + w.length, 2, h, ch '$', [], []⟩
  | s2a (w : List Byte) (hw : IsWord w) (s : Byte) (hs : isSep s = true) :
      Inv (w ++ [s]) 2 ⟨w.length + 1, 0, ch '0', s, w, []⟩
  | s2b (h : Byte) (hh : isHex h = true) (w : List Byte) (hw : IsWord w)
      (s : Byte) (hs : isSep s = true) :
      Inv ([h, ch '/'] ++ w ++ [s]) 2 ⟨2 + w.length + 1, 2, h, s, w, []⟩
  | s5a (w : List Byte) (hw : IsWord w) (s : Byte) (hs : isSep s = true)
      (o : List Byte) (ho : IsWord o) :
      Inv (w ++ [s] ++ o) 5 ⟨w.length + 1 + o.length, w.length + 1, ch '0', s, w, []⟩
  | s5b (h : Byte) (hh : isHex h = true) (w : List Byte) (hw : IsWord w)
      (s : Byte) (hs : isSep s = true) (o : List Byte) (ho : IsWord o) :
      Inv ([h, ch '/'] ++ w ++ [s] ++ o) 5
        ⟨2 + w.length + 1 + o.length, 2 + w.length + 1, h, s, w, []⟩

/-- What each state does on each byte: the complete transition function of the table,
in terms of the byte classes of the specification. -/
theorem tbl1 : ∀ c : Byte, stepIn UuidTable.rows 1 c =
    if isHex c then some ([.begin_uuid, .begin_value], 4)
    else if isB64 c then some ([.begin_uuid, .begin_value], 6) else none :=
  forall_byte (by decide +kernel)
theorem tbl4 : ∀ c : Byte, stepIn UuidTable.rows 4 c =
    if c.toNat = 47 then some ([.variety], 3)
    else if isSep c then some ([.end_value, .version], 2)
    else if isB64 c then some ([], 6) else none :=
  forall_byte (by decide +kernel)
theorem tbl3 : ∀ c : Byte, stepIn UuidTable.rows 3 c =
    if isB64 c then some ([.begin_value], 6) else none :=
  forall_byte (by decide +kernel)
theorem tbl6 : ∀ c : Byte, stepIn UuidTable.rows 6 c =
    if isSep c then some ([.end_value, .version], 2)
    else if isB64 c then some ([], 6) else none :=
  forall_byte (by decide +kernel)
theorem tbl2 : ∀ c : Byte, stepIn UuidTable.rows 2 c =
    if isB64 c then some ([.begin_origin], 5) else none :=
  forall_byte (by decide +kernel)
theorem tbl5 : ∀ c : Byte, stepIn UuidTable.rows 5 c =
    if isB64 c then some ([], 5) else none :=
  forall_byte (by decide +kernel)

theorem hex_b64 : ∀ c : Byte, isHex c = true → isB64 c = true :=
  forall_byte (by decide +kernel)
theorem sep_not_b64 : ∀ c : Byte, isSep c = true → isB64 c = false :=
  forall_byte (by decide +kernel)
theorem sep_not_hex : ∀ c : Byte, isSep c = true → isHex c = false :=
  forall_byte (by decide +kernel)
theorem slash_eq : ∀ c : Byte, c.toNat = 47 → c = ch '/' := forall_byte (by decide +kernel)
theorem b64_not_slash : ∀ c : Byte, isB64 c = true → c.toNat ≠ 47 :=
  forall_byte (by decide +kernel)
theorem sep_not_slash : ∀ c : Byte, isSep c = true → c.toNat ≠ 47 :=
  forall_byte (by decide +kernel)

theorem hex_lt : ∀ c : Byte, isHex c = true → b64digit c < 16 := forall_byte (by decide +kernel)

theorem isWord_snoc {w : List Byte} {c : Byte} (hw : ∀ x ∈ w, isB64 x = true)
    (hc : isB64 c = true) : IsWord (w ++ [c]) := by
  refine ⟨by simp, ?_⟩
  intro x hx
  simp only [List.mem_append, List.mem_singleton] at hx
  rcases hx with hx | rfl
  · exact hw x hx
  · exact hc

theorem isWord_single {c : Byte} (hc : isB64 c = true) : IsWord [c] :=
  ⟨by simp, by simpa using hc⟩

/-- One step preserves the invariant or goes to the error state; no memory error. -/
theorem inv_step (buf pre rest : List Byte) (c : Byte) (hb : buf = pre ++ [c] ++ rest)
    (s : Nat) (r : Regs) (hi : Inv pre s r) :
    (∃ r', step buf (some (s, r)) c = some (0, r')) ∨
    (∃ t r', step buf (some (s, r)) c = some (t, r') ∧ Inv (pre ++ [c]) t r') := by
  cases hi with
  | s1 =>
    simp only [step, tbl1]
    by_cases h1 : isHex c
    · right
      exact ⟨4, _, by simp [h1, acts, act]; rfl, by simpa using Inv.s4 c h1⟩
    · by_cases h2 : isB64 c
      · right
        exact ⟨6, _, by simp [h1, h2, acts, act]; rfl, by simpa using Inv.s6a [c] (isWord_single h2)⟩
      · left; exact ⟨_, by simp [h1, h2]; rfl⟩
  | s4 h hh =>
    simp only [step, tbl4]
    by_cases h0 : c.toNat = 47
    · right
      have hget : buf[0]? = some h := by subst hb; simp
      refine ⟨3, _, by simp [h0, acts, act, hget]; rfl, ?_⟩
      rw [slash_eq c h0]; simpa using Inv.s3 h hh
    · by_cases h1 : isSep c
      · right
        have hs : slice buf 0 1 = [h] := slice_mid buf [] [h] ([c] ++ rest) 0 1 (by simpa using hb) rfl rfl
        refine ⟨2, _, by simp [h0, h1, acts, act, hs]; rfl, ?_⟩
        exact Inv.s2a [h] (isWord_single (hex_b64 h hh)) c h1
      · by_cases h2 : isB64 c
        · right
          refine ⟨6, _, by simp [h0, h1, h2, acts]; rfl, ?_⟩
          have := Inv.s6a ([h] ++ [c]) (isWord_snoc (by simpa using hex_b64 h hh) h2)
          simpa using this
        · left; exact ⟨_, by simp [h0, h1, h2]; rfl⟩
  | s3 h hh =>
    simp only [step, tbl3]
    by_cases h2 : isB64 c
    · right
      refine ⟨6, _, by simp [h2, acts, act]; rfl, ?_⟩
      simpa using Inv.s6b h hh [c] (isWord_single h2)
    · left; exact ⟨_, by simp [h2]; rfl⟩
  | s6a _ hw =>
    simp only [step, tbl6]
    by_cases h1 : isSep c
    · right
      have hs : slice buf 0 pre.length = pre :=
        slice_mid buf [] pre ([c] ++ rest) 0 _ (by simpa using hb) rfl (by simp)
      refine ⟨2, _, by simp [h1, acts, act, hs]; rfl, ?_⟩
      exact Inv.s2a pre hw c h1
    · by_cases h2 : isB64 c
      · right
        refine ⟨6, _, by simp [h1, h2, acts]; rfl, ?_⟩
        have := Inv.s6a (pre ++ [c]) (isWord_snoc hw.2 h2)
        simpa using this
      · left; exact ⟨_, by simp [h1, h2]; rfl⟩
  | s6b h hh w hw =>
    simp only [step, tbl6]
    by_cases h1 : isSep c
    · right
      have hs : slice buf 2 (2 + w.length) = w :=
        slice_mid buf [h, ch '/'] w ([c] ++ rest) 2 _ (by simpa using hb) rfl (by simp)
      refine ⟨2, _, by simp [h1, acts, act, hs]; rfl, ?_⟩
      exact Inv.s2b h hh w hw c h1
    · by_cases h2 : isB64 c
      · right
        refine ⟨6, _, by simp [h1, h2, acts]; rfl, ?_⟩
        have := Inv.s6b h hh (w ++ [c]) (isWord_snoc hw.2 h2)
        simpa [Nat.add_assoc] using this
      · left; exact ⟨_, by simp [h1, h2]; rfl⟩
  | s2a w hw s hs =>
    simp only [step, tbl2]
    by_cases h2 : isB64 c
    · right
      refine ⟨5, _, by simp [h2, acts, act]; rfl, ?_⟩
      exact Inv.s5a w hw s hs [c] (isWord_single h2)
    · left; exact ⟨_, by simp [h2]; rfl⟩
  | s2b h hh w hw s hs =>
    simp only [step, tbl2]
    by_cases h2 : isB64 c
    · right
      refine ⟨5, _, by simp [h2, acts, act]; rfl, ?_⟩
      exact Inv.s5b h hh w hw s hs [c] (isWord_single h2)
    · left; exact ⟨_, by simp [h2]; rfl⟩
  | s5a w hw s hs o ho =>
    simp only [step, tbl5]
    by_cases h2 : isB64 c
    · right
      refine ⟨5, _, by simp [h2, acts]; rfl, ?_⟩
      have := Inv.s5a w hw s hs (o ++ [c]) (isWord_snoc ho.2 h2)
      simpa [Nat.add_assoc] using this
    · left; exact ⟨_, by simp [h2]; rfl⟩
  | s5b h hh w hw s hs o ho =>
    simp only [step, tbl5]
    by_cases h2 : isB64 c
    · right
      refine ⟨5, _, by simp [h2, acts]; rfl, ?_⟩
      have := Inv.s5b h hh w hw s hs (o ++ [c]) (isWord_snoc ho.2 h2)
      simpa [Nat.add_assoc] using this
    · left; exact ⟨_, by simp [h2]; rfl⟩

theorem foldl_err (buf rest : List Byte) (r : Regs) :
    rest.foldl (step buf) (some (0, r)) = some (0, r) := by
  induction rest with
  | nil => rfl
  | cons c cs ih => simpa [List.foldl_cons, step] using ih

theorem run_inv_aux (buf rest : List Byte) : ∀ pre s r, buf = pre ++ rest → Inv pre s r →
    (∃ r', rest.foldl (step buf) (some (s, r)) = some (0, r')) ∨
    (∃ t r', rest.foldl (step buf) (some (s, r)) = some (t, r') ∧ Inv buf t r') := by
  induction rest with
  | nil => intro pre s r hb hi; right; exact ⟨s, r, rfl, by simpa [hb] using hi⟩
  | cons c cs ih =>
    intro pre s r hb hi
    rw [List.foldl_cons]
    rcases inv_step buf pre cs c (by simpa using hb) s r hi with ⟨r', h⟩ | ⟨t, r', h, hi'⟩
    · left; exact ⟨r', by rw [h, foldl_err]⟩
    · rw [h]; exact ih (pre ++ [c]) t r' (by simpa using hb) hi'

/-- The run never touches memory outside of the input; it ends in the error state or in a
state whose invariant describes the whole input. -/
theorem run_inv (buf : List Byte) :
    (∃ r', run buf = some (0, r')) ∨ (∃ t r', run buf = some (t, r') ∧ Inv buf t r') :=
  run_inv_aux buf buf [] 1 _ rfl Inv.s1

/-! Forward runs over well-formed pieces. -/

theorem fwd6 (buf w : List Byte) (hw : ∀ c ∈ w, isB64 c = true) : ∀ r : Regs,
    w.foldl (step buf) (some (6, r)) = some (6, { r with p := r.p + w.length }) := by
  induction w with
  | nil => intro r; rfl
  | cons c cs ih =>
    intro r
    have h2 := hw c (by simp)
    have h1 : isSep c = false := by
      cases h : isSep c with
      | false => rfl
      | true => rw [sep_not_b64 c h] at h2; exact absurd h2 (by decide)
    rw [List.foldl_cons]
    have : step buf (some (6, r)) c = some (6, { r with p := r.p + 1 }) := by
      simp [step, tbl6, h1, h2, acts]
    rw [this, ih (fun x hx => hw x (by simp [hx]))]
    simp; omega

theorem fwd5 (buf w : List Byte) (hw : ∀ c ∈ w, isB64 c = true) : ∀ r : Regs,
    w.foldl (step buf) (some (5, r)) = some (5, { r with p := r.p + w.length }) := by
  induction w with
  | nil => intro r; rfl
  | cons c cs ih =>
    intro r
    have h2 := hw c (by simp)
    rw [List.foldl_cons]
    have : step buf (some (5, r)) c = some (5, { r with p := r.p + 1 }) := by
      simp [step, tbl5, h2, acts]
    rw [this, ih (fun x hx => hw x (by simp [hx]))]
    simp; omega

theorem fwd4 (buf w : List Byte) (hw : ∀ c ∈ w, isB64 c = true) (r : Regs) :
    ∃ t, (t = 4 ∨ t = 6) ∧
      w.foldl (step buf) (some (4, r)) = some (t, { r with p := r.p + w.length }) := by
  cases w with
  | nil => exact ⟨4, .inl rfl, rfl⟩
  | cons c cs =>
    have h2 := hw c (by simp)
    have h0 := b64_not_slash c h2
    have h1 : isSep c = false := by
      cases h : isSep c with
      | false => rfl
      | true => rw [sep_not_b64 c h] at h2; exact absurd h2 (by decide)
    refine ⟨6, .inr rfl, ?_⟩
    rw [List.foldl_cons]
    have : step buf (some (4, r)) c = some (6, { r with p := r.p + 1 }) := by
      simp [step, tbl4, h0, h1, h2, acts]
    rw [this, fwd6 buf cs (fun x hx => hw x (by simp [hx]))]
    simp; omega

/-- Prefix and value part. -/
theorem fwd_value (buf pre v : List Byte) (vr : Nat) (hp : IsVariety pre vr) (hv : IsWord v)
    (rest : List Byte) (hb : buf = pre ++ v ++ rest) :
    ∃ t vch, (t = 4 ∨ t = 6) ∧ ABC vch = some vr ∧ vr < 16 ∧
      (pre ++ v).foldl (step buf) (some (1, Regs.init))
        = some (t, ⟨pre.length + v.length, pre.length, vch, ch '$', [], []⟩) := by
  obtain ⟨hne, hall⟩ := hv
  cases v with
  | nil => exact absurd rfl hne
  | cons c cs =>
    have hc := hall c (by simp)
    have hcs : ∀ x ∈ cs, isB64 x = true := fun x hx => hall x (by simp [hx])
    cases hp with
    | none =>
      by_cases hx : isHex c
      · have h1 : step buf (some (1, Regs.init)) c = some (4, ⟨1, 0, ch '0', ch '$', [], []⟩) := by
          simp [step, tbl1, hx, acts, act, Regs.init]
        obtain ⟨t, ht, h2⟩ := fwd4 buf cs hcs ⟨1, 0, ch '0', ch '$', [], []⟩
        refine ⟨t, ch '0', ht, by decide, by decide, ?_⟩
        rw [List.nil_append, List.foldl_cons, h1, h2]
        simp [Nat.add_comm]
      · have h1 : step buf (some (1, Regs.init)) c = some (6, ⟨1, 0, ch '0', ch '$', [], []⟩) := by
          simp [step, tbl1, hx, hc, acts, act, Regs.init]
        refine ⟨6, ch '0', .inr rfl, by decide, by decide, ?_⟩
        rw [List.nil_append, List.foldl_cons, h1, fwd6 buf cs hcs]
        simp [Nat.add_comm]
    | some h hh =>
      have hhb := hex_b64 h hh
      have hget : buf[0]? = some h := by subst hb; simp
      have h1 : step buf (some (1, Regs.init)) h = some (4, ⟨1, 0, ch '0', ch '$', [], []⟩) := by
        simp [step, tbl1, hh, acts, act, Regs.init]
      have h2 : step buf (some (4, ⟨1, 0, ch '0', ch '$', [], []⟩)) (ch '/')
          = some (3, ⟨2, 0, h, ch '$', [], []⟩) := by
        have : (ch '/').toNat = 47 := by decide
        simp [step, tbl4, this, acts, act, hget]
      have h3 : step buf (some (3, ⟨2, 0, h, ch '$', [], []⟩)) c
          = some (6, ⟨3, 2, h, ch '$', [], []⟩) := by
        simp [step, tbl3, hc, acts, act]
      refine ⟨6, h, .inr rfl, ABC_b64 h hhb, ?_, ?_⟩
      · exact hex_lt h hh
      · simp only [List.cons_append, List.nil_append, List.foldl_cons]
        rw [h1, h2, h3, fwd6 buf cs hcs]
        simp; omega

theorem ABC_sep : ∀ c : Byte, isSep c = true → ABC c = some (sepCode c) ∧ sepCode c < 4 :=
  forall_byte (by decide +kernel)

theorem parts_denote (vch sch : Byte) (vr sr : Nat) (v o : List Byte)
    (hv : ABC vch = some vr) (hs : ABC sch = some sr) (hvr : vr < 16) (hsr : sr < 16)
    (hvb : ∀ c ∈ v, isB64 c = true) (hob : ∀ c ∈ o, isB64 c = true)
    (hvl : v.length ≤ 10) (hol : o.length ≤ 10) :
    Uuid.parts vch v sch o = some (denote vr v sr o) := by
  obtain ⟨a, ha, hav⟩ := Word.parse_val vr v hvb hvl
  obtain ⟨b, hb, hbv⟩ := Word.parse_val sr o hob hol
  simp only [Uuid.parts, hv, hs, ha, hb, denote, wordVal]
  congr 2
  · apply BitVec.eq_of_toNat_eq
    rw [Nat.mod_eq_of_lt hvr] at hav
    rw [BitVec.toNat_ofNat, ← hav, Nat.mod_eq_of_lt a.isLt]
  · apply BitVec.eq_of_toNat_eq
    rw [Nat.mod_eq_of_lt hsr] at hbv
    rw [BitVec.toNat_ofNat, ← hbv, Nat.mod_eq_of_lt b.isLt]

/-- The whole constructor on a complete text. -/
theorem parse_text (s : List Byte) (vr : Nat) (v : List Byte) (ver : Nat) (o : List Byte)
    (h : UuidText s vr v ver o) :
    parse s = if v.length ≤ 10 ∧ o.length ≤ 10 then some (denote vr v ver o)
      else some Uuid.FATAL := by
  obtain ⟨⟨pre, tail, hs, hpre, htail⟩, hv⟩ := h
  obtain ⟨t, vch, ht, hvch, hvr, hfold⟩ := fwd_value s pre v vr hpre hv tail hs
  cases htail with
  | none =>
    have hrun : run s = some (t, ⟨pre.length + v.length, pre.length, vch, ch '$', [], []⟩) := by
      have : run s = (pre ++ v).foldl (step s) (some (1, Regs.init)) := by
        have h2 : s = pre ++ v := by simpa using hs
        rw [← h2]; rfl
      rw [this]; exact hfold
    have hsl : slice s pre.length (pre.length + v.length) = v :=
      slice_mid s pre v [] _ _ (by simpa using hs) rfl rfl
    have hd : ABC (ch '$') = some 0 := by decide
    have key : parse s = if v.length ≤ 10 ∧ ([] : List Byte).length ≤ 10 then
        Uuid.parts vch v (ch '$') [] else some Uuid.FATAL := by
      rcases ht with rfl | rfl <;>
        simp [parse, hrun, UuidTable.eofActs, acts, act, hsl]
    rw [key]
    split
    · rename_i hl
      exact parts_denote vch (ch '$') vr 0 v [] hvch hd hvr (by decide) hv.2 (by simp) hl.1 hl.2
    · rfl
  | some sp o hsp ho =>
    obtain ⟨hne, hob⟩ := ho
    cases o with
    | nil => exact absurd rfl hne
    | cons c cs =>
      have hc := hob c (by simp)
      have hcs : ∀ x ∈ cs, isB64 x = true := fun x hx => hob x (by simp [hx])
      have hsl : slice s pre.length (pre.length + v.length) = v :=
        slice_mid s pre v (sp :: c :: cs) _ _ hs rfl rfl
      have h1 : step s (some (t, ⟨pre.length + v.length, pre.length, vch, ch '$', [], []⟩)) sp
          = some (2, ⟨pre.length + v.length + 1, pre.length, vch, sp, v, []⟩) := by
        have h0 := sep_not_slash sp hsp
        rcases ht with rfl | rfl <;>
          simp [step, tbl4, tbl6, h0, hsp, acts, act, hsl]
      have h2 : step s (some (2, ⟨pre.length + v.length + 1, pre.length, vch, sp, v, []⟩)) c
          = some (5, ⟨pre.length + v.length + 2, pre.length + v.length + 1, vch, sp, v, []⟩) := by
        simp [step, tbl2, hc, acts, act]
      have hrun : run s = some (5, ⟨pre.length + v.length + 2 + cs.length,
          pre.length + v.length + 1, vch, sp, v, []⟩) := by
        unfold run
        have : s.foldl (step s) (some (UuidTable.start, Regs.init)) =
            (sp :: c :: cs).foldl (step s) ((pre ++ v).foldl (step s) (some (1, Regs.init))) := by
          rw [← List.foldl_append, ← hs]; rfl
        rw [this, hfold, List.foldl_cons, h1, List.foldl_cons, h2, fwd5 s cs hcs]
      have hsl2 : slice s (pre.length + v.length + 1) (pre.length + v.length + 2 + cs.length)
          = c :: cs :=
        slice_mid s (pre ++ v ++ [sp]) (c :: cs) [] _ _ (by simpa using hs)
          (by simp; omega) (by simp; omega)
      obtain ⟨hsc, hsc4⟩ := ABC_sep sp hsp
      have key : parse s = if v.length ≤ 10 ∧ (c :: cs).length ≤ 10 then
          Uuid.parts vch v sp (c :: cs) else some Uuid.FATAL := by
        simp only [parse, hrun, UuidTable.eofActs, acts, act, List.foldlM_cons, List.foldlM_nil,
          Option.bind_eq_bind, Option.bind_some, hsl2]
        rfl
      rw [key]
      split
      · rename_i hl
        exact parts_denote vch sp vr (sepCode sp) v (c :: cs) hvch hsc hvr (by omega) hv.2 hob
          hl.1 hl.2
      · rfl

/-- The constructor on a truncated text. -/
theorem inv_classify {s : List Byte} {t : Nat} {r : Regs} (h : Inv s t r) :
    Truncated s ∨ ∃ vr v ver o, UuidText s vr v ver o := by
  cases h with
  | s1 => exact .inl .empty
  | s4 h hh => exact .inr ⟨0, [h], 0, [], ⟨[], [], by simp, .none, .none⟩, isWord_single (hex_b64 h hh)⟩
  | s3 h hh => exact .inl (.prefix h hh)
  | s6a _ hw => exact .inr ⟨0, s, 0, [], ⟨[], [], by simp, .none, .none⟩, hw⟩
  | s6b h hh w hw => exact .inr ⟨_, w, 0, [], ⟨_, [], by simp, .some h hh, .none⟩, hw⟩
  | s2a w hw s hs => exact .inl (.noOrigin [] 0 w s .none hw hs)
  | s2b h hh w hw s hs => exact .inl (.noOrigin _ _ w s (.some h hh) hw hs)
  | s5a w hw s hs o ho => exact .inr ⟨0, w, _, o, ⟨[], s :: o, by simp, .none, .some s o hs ho⟩, hw⟩
  | s5b h hh w hw s hs o ho =>
    exact .inr ⟨_, w, _, o, ⟨_, s :: o, by simp, .some h hh, .some s o hs ho⟩, hw⟩

/-- Anything that is neither a text nor a truncated text yields FATAL. -/
theorem parse_reject (s : List Byte) (h1 : ¬ Truncated s)
    (h2 : ¬ ∃ vr v ver o, UuidText s vr v ver o) : parse s = some Uuid.FATAL := by
  rcases run_inv s with ⟨r, h⟩ | ⟨t, r, h, hi⟩
  · simp [parse, h]
  · rcases inv_classify hi with h | h
    · exact absurd h h1
    · exact absurd h h2

/-- The constructor never fails (no bad memory access, no failed assertion). -/
theorem parse_total (s : List Byte) : ∃ u, parse s = some u := by
  by_cases h2 : ∃ vr v ver o, UuidText s vr v ver o
  · obtain ⟨vr, v, ver, o, h⟩ := h2
    rw [parse_text s vr v ver o h]; split <;> exact ⟨_, rfl⟩
  by_cases h1 : Truncated s
  · cases h1 with
    | empty => exact Option.isSome_iff_exists.mp (by decide +kernel)
    | «prefix» h hh =>
      clear h2; revert hh; revert h; refine forall_byte ?_
      have : ∀ n : Fin 256, isHex (UInt8.ofNat n.val) = true →
          (parse [UInt8.ofNat n.val, ch '/']).isSome := by decide +kernel
      intro n hn; exact Option.isSome_iff_exists.mp (this n hn)
    | noOrigin pre vr v sp hp hv hs =>
      generalize hb : pre ++ v ++ [sp] = buf
      obtain ⟨t, vch, ht, hvch, hvr, hfold⟩ := fwd_value buf pre v vr hp hv [sp] hb.symm
      have hsl : slice buf pre.length (pre.length + v.length) = v :=
        slice_mid _ pre v [sp] _ _ hb.symm rfl rfl
      have h1 : step buf
          (some (t, ⟨pre.length + v.length, pre.length, vch, ch '$', [], []⟩)) sp
          = some (2, ⟨pre.length + v.length + 1, pre.length, vch, sp, v, []⟩) := by
        have h0 := sep_not_slash sp hs
        rcases ht with rfl | rfl <;> simp [step, tbl4, tbl6, h0, hs, acts, act, hsl]
      have hrun : run buf
          = some (2, ⟨pre.length + v.length + 1, pre.length, vch, sp, v, []⟩) := by
        have : run buf = [sp].foldl (step buf)
            ((pre ++ v).foldl (step buf) (some (1, Regs.init))) := by
          rw [← List.foldl_append, hb]; rfl
        rw [this, hfold]; simpa using h1
      obtain ⟨hsc, hsc4⟩ := ABC_sep sp hs
      have key : parse buf = if v.length ≤ 10 ∧ ([]:List Byte).length ≤ 10 then
          Uuid.parts vch v sp [] else some Uuid.FATAL := by
        simp [parse, hrun, UuidTable.eofActs, acts]
      rw [key]
      split
      · rename_i hl
        exact ⟨_, parts_denote vch sp vr (sepCode sp) v [] hvch hsc hvr (by omega) hv.2 (by simp)
          hl.1 hl.2⟩
      · exact ⟨_, rfl⟩
  · exact ⟨_, parse_reject s h1 h2⟩

end UuidParser
end Ron
