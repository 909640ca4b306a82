import Verif.Spec.Builder
import Verif.Lemmas.TextFrameGo
import Verif.Lemmas.Literals
import Verif.Lemmas.UuidText
/-!
The builder keeps its data a text of the grammar.
-/
namespace Ron
open Spec

attribute [local irreducible] Atom.type Atom.rBegin Atom.rEnd Atom.cp Atom.cpSize Atom.setCp
  Atom.setCpSize Atom.consume Atom.ofRange Atom.rawValid Uuid.inc

namespace TextParser

theorem OpsText_snoc {p q : Uuid} {s s' : List Byte} {l : List (Nat × OpView)} {t : Nat}
    {ops : List OpView} {o : OpView} (h : OpsText p s l q) (h' : OpText q s' t ops)
    (hl : ops.getLast? = some o) :
    OpsText p (s ++ s') (l ++ ops.map (fun o => (t, o))) o.id := by
  induction h with
  | nil => simpa using OpsText.cons h' hl .nil
  | cons h hl' _ ih =>
    rw [List.append_assoc, List.append_assoc]
    exact .cons h hl' (ih h')

theorem spanOps_snoc (l : List (List View)) (v : List View) (hl : l ≠ []) (id ref : Uuid) :
    spanOps id ref (l ++ [v]) =
      spanOps id ref l ++ [⟨idAfter id l.length, idAfter id (l.length - 1), v⟩] := by
  have key : ∀ (l : List (List View)) (id ref : Uuid) (k : Nat), l ≠ [] →
      spanOps (idAfter id k) ref (l ++ [v]) = spanOps (idAfter id k) ref l ++
        [⟨idAfter id (k + l.length), idAfter id (k + l.length - 1), v⟩] := by
    intro l
    induction l with
    | nil => intro _ _ _ h; exact absurd rfl h
    | cons x xs ih =>
      intro id ref k _
      rw [List.cons_append, spanOps, spanOps, inc_idAfter]
      cases xs with
      | nil => simp [spanOps]
      | cons y ys =>
        rw [ih id _ (k + 1) (by simp)]
        simp only [List.length_cons, List.cons_append, List.cons.injEq, true_and]
        rw [show k + 1 + (ys.length + 1) = k + (ys.length + 1 + 1) by omega]
  have := key l id ref 0 hl
  simpa [idAfter_zero] using this

end TextParser

namespace Builder
open TextParser

/-! ### states -/

/-- The signature of values, `span_signature`. -/
def sig : List View → Atom
  | [.uuid u] => u
  | [.text s] => if chars s = 1 then strSig else Uuid.NIL
  | _ => Uuid.NIL

/-- No op is open. -/
structure Idle (b : Builder) (l : List (Nat × OpView)) : Prop where
  span : b.span = 0
  data : ∃ pre w, b.data = pre ++ w ∧ Blank w ∧ OpsText Uuid.NIL pre l b.prevId

/-- The ops `ops` are being written; `head` is the text of the first character of a run that is not
reopened yet. -/
inductive Pend (b : Builder) (l : List (Nat × OpView)) : List OpView → Option (List Byte) → Prop
  | plain {pre h a : List Byte} {prev id ref : Uuid} {vs : List View} {n : Nat}
      (hp : OpsText Uuid.NIL pre l prev) (hh : HeadText prev h id ref []) (ha : AtomsText a vs)
      (hd : b.data = pre ++ h ++ a) (hn : b.span = n + 1) (hid : b.prevId = idAfter id n)
      (hs : b.prev2 = sig vs) (ht : Atom.type b.prev2 ≠ Atom.tSTRING) :
      Pend b l (spanOps id ref (List.replicate (n + 1) vs)) none
  | char {pre h x : List Byte} {prev id ref : Uuid} {c : Nat}
      (hp : OpsText Uuid.NIL pre l prev) (hh : HeadText prev h id ref [])
      (hx : CpText x (c, false)) (hc : c ≠ 0)
      (hd : b.data = pre ++ h ++ 32 :: 39 :: (x ++ [39])) (hn : b.span = 1) (hid : b.prevId = id)
      (hs : b.prev2 = strSig) : Pend b l [⟨id, ref, [.text (utf8append c)]⟩] (some x)
  | spread {pre h s : List Byte} {prev id ref : Uuid} {cs : List Nat} {n : Nat}
      (hp : OpsText Uuid.NIL pre l prev) (hh : HeadText prev h id ref [])
      (hx : StrText s (cs.map fun c => (c, false))) (hc : ∀ c ∈ cs, c ≠ 0) (hl : cs.length = n + 2)
      (hd : b.data = pre ++ h ++ 32 :: 40 :: 39 :: s) (hn : b.span = n + 2)
      (hid : b.prevId = idAfter id (n + 1)) (hs : b.prev2 = strSig) :
      Pend b l (spanOps id ref (cs.map fun c => [.text (utf8append c)])) none

theorem type_strSig : Atom.type strSig = Atom.tSTRING := by
  with_unfolding_all decide

theorem termPunct_code {t : Nat} (ht : t < 4) : (termPunct t, t) ∈ termCodes := by
  have : t = 0 ∨ t = 1 ∨ t = 2 ∨ t = 3 := by omega
  rcases this with rfl | rfl | rfl | rfl <;> decide

theorem blank_nl : Blank [10] := by unfold Blank; decide
theorem blank_nil : Blank [] := by intro c h; simp at h
theorem blank_sp : Blank [32] := by unfold Blank; decide

theorem asRead_false (cs : List Nat) : asRead (cs.map fun c => (c, false)) = cs := by
  induction cs with
  | nil => rfl
  | cons c cs ih =>
    cases cs with
    | nil => rfl
    | cons d ds =>
      rw [List.map_cons, List.map_cons, asRead, ← List.map_cons (f := fun c => (c, false)), ih]

/-- Ending an op. -/
theorem close {b : Builder} {l : List (Nat × OpView)} {ops : List OpView} {hd : Option (List Byte)}
    (h : Pend b l ops hd) (hsp : b.span < 2 ^ 32) {t : Nat} (ht : t < 4) :
    ∃ b', b.writeTerm t = .ok b' ∧ Idle b' (l ++ ops.map fun o => (t, o)) ∧
      b'.prevId = b.prevId ∧ b'.prev2 = b.prev2 := by
  have hc := termPunct_code ht
  cases h with
  | @plain pre h a prev id ref vs n hp hh ha hd hn hid hs hty =>
    obtain ⟨o, e1, e2⟩ := spanOps_last (l := List.replicate (n + 1) vs) (by simp) id ref
    rw [List.length_replicate, Nat.add_sub_cancel, ← hid] at e2
    by_cases h1 : n = 0
    · subst h1
      have ho := OpText.mk hh ha blank_nil .none blank_nil hc
      refine ⟨{ b.write [termPunct t, 10] with span := 0 }, ?_, ⟨rfl, pre ++ (h ++ a ++ [] ++ [] ++ [] ++ [termPunct t]), [10], ?_, blank_nl, ?_⟩, rfl, rfl⟩
      · unfold writeTerm
        rw [if_neg (by omega), if_neg (by omega)]; rfl
      · simp [write, hd]
      · have := OpsText_snoc hp ho e1
        rw [e2] at this; exact this
    · obtain ⟨d1, d2, d3, -⟩ := decDigits_spec 20 (n + 1) (by omega) (by omega)
      have hw : writeInt ((n + 1 : Nat) : Int) = some (decDigits 20 (n + 1)) := by
        unfold writeInt sprintfInt
        have := (decDigits_length (n + 1) 10 (by omega) (by omega)).2 (by omega)
        have hneg : ¬ ((n + 1 : Nat) : Int) < 0 := by omega
        simp only [if_neg hneg, Int.natAbs_natCast]
        rw [if_pos (by omega)]
      have ho := OpText.mk (vs := vs) (v := []) hh ha blank_nil (.count blank_nil ⟨d3, d1⟩ blank_nil (by omega) (by omega)) blank_nil hc
      rw [d2, List.nil_append] at ho
      refine ⟨{ (b.write (40 :: decDigits 20 (n + 1) ++ [41])).write [termPunct t, 10] with span := 0 }, ?_, ⟨rfl, pre ++ (h ++ a ++ [] ++ (40 :: ([] ++ decDigits 20 (n + 1) ++ [] ++ [41])) ++ [] ++ [termPunct t]), [10], ?_, blank_nl, ?_⟩, rfl, rfl⟩
      · unfold writeTerm
        rw [if_neg (by omega), if_pos (by omega), if_pos hty, hn, hw]; rfl
      · simp [write, hd]
      · have := OpsText_snoc hp ho e1
        rw [e2] at this; exact this
  | @char pre h x prev id ref c hp hh hx hc0 hd hn hid hs =>
    have hst : AtomText false (39 :: (x ++ [39])) (.text (utf8append c)) := by
      have := AtomText.str (.cons hx .nil)
      simpa [asRead] using this
    have ha := AtomsText.cons blank_sp (by simp) hst .nil
    have ho := OpText.mk hh ha blank_nil .none blank_nil hc
    refine ⟨{ b.write [termPunct t, 10] with span := 0 }, ?_, ⟨rfl, pre ++ (h ++ ([32] ++ 39 :: (x ++ [39]) ++ []) ++ [] ++ [] ++ [] ++ [termPunct t]), [10], ?_, blank_nl, ?_⟩, rfl, rfl⟩
    · unfold writeTerm
      rw [if_neg (by omega), if_neg (by omega)]; rfl
    · simp [write, hd]
    · have := OpsText_snoc (o := ⟨id, ref, _⟩) hp ho rfl
      simp only [← hid] at this ⊢
      simpa [spanOps, write] using this
  | @spread pre h s prev id ref cs n hp hh hx hc0 hl hd hn hid hs =>
    obtain ⟨o, e1, e2⟩ := spanOps_last (l := cs.map fun c => [View.text (utf8append c)])
      (by intro e; have := congrArg List.length e; simp at this; simp [this] at hl) id ref
    rw [List.length_map, hl, Nat.add_sub_cancel_right (n := n + 1) (m := 1), ← hid] at e2
    have ho := OpText.mk (vs := []) (v := []) hh .nil blank_sp (.spread blank_nil hx blank_nil
      (by intro e; have := congrArg List.length e; simp at this; simp [this] at hl)
      (by rw [asRead_false]; exact hc0)) blank_nil hc
    rw [asRead_false] at ho
    refine ⟨{ (b.write [39, 41]).write [termPunct t, 10] with span := 0 }, ?_, ⟨rfl, pre ++ (h ++ [] ++ [32] ++ 40 :: ([] ++ 39 :: (s ++ 39 :: ([] ++ [41]))) ++ [] ++ [termPunct t]), [10], ?_, blank_nl, ?_⟩, rfl, rfl⟩
    · unfold writeTerm
      rw [if_neg (by omega), if_pos (by omega), if_neg (by rw [hs, type_strSig]; simp)]; rfl
    · simp [write, hd]
    · have := OpsText_snoc hp ho e1
      rw [e2] at this; exact this


/-! ### sources -/

/-- The source `s` presents the op `o`; if its value is one character, then as the text `x` in
quotes. -/
structure Shown (f : Atom → Out (List Byte)) (s : Src) (o : OpView) (x : List Byte) : Prop where
  vals : ∃ vals d, s.op = o.id :: o.ref :: vals ∧ writeAll f vals = .ok d ∧ AtomsText d o.vals ∧
    ∀ t, o.vals = [.text t] → chars t = 1 → ∃ c, t = utf8append c ∧ CpText x (c, false) ∧
      CpText (utf8escAppend c) (c, false) ∧ c ≠ 0 ∧ d = 32 :: 39 :: (x ++ [39]) ∧
      ∃ a r, vals[0]? = some a ∧ (if Atom.cp a = 0 then s.nextCp a else .ok (a, true)) = .ok r ∧
        Atom.cp r.1 = c
  sig : spanSignature s = sig o.vals
  idLit : UuidLit o.id.str o.id
  refLit : UuidLit o.ref.str o.ref
  valType : ∀ u, o.vals = [.uuid u] → Atom.type u = Atom.tUUID

theorem sig_type {vs : List View} (h : ∀ u, vs = [.uuid u] → Atom.type u = Atom.tUUID) :
    (∃ t, vs = [.text t] ∧ chars t = 1 ∧ sig vs = strSig) ∨ Atom.type (sig vs) ≠ Atom.tSTRING := by
  have hnil : Atom.type Uuid.NIL ≠ Atom.tSTRING := by with_unfolding_all decide
  unfold sig
  split
  · exact .inr (by rw [h _ rfl]; decide)
  · rename_i t
    by_cases h1 : chars t = 1
    · exact .inl ⟨t, rfl, h1, by rw [if_pos h1]⟩
    · exact .inr (by rw [if_neg h1]; exact hnil)
  · exact .inr hnil

theorem sig_alike {pv vs : List View} (h1 : ∀ u, pv = [.uuid u] → Atom.type u = Atom.tUUID)
    (h2 : ∀ u, vs = [.uuid u] → Atom.type u = Atom.tUUID) :
    (sig pv ≠ Uuid.NIL ∧ sig vs = sig pv) ↔ alike pv vs = true := by
  have hst : ∀ u : Uuid, Atom.type u = Atom.tUUID → u ≠ strSig := by
    intro u hu e
    rw [e, type_strSig] at hu
    exact absurd hu (by decide)
  have hsn : strSig ≠ Uuid.NIL := by decide
  have hnu : ∀ v : List View, (∀ u, v ≠ [.uuid u]) → (∀ t, v = [.text t] → chars t ≠ 1) → sig v = Uuid.NIL := by
    intro v a b
    unfold sig
    split
    · exact absurd rfl (a _)
    · rw [if_neg (b _ rfl)]
    · rfl
  unfold alike
  split
  · rename_i u v
    simp only [sig, Bool.and_eq_true, decide_eq_true_eq]
    constructor
    · rintro ⟨a, b⟩; exact ⟨b.symm, a⟩
    · rintro ⟨a, b⟩; exact ⟨b, a.symm⟩
  · rename_i s t
    simp only [sig, Bool.and_eq_true, Nat.beq_eq]
    by_cases hs : chars s = 1 <;> by_cases ht : chars t = 1 <;> simp [hs, ht, hsn, hsn.symm]
  · rename_i n1 n2
    constructor
    · rintro ⟨a, b⟩
      exfalso
      rcases sig_type h1 with ⟨t, rfl, ht, et⟩ | hp
      · rw [et] at b
        rcases sig_type h2 with ⟨t', rfl, ht', et'⟩ | hv
        · exact n2 _ _ rfl rfl
        · rw [b, type_strSig] at hv; exact hv rfl
      · have hx : ∃ u, pv = [.uuid u] := by
          by_cases hx : ∃ u, pv = [.uuid u]
          · exact hx
          · exfalso
            apply a
            apply hnu
            · intro u e; exact hx ⟨u, e⟩
            · intro t e ht
              rw [e] at hp
              simp only [sig, if_pos ht, type_strSig] at hp
              exact hp rfl
        obtain ⟨u, rfl⟩ := hx
        have hy : ∃ u, vs = [.uuid u] := by
          by_cases hy : ∃ u, vs = [.uuid u]
          · exact hy
          · exfalso
            apply a
            rw [← b]
            apply hnu
            · intro u e; exact hy ⟨u, e⟩
            · intro t e ht
              rw [e] at b
              simp only [sig, if_pos ht] at b
              exact hst u (h1 u rfl) b.symm
        obtain ⟨v, rfl⟩ := hy
        exact n1 _ _ rfl rfl
    · intro h; simp at h

theorem isSameSpan_eq {f : Atom → Out (List Byte)} {s : Src} {o : OpView} {x : List Byte} (hs : Shown f s o x)
    {b : Builder} {pv : List View} (hb : b.prev2 = sig pv)
    (hp : ∀ u, pv = [.uuid u] → Atom.type u = Atom.tUUID) :
    isSameSpan b s o.id o.ref = (follows b.prevId o.id o.ref && alike pv o.vals) := by
  rw [Bool.eq_iff_iff]
  unfold isSameSpan follows
  simp only [Bool.and_eq_true, decide_eq_true_eq, ← sig_alike hp hs.valType, hb, hs.sig]
  grind

/-! ### steps -/

/-- An op of its own. -/
theorem append_new {f : Atom → Out (List Byte)} {s : Src} {o : OpView} {x : List Byte}
    (hs : Shown f s o x) {b : Builder} {l : List (Nat × OpView)} (hi : Idle b l)
    (hseq : o.id = b.prevId.inc → o.ref = b.prevId)
    (hsp : isSameSpan b s o.id o.ref = false) :
    ∃ b' hd, appendSrc f b s = .ok b' ∧ Pend b' l [o] hd ∧ b'.span = 1 ∧ b'.prevId = o.id ∧
      b'.prev2 = sig o.vals ∧ (∀ y, hd = some y → y = x ∧ ∃ t, o.vals = [.text t]) := by
  obtain ⟨h0, pre, w, hdt, hw, hpre⟩ := hi
  obtain ⟨vals, d, hop, hd, had, hch⟩ := hs.vals
  have hwt : b.writeTerm 1 = .ok b := by unfold writeTerm; rw [if_pos h0]
  obtain ⟨h, hh, hws⟩ : ∃ h, HeadText b.prevId (w ++ h) o.id o.ref [] ∧
      b.writeSpec o.id o.ref = .ok { b.write h with span := 1, prevId := o.id } := by
    unfold writeSpec
    rw [hwt]
    by_cases h1 : o.id = b.prevId.inc
    · have h2 := hseq h1
      refine ⟨[], ?_, ?_⟩
      · rw [List.append_nil, h1, h2]; exact .none hw
      · simp only [Out.bind, h1, h2, decide_true, if_true, ne_eq, not_true_eq_false, if_false]
        simp [write]
    · by_cases h2 : o.ref = b.prevId
      · refine ⟨64 :: o.id.str, ?_, ?_⟩
        · rw [h2]; exact .id hw hs.idLit
        · simp only [Out.bind, h2, h1, ne_eq, not_true_eq_false, if_false, decide_false]
          simp
      · refine ⟨64 :: o.id.str ++ [32] ++ 58 :: o.ref.str, ?_, ?_⟩
        · have := HeadText.ref (prev := b.prevId) hw hs.idLit blank_sp hs.refLit
          simpa using this
        · simp only [Out.bind, h2, h1, ne_eq, not_false_eq_true, if_true, decide_false]
          simp [write]
  have hap : appendSrc f b s = .ok { b with data := b.data ++ h ++ d, span := 1, prevId := o.id, prev2 := sig o.vals } := by
    unfold appendSrc
    rw [hop]
    simp only
    rw [if_neg (by rw [hsp]; simp), hwt]
    simp only [Out.bind]
    rw [hws]
    simp only [hd, hs.sig, write]
  rcases sig_type hs.valType with ⟨t, e1, e2, e3⟩ | hty
  · obtain ⟨c, rfl, c1, c2, c3, c4, -⟩ := hch t e1 e2
    refine ⟨_, some x, hap, ?_, rfl, rfl, rfl, ?_⟩
    · have := Pend.char (b := { b with data := b.data ++ h ++ d, span := 1, prevId := o.id, prev2 := sig o.vals }) (l := l)
        (ref := o.ref) hpre hh c1 c3 (by simp [hdt, c4]) rfl rfl e3
      rw [← e1] at this
      exact this
    · rintro y h
      injection h with h
      exact ⟨h.symm, _, e1⟩
  · refine ⟨_, none, hap, ?_, rfl, rfl, rfl, by rintro y ⟨⟩⟩
    have := Pend.plain (b := { b with data := b.data ++ h ++ d, span := 1, prevId := o.id, prev2 := sig o.vals }) (l := l)
      (vs := o.vals) (ref := o.ref) (id := o.id) (n := 0) hpre hh had (by simp [hdt]) rfl
      (by rw [idAfter_zero]) rfl hty
    simpa [spanOps] using this

theorem strText_snoc {s c : List Byte} {xs : List (Nat × Bool)} {x : Nat × Bool} (h : StrText s xs)
    (hc : CpText c x) : StrText (s ++ c) (xs ++ [x]) := by
  induction h with
  | nil => simpa using StrText.cons hc .nil
  | cons h _ ih => rw [List.append_assoc]; exact .cons h ih

theorem cpText_one {c : Byte} {y : Nat} (h : CpText [c] (y, false)) : c ≠ 39 := by
  cases h with
  | char h hp =>
    have := hp c (by simp)
    rintro rfl
    revert this
    decide

theorem sig_uuid {v : List View} (h0 : sig v ≠ Uuid.NIL) (h1 : Atom.type (sig v) ≠ Atom.tSTRING) :
    v = [.uuid (sig v)] := by
  unfold sig at *
  split at h0
  · rfl
  · rename_i t
    by_cases h : chars t = 1
    · simp only [if_pos h] at h1; exact absurd type_strSig h1
    · rw [if_neg h] at h0; exact absurd rfl h0
  · exact absurd rfl h0

theorem sig_text {v : List View} (hv : ∀ u, v = [.uuid u] → Atom.type u = Atom.tUUID)
    (h : sig v = strSig) : ∃ t, v = [.text t] ∧ chars t = 1 := by
  rcases sig_type hv with ⟨t, h1, h2, -⟩ | h1
  · exact ⟨t, h1, h2⟩
  · rw [h] at h1; exact absurd type_strSig h1

/-- An op folded with the one before. -/
theorem append_more {f : Atom → Out (List Byte)} {s : Src} {o : OpView} {x : List Byte}
    (hs : Shown f s o x) {b : Builder} {l : List (Nat × OpView)} {ops : List OpView}
    {hd : Option (List Byte)} (hp : Pend b l ops hd) (hx : ∀ y, hd = some y → y.length = 1)
    (hn : b.span + 1 < 2 ^ 32) (hsp : isSameSpan b s o.id o.ref = true) :
    ∃ b', appendSrc f b s = .ok b' ∧ Pend b' l (ops ++ [o]) none ∧ b'.span = b.span + 1 ∧
      b'.prevId = o.id ∧ b'.prev2 = sig o.vals := by
  have hsm := hsp
  unfold isSameSpan at hsm
  simp only [Bool.and_eq_true, decide_eq_true_eq] at hsm
  obtain ⟨⟨⟨href, hid⟩, hnn⟩, hsg⟩ := hsm
  rw [hs.sig] at hsg
  obtain ⟨vals, d, hop, hdd, had, hch⟩ := hs.vals
  have hap : appendSrc f b s = extendSpan b s := by
    unfold appendSrc
    rw [hop]
    simp only
    rw [if_pos hsp]
  have hso : s.op[2]? = vals[0]? := by rw [hop]; rfl
  rw [hap]
  cases hp with
  | @plain pre h a prev id ref vs n hp hh ha hd hn' hid' hs' hty =>
    refine ⟨{ b with span := b.span + 1, prevId := b.prevId.inc }, ?_, ?_, rfl, hid.symm, hsg.symm⟩
    · unfold extendSpan
      rw [if_neg hty]
      simp only [Out.bind]
      rw [Nat.mod_eq_of_lt hn]
    · have e1 := sig_uuid (v := vs) (by rw [← hs']; exact hnn) (by rw [← hs']; exact hty)
      have e2 := sig_uuid (v := o.vals) (by rw [hsg]; exact hnn) (by rw [hsg]; exact hty)
      have hvs : o.vals = vs := by rw [e1, e2, hsg, hs']
      have ho : o = ⟨idAfter id (n + 1), idAfter id n, vs⟩ := by
        rw [← hvs, ← inc_idAfter, ← hid', ← hid, ← href]
      have := Pend.plain (b := { b with span := b.span + 1, prevId := b.prevId.inc }) (l := l) (n := n + 1)
        hp hh ha hd (by simp [hn']) (by simp only [hid', inc_idAfter]) hs' hty
      rw [List.replicate_succ', spanOps_snoc _ _ (by simp), List.length_replicate,
        Nat.add_sub_cancel, ← ho] at this
      exact this
  | @char pre h y prev id ref c hp hh hy hc hd hn' hid' hs' =>
    obtain ⟨t, e1, e2⟩ := sig_text hs.valType (by rw [hsg, hs'])
    obtain ⟨c', rfl, -, c2, c3, -, a, r, a1, a2, a3⟩ := hch t e1 e2
    have hy1 := hx y rfl
    obtain ⟨y, rfl⟩ : ∃ z, y = [z] := List.length_eq_one_iff.1 hy1
    have hyq := cpText_one hy
    have hre : reopen b = .ok { b with data := pre ++ h ++ 32 :: 40 :: 39 :: [y] } := by
      unfold reopen
      rw [hd]
      simp only [List.reverse_append, List.reverse_cons, List.reverse_nil, List.nil_append, List.cons_append,
        List.append_assoc]
      simp only [popChar, if_neg hyq, if_true, Out.bind, show ¬ (8 = 0) by decide, if_false]
      simp
    have hes : extendString b s = .ok { b with data := pre ++ h ++ 32 :: 40 :: 39 :: ([y] ++ utf8escAppend c') } := by
      unfold extendString
      rw [hso, a1]
      simp only
      rw [if_pos hn', hre]
      simp only [Out.bind]
      rw [a2]
      simp [write, a3]
    refine ⟨{ b with data := pre ++ h ++ 32 :: 40 :: 39 :: ([y] ++ utf8escAppend c'), span := b.span + 1, prevId := b.prevId.inc }, ?_, ?_, rfl, hid.symm, hsg.symm⟩
    · unfold extendSpan
      rw [if_pos (by rw [hs', type_strSig]), hes]
      simp only [Out.bind]
      rw [Nat.mod_eq_of_lt hn]
    · have hst : StrText ([y] ++ utf8escAppend c') ([c, c'].map fun c => (c, false)) := by
        have := strText_snoc (StrText.cons hy .nil) c2
        simpa using this
      have := Pend.spread (b := { b with data := pre ++ h ++ 32 :: 40 :: 39 :: ([y] ++ utf8escAppend c'), span := b.span + 1, prevId := b.prevId.inc })
        (l := l) (n := 0) (id := id) (ref := ref) hp hh hst (by simp [hc, c3]) rfl rfl (by simp [hn'])
        (by simp only [hid', ← inc_idAfter, idAfter_zero]) hs'
      have ho : o = ⟨id.inc, id, [.text (utf8append c')]⟩ := by
        rw [← e1, ← hid', ← hid, ← href]
      rw [ho]
      simpa [spanOps] using this
  | @spread pre h t prev id ref cs n hp hh hy hc hl hd hn' hid' hs' =>
    obtain ⟨t', e1, e2⟩ := sig_text hs.valType (by rw [hsg, hs'])
    obtain ⟨c', rfl, -, c2, c3, -, a, r, a1, a2, a3⟩ := hch t' e1 e2
    have hes : extendString b s = .ok { b with data := pre ++ h ++ 32 :: 40 :: 39 :: (t ++ utf8escAppend c') } := by
      unfold extendString
      rw [hso, a1]
      simp only
      rw [if_neg (by omega)]
      simp only [Out.bind]
      rw [a2]
      simp [write, a3, hd]
    refine ⟨{ b with data := pre ++ h ++ 32 :: 40 :: 39 :: (t ++ utf8escAppend c'), span := b.span + 1, prevId := b.prevId.inc }, ?_, ?_, rfl, hid.symm, hsg.symm⟩
    · unfold extendSpan
      rw [if_pos (by rw [hs', type_strSig]), hes]
      simp only [Out.bind]
      rw [Nat.mod_eq_of_lt hn]
    · have hst : StrText (t ++ utf8escAppend c') ((cs ++ [c']).map fun c => (c, false)) := by
        have := strText_snoc hy c2
        simpa using this
      have := Pend.spread (b := { b with data := pre ++ h ++ 32 :: 40 :: 39 :: (t ++ utf8escAppend c'), span := b.span + 1, prevId := b.prevId.inc })
        (l := l) (n := n + 1) (id := id) (ref := ref) hp hh hst
        (by intro c h; rcases List.mem_append.1 h with h | h; exact hc c h; simp at h; rw [h]; exact c3)
        (by simp [hl]) rfl (by simp [hn'])
        (by simp only [hid', inc_idAfter]) hs'
      have ho : o = ⟨idAfter id (n + 2), idAfter id (n + 1), [.text (utf8append c')]⟩ := by
        rw [← e1, ← inc_idAfter, ← hid', ← hid, ← href]
      rw [List.map_append, List.map_cons, List.map_nil, spanOps_snoc _ _ (by
        intro e; have := congrArg List.length e; simp at this; simp [this] at hl), List.length_map, hl,
        show n + 2 - 1 = n + 1 from rfl, ← ho] at this
      exact this

end Builder
end Ron
