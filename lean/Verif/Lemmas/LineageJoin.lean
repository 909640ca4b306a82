import Verif.Lemmas.LineageRead
/-!
Objects that are partly in the store and partly in the transaction.
-/
namespace Ron
open Spec

/-! ### Histories -/

namespace Spec.Lineage
variable {H F : List Chain}

theorem front (h : Lineage (H ++ F)) : Lineage H := by
  generalize e : H ++ F = G at h
  induction h generalizing F with
  | nil => rw [(List.append_eq_nil_iff.1 e).1]; exact Lineage.nil
  | @add G c h1 h2 h3 ih =>
    rcases List.eq_nil_or_concat F with rfl | ⟨F', d, rfl⟩
    · rw [List.append_nil] at e
      rw [e]
      exact Lineage.add h1 h2 h3
    · rw [List.concat_eq_append, ← List.append_assoc] at e
      exact ih (List.append_inj' e rfl).1

theorem root (h : Lineage H) : ∀ c ∈ H, ∃ r ∈ H, r.head.id = c.object := by
  induction h with
  | nil => intro c hc; cases hc
  | @add H c L P F ih =>
    intro d hd
    rcases List.mem_append.1 hd with hd | hd
    · obtain ⟨r, hr, h⟩ := ih d hd
      exact ⟨r, List.mem_append_left _ hr, h⟩
    · rw [List.mem_singleton.1 hd]
      rcases F.cause with ⟨-, -, h1, -⟩ | ⟨-, -, e, he, -, h1, -⟩
      · exact ⟨c, by simp, h1.symm⟩
      · obtain ⟨r, hr, g⟩ := ih e he
        exact ⟨r, List.mem_append_left _ hr, by rw [g, h1]⟩

/-- A chain creates its object or refers to an event. -/
theorem made (h : Lineage H) : ∀ c ∈ H, c.head.ref.version = Uuid.vNAME ∧ c.object = c.head.id ∧ c.rdt = c.head.ref ∨
    c.head.ref.version = Uuid.vTIME := by
  induction h with
  | nil => intro c hc; cases hc
  | @add H c L P F ih =>
    intro d hd
    rcases List.mem_append.1 hd with hd | hd
    · exact ih d hd
    · rw [List.mem_singleton.1 hd]
      rcases F.cause with ⟨h0, -, h1, h2⟩ | ⟨h0, -⟩
      · exact Or.inl ⟨h0, h1, h2⟩
      · exact Or.inr h0

theorem new {c : Chain} (hf : Spec.Follows H c) : ∀ d ∈ H, ∀ o ∈ d.ops, o.id ≠ c.head.id := by
  intro d hd o ho e
  have hk : Known H o.id := ⟨d, hd, o, ho, rfl⟩
  rcases hf.yarn with ⟨-, h2⟩ | ⟨-, -, h2⟩
  · exact h2 _ hk (by rw [e])
  · have := (Uuid.lt_same (by rw [e])).1 (h2 _ hk (by rw [e]))
    rw [e] at this
    omega

/-- The log of an object begins with its creation. -/
theorem first (h : Lineage H) : ∀ c ∈ H, ∃ o os, logOf H c.object = o :: os ∧ o.ref.version = Uuid.vNAME ∧ o.ref = c.rdt := by
  induction h with
  | nil => intro c hc; cases hc
  | @add H c L P F ih =>
    have old : ∀ d ∈ H, ∃ o os, logOf (H ++ [c]) d.object = o :: os ∧ o.ref.version = Uuid.vNAME ∧ o.ref = d.rdt := by
      intro d hd
      obtain ⟨o, os, e, h1, h2⟩ := ih d hd
      refine ⟨o, os ++ logOf [c] d.object, ?_, h1, h2⟩
      unfold logOf at *
      rw [List.filter_append, List.flatMap_append, e]
      rfl
    intro d hd
    rcases List.mem_append.1 hd with hd | hd
    · exact old d hd
    · rw [List.mem_singleton.1 hd]
      rcases F.cause with ⟨h0, -, h1, h2⟩ | ⟨-, -, e, he, -, h1, h2⟩
      · refine ⟨c.head, c.rest, ?_, h0, h2.symm⟩
        unfold logOf
        rw [List.filter_append, List.filter_eq_nil_iff.2, List.nil_append, List.filter_cons_of_pos (by simp)]
        · simp [Chain.ops]
        · intro e he
          simp only [decide_eq_true_eq]
          intro e'
          obtain ⟨r, hr, g⟩ := L.root e he
          exact new F r hr r.head List.mem_cons_self (by rw [g, e', h1])
      · rw [h1, h2]
        exact old e he

/-- A chain of an object that is older than the chain does not create the object. -/
theorem later (h : Lineage (H ++ F)) {c d : Chain} (hc : c ∈ H) (hd : d ∈ F) (e : d.object = c.object) :
    d.head.ref.version = Uuid.vTIME := by
  rcases h.made d (List.mem_append_right _ hd) with ⟨-, h1, -⟩ | h1
  · exfalso
    obtain ⟨r, hr, g⟩ := h.front.root c hc
    have hb := (List.pairwise_append.1 h.order).2.2 r hr d hd
    have hid : r.head.id = d.head.id := by rw [g, ← e, h1]
    have := hb (by rw [hid]) r.head List.mem_cons_self
    rw [hid] at this
    omega
  · exact h1

end Spec.Lineage

theorem rest_time {o : AOp} {os : List AOp} (h : Proper o os) : ∀ x ∈ os, x.ref.version = Uuid.vTIME := by
  have key : ∀ (os : List AOp) (p : Uuid), Stamp p → ChainedTo p os → Stamp (lastOf p os) →
      ∀ x ∈ os, x.ref.version = Uuid.vTIME := by
    intro os
    induction os with
    | nil => intro p _ _ _ x hx; cases hx
    | cons q os ih =>
      intro p hp hc hl x hx
      have hm := chained_mem hc q List.mem_cons_self
      obtain ⟨-, h2, h3, h4, h5⟩ := hc
      rcases List.mem_cons.1 hx with rfl | hx
      · rw [h4]; exact hp.time
      · have hq : Stamp q.id := ⟨by have := hl.1; omega, by rw [h2]; exact hp.2⟩
        exact ih q.id hq h5 (by rw [Commit.lastOf_cons (p := p)]; exact hl) x hx
  exact key os o.id h.stamp h.chained h.last

theorem filter_log {H : List Chain} (L : Sound H) {obj : Uuid} (ho : Stamp obj) :
    (H.filter fun c => decide (Key.mk' c.object Form.LOG = Key.mk' obj Form.LOG)) =
      H.filter fun c => decide (c.object = obj) := by
  apply List.filter_congr
  intro c hc
  rw [decide_eq_decide]
  exact ⟨fun e => (Props.C08_key_injective _ _ _ _ (L.object c hc).1.event ho.event e).1, fun e => by rw [e]⟩

theorem sorted_bodies {a b : List AOp} (h : a.map AOp.body = b.map AOp.body) (hs : IdSorted b) : IdSorted a := by
  have e : a.map AOp.id = b.map AOp.id := by
    have := congrArg (List.map fun b : Uuid × Uuid × List AVal => b.1) h
    rw [List.map_map, List.map_map] at this
    exact this
  have : (b.map AOp.id).Pairwise fun x y => Uuid.lt x y = true := List.pairwise_map.2 hs
  rw [← e] at this
  exact List.pairwise_map.1 this

theorem sublist_flatten {α : Type} {f : List α} : ∀ {fs : List (List α)}, f ∈ fs → List.Sublist f fs.flatten
  | g :: fs, h => by
    rw [List.flatten_cons]
    rcases List.mem_cons.1 h with rfl | h
    · exact List.sublist_append_left _ _
    · exact (sublist_flatten h).trans (List.sublist_append_right _ _)

namespace Commit
variable {wh : Bool} {H F : List Chain} {note : Uuid → List Nat} {s : MemStore} {v : Rdt.View} {env : Env} {c : Commit}

/-- The merge of what the store has of an object with a part of what the transaction has. -/
theorem joint_merge (L : Lineage (H ++ F)) {a : Chain} (ha : a ∈ H) (ht : uuid2form a.rdt ∈ [Form.YARN, Form.LWW, Form.MX])
    (hs1 : IdSorted (logOf H a.object)) {la lb : Frame} (hla : la.map AOp.body = (logOf H a.object).map AOp.body)
    (hlb : lb ≠ []) (hs2 : IdSorted lb) (hf : ∀ o ∈ lb, ∃ x ∈ logOf F a.object, x.body = o.body) :
    ∃ out, Joined.mergeGuess (Rdt.mergeCursors v) [la, lb] = some (Status.OK, out) ∧ IdSorted out ∧
      SameEvents out (la ++ lb) := by
  obtain ⟨r, rs, er, h1, h2⟩ := L.front.first a ha
  have hid : ∀ x ∈ logOf H a.object, ∀ y ∈ logOf F a.object, x.id ≠ y.id := by
    intro x hx y hy e
    obtain ⟨d, hd, hx⟩ := List.mem_flatMap.1 hx
    obtain ⟨d', hd', hy⟩ := List.mem_flatMap.1 hy
    have hd := (List.mem_filter.1 hd).1
    have hd' := (List.mem_filter.1 hd').1
    have m := (L.proper d (List.mem_append_left _ hd)).mem hx
    have m' := (L.proper d' (List.mem_append_right _ hd')).mem hy
    have := (List.pairwise_append.1 L.order).2.2 d hd d' hd' (by rw [← m.1, ← m'.1, e]) x hx
    rw [e] at this
    omega
  have hcons : Consistent [la, lb].flatten := by
    have hsame : ∀ {l : List AOp}, IdSorted l → ∀ x ∈ l, ∀ y ∈ l, x.id = y.id → x = y := by
      intro l hl x hx y hy e
      obtain ⟨m, hm, rfl⟩ := List.mem_iff_getElem.1 hx
      obtain ⟨n, hn, rfl⟩ := List.mem_iff_getElem.1 hy
      rw [IdSorted, List.pairwise_iff_getElem] at hl
      rcases Nat.lt_trichotomy m n with g | g | g
      · have := hl m n hm hn g
        rw [e] at this
        have := (Uuid.lt_same rfl).1 this
        omega
      · subst g; rfl
      · have := hl n m hn hm g
        rw [e] at this
        have := (Uuid.lt_same rfl).1 this
        omega
    have hsa := sorted_bodies hla hs1
    intro x hx y hy e
    simp only [List.flatten_cons, List.flatten_nil, List.append_nil, List.mem_append] at hx hy
    have cross : ∀ x ∈ la, ∀ y ∈ lb, x.id ≠ y.id := by
      intro x hx y hy e
      obtain ⟨x', hx', ex⟩ := Rdt.mem_body hla hx
      obtain ⟨y', hy', ey⟩ := hf y hy
      exact hid x' hx' y' hy' (by rw [Rdt.body_id ex, Rdt.body_id ey, e])
    rcases hx with hx | hx <;> rcases hy with hy | hy
    · rw [hsame hsa x hx y hy e]
    · exact absurd e (cross x hx y hy)
    · exact absurd e.symm (cross y hy x hx)
    · rw [hsame hs2 x hx y hy e]
  have hsort : ∀ i ∈ [la, lb], IdSorted i := by
    intro i hi
    simp only [List.mem_cons, List.not_mem_nil, or_false] at hi
    rcases hi with rfl | rfl
    · exact sorted_bodies hla hs1
    · exact hs2
  match la, hla, lb, hlb, hf, hcons, hsort with
  | [], hla, _, _, _, _, _ => rw [er] at hla; cases hla
  | p :: la, hla, q :: lb, _, hf, hcons, hsort =>
    rw [er, List.map_cons, List.map_cons] at hla
    have hp : p.ref = a.rdt := by
      rw [← h2]
      exact congrArg (fun b : Uuid × Uuid × List AVal => b.2.1) (List.cons.inj hla).1
    have hq : q.ref.version = Uuid.vTIME := by
      obtain ⟨x, hx, ex⟩ := hf q List.mem_cons_self
      rw [show q.ref = x.ref from (congrArg (fun b : Uuid × Uuid × List AVal => b.2.1) ex).symm]
      obtain ⟨d, hd, hx⟩ := List.mem_flatMap.1 hx
      obtain ⟨hd, ed⟩ := List.mem_filter.1 hd
      rcases List.mem_cons.1 hx with rfl | hx
      · exact L.later ha hd (of_decide_eq_true ed)
      · exact rest_time (L.proper d (List.mem_append_right _ hd)) x hx
    have hform : Rdt.getForm Uuid.NIL [p :: la, q :: lb] = some (uuid2form a.rdt) := by
      unfold Rdt.getForm
      rw [if_neg (by rw [hp, ← h2, h1]; decide), if_pos (by decide +kernel)]
      unfold Rdt.getForm
      rw [if_pos (by rw [hq]; decide)]
      unfold Rdt.getForm
      rw [hp]
    have hby : Rdt.ById (uuid2form a.rdt) := by
      unfold Rdt.ById
      simp only [List.mem_cons, List.not_mem_nil, or_false] at ht
      rcases ht with h | h | h
      · exact Or.inr (Or.inr h)
      · exact Or.inl h
      · exact Or.inr (Or.inl h)
    obtain ⟨out, e, o1, o2, -⟩ := Rdt.merge_id_same v hby [p :: la, q :: lb] hsort hcons
    refine ⟨out, ?_, o1, by simpa using o2⟩
    unfold Joined.mergeGuess
    rw [show withOps [p :: la, q :: lb] = [p :: la, q :: lb] from rfl, hform]
    exact e

/-- What is found by a seek backwards: the record of the beginning of a chain, the last one there is; or something else if
there is none. -/
def Sought (H F : List Chain) (note : Uuid → List Nat) (env : Env) (c : Commit) (k : Key) : Prop :=
  (∃ d ∈ H ++ F, ∃ o f, seekPrev env c k = some (Status.OK, o :: f) ∧ o.body = (d.entry note).body ∧
    Key.lt k (Key.mk' d.head.id Form.META) = false ∧
    ∀ e ∈ H ++ F, Key.lt k (Key.mk' e.head.id Form.META) = false →
      Key.lt (Key.mk' d.head.id Form.META) (Key.mk' e.head.id Form.META) = false) ∨
  ((∀ e ∈ H ++ F, Key.lt k (Key.mk' e.head.id Form.META) = true) ∧
    ((∀ obj, Joint H F obj) → ∃ o f, seekPrev env c k = some (Status.OK, o :: f) ∧ o.ref ≠ formUuid Form.META))

theorem seek_mid (L : Lineage (H ++ F)) (M : Mid wh H F note c) (hv : env.mg = Rdt.mergeCursors v) {k : Key}
    (hk : k.form = Form.META) : Sought H F note env c k := by
  have S := L.sound
  have K := M.main
  obtain ⟨f0, hf0⟩ := K.tip
  obtain ⟨ra, hra, hlast, hale, hamax⟩ := seek_last K.sorted hf0 (k := k) (Key.zero_le _)
  have haform := form_le hale
  rw [hk] at haform
  have haE : ra.1 ≠ Key.END := by
    intro e
    rw [e] at haform
    revert haform
    decide
  have hmain : ∀ {f : Frame}, Engine.read (Rdt.mergeCursors v) c.main ra.1 = some (Status.OK, f) →
      Engine.seekPrev env.mg c.main k = some (Status.OK, ra.1, f) := by
    intro f h
    unfold Engine.seekPrev
    rw [hlast]
    simp only
    rw [hv, h]
    rfl
  -- what the store gives
  have hA : ∃ o f, Engine.read (Rdt.mergeCursors v) c.main ra.1 = some (Status.OK, o :: f) ∧
      ((∃ d ∈ H, ra.1 = Key.mk' d.head.id Form.META ∧ o.body = (d.entry note).body) ∨
        ra.1.form.toNat < Form.META.toNat ∧ o.ref ≠ formUuid Form.META) := by
    by_cases hm : ra.1.form = Form.META
    · have hmem : ra.2 ∈ stored ra.1 c.main := mem_stored.2 hra
      rw [K.index ra.1 hm] at hmem
      obtain ⟨d, hd, -⟩ := List.mem_map.1 hmem
      obtain ⟨hd, e⟩ := List.mem_filter.1 hd
      have e := of_decide_eq_true e
      obtain ⟨o, f, h1, h2⟩ := read_index (v := v) S.left K.toRetains hd
      rw [e] at h1
      exact ⟨o, f, h1, Or.inl ⟨d, hd, e.symm, h2⟩⟩
    · have hlt : ra.1.form.toNat < Form.META.toNat := by
        rcases Nat.lt_or_ge ra.1.form.toNat Form.META.toNat with h | h
        · exact h
        · exact absurd (form_inj (Nat.le_antisymm haform h)) hm
      obtain ⟨o, f, h1, h2⟩ := read_low (v := v) S.left K.toRetains hra hlt
      exact ⟨o, f, h1, Or.inr ⟨hlt, h2⟩⟩
  obtain ⟨oa, fa, hreada, hA⟩ := hA
  have hma := hmain hreada
  have hokk : ¬ ¬ Status.OK.ok = true := by decide
  -- a beginning of a chain is in one of the two
  have hidx : ∀ e ∈ H ++ F, ∃ f, (Key.mk' e.head.id Form.META, f) ∈ c.main ∨ (Key.mk' e.head.id Form.META, f) ∈ c.mem := by
    intro e he
    rcases List.mem_append.1 he with he | he
    · obtain ⟨f, hf⟩ := index_mem S.left K.toRetains he
      exact ⟨f, Or.inl hf⟩
    · obtain ⟨f, hf⟩ := index_mem S.right M.mem he
      exact ⟨f, Or.inr hf⟩
  -- what follows from the greatest key
  have fin : ∀ (R : Key) (o : AOp) (f : Frame), seekPrev env c k = some (Status.OK, o :: f) → Key.lt k R = false →
      (∀ y, y ∈ c.main ∨ y ∈ c.mem → Key.lt k y.1 = false → Key.lt R y.1 = false) →
      ((∃ d ∈ H ++ F, R = Key.mk' d.head.id Form.META ∧ o.body = (d.entry note).body) ∨
        R.form.toNat < Form.META.toNat ∧ o.ref ≠ formUuid Form.META) → Sought H F note env c k := by
    intro R o f e1 e2 e3 e4
    rcases e4 with ⟨d, hd, rfl, hb⟩ | ⟨h1, h2⟩
    · refine Or.inl ⟨d, hd, o, f, e1, hb, e2, fun x hx hxk => ?_⟩
      obtain ⟨g, hg⟩ := hidx x hx
      exact e3 (_, g) hg hxk
    · refine Or.inr ⟨fun x hx => ?_, fun _ => ⟨o, f, e1, h2⟩⟩
      by_cases hxk : Key.lt k (Key.mk' x.head.id Form.META) = true
      · exact hxk
      · obtain ⟨g, hg⟩ := hidx x hx
        have := form_le (e3 (_, g) hg (by simpa using hxk))
        rw [form_mk] at this
        omega
  rcases mem_seek M.mem.sorted k with ⟨hno, hkey⟩ | ⟨rb, hrb, hble, hbmax, hkey, hval⟩
  · refine fin ra.1 oa fa ?_ hale ?_ ?_
    · unfold seekPrev
      rw [hma, Option.bind_some]
      simp only
      rw [if_neg hokk, hkey, Option.bind_some, if_neg haE, if_pos rfl, if_neg (by simp), if_pos (Ne.symm haE)]
    · intro y hy hyk
      rcases hy with hy | hy
      · exact hamax y hy hyk
      · rw [hno y hy] at hyk; cases hyk
    · rcases hA with ⟨d, hd, h1, h2⟩ | h
      · exact Or.inl ⟨d, List.mem_append_left _ hd, h1, h2⟩
      · exact Or.inr h
  · have hbform := form_le hble
    rw [hk] at hbform
    have hbE : rb.1 ≠ Key.END := by
      intro e
      rw [e] at hbform
      revert hbform
      decide
    have hone : (stored k c.mem).length ≤ 1 := by
      rw [M.mem.index k hk, List.length_map]
      match hl : H.filter fun _ => false with
      | _ =>
        by_cases hex : ∃ d ∈ F, Key.mk' d.head.id Form.META = k
        · obtain ⟨d, hd, rfl⟩ := hex
          rw [filter_head S.right hd]
          exact Nat.le_refl _
        · rw [List.filter_eq_nil_iff.2 (by
            intro d hd
            simp only [decide_eq_true_eq]
            exact fun e => hex ⟨d, hd, e⟩)]
          exact Nat.zero_le _
    obtain ⟨it, hval⟩ := hval hone env.mg
    -- what the transaction gives
    have hB : ∃ o f, rb.2 = o :: f ∧ ((∃ d ∈ F, rb.1 = Key.mk' d.head.id Form.META ∧ o.body = (d.entry note).body) ∨
        rb.1.form.toNat < Form.META.toNat ∧ o.ref ≠ formUuid Form.META) := by
      by_cases hm : rb.1.form = Form.META
      · have hmem : rb.2 ∈ stored rb.1 c.mem := mem_stored.2 hrb
        rw [M.mem.index rb.1 hm] at hmem
        obtain ⟨d, hd, e'⟩ := List.mem_map.1 hmem
        obtain ⟨hd, e⟩ := List.mem_filter.1 hd
        exact ⟨_, _, e'.symm, Or.inl ⟨d, hd, (of_decide_eq_true e).symm, rfl⟩⟩
      · have hlt : rb.1.form.toNat < Form.META.toNat := by
          rcases Nat.lt_or_ge rb.1.form.toNat Form.META.toNat with h | h
          · exact h
          · exact absurd (form_inj (Nat.le_antisymm hbform h)) hm
        have hfrom : rb.2 ≠ [] ∧ ∀ o ∈ rb.2, ∃ d ∈ F, ∃ x ∈ d.ops, x.body = o.body := by
          by_cases hl : rb.1.form = Form.LOG
          · refine ⟨log_full M.mem hrb hl, fun o ho => ?_⟩
            obtain ⟨d, hd, -, x, hx, e⟩ := log_ops M.mem hrb hl ho
            exact ⟨d, hd, x, hx, e⟩
          · have hmem : rb.2 ∈ stored rb.1 c.mem := mem_stored.2 hrb
            rw [(M.mem.state rb.1 hl hm (M.low rb hrb)).exact rfl] at hmem
            obtain ⟨d, hd, e'⟩ := List.mem_map.1 hmem
            have hd := (List.mem_filter.1 hd).1
            rw [← e']
            refine ⟨punctuate_ne, fun o ho => ?_⟩
            obtain ⟨x, hx, e⟩ := Rdt.mem_body (Rdt.punctuate_body d.ops) ho
            exact ⟨d, hd, x, hx, e⟩
        obtain ⟨hne, hfrom⟩ := hfrom
        match hrb2 : rb.2, hne, hfrom with
        | o :: f, _, hfrom =>
          refine ⟨o, f, rfl, Or.inr ⟨hlt, ?_⟩⟩
          obtain ⟨d, hd, x, hx, e⟩ := hfrom o List.mem_cons_self
          have := ops_not_meta (S.right.proper d hd) x hx
          rwa [show x.ref = o.ref from congrArg (fun b : Uuid × Uuid × List AVal => b.2.1) e] at this
    obtain ⟨ob, fb, hrb2, hB⟩ := hB
    rw [hrb2] at hval
    have hunf : seekPrev env c k = (let at_ := Joined.JIter.maxKey ra.1 rb.1
        if ra.1 ≠ at_ then some (Status.OK, ob :: fb)
        else if rb.1 ≠ at_ then some (Status.OK, oa :: fa)
        else (Joined.mergeGuess env.mg [oa :: fa, ob :: fb]).bind fun r =>
          if r.1.ok then some (Status.OK, r.2) else none) := by
      unfold seekPrev
      rw [hma, Option.bind_some]
      simp only
      rw [if_neg hokk, hkey, Option.bind_some, if_neg haE, if_neg hbE, hval]
      rfl
    unfold Joined.JIter.maxKey at hunf
    rcases Key.lt_tri ra.1 rb.1 with hlt | heq | hlt
    · rw [if_pos hlt] at hunf
      simp only at hunf
      rw [if_pos (Key.lt_ne hlt)] at hunf
      refine fin rb.1 ob fb hunf hble ?_ ?_
      · intro y hy hyk
        rcases hy with hy | hy
        · cases hc : Key.lt rb.1 y.1 with
          | false => rfl
          | true =>
            have := hamax y hy hyk
            rw [Key.lt_trans hlt hc] at this
            cases this
        · exact hbmax y hy hyk
      · rcases hB with ⟨d, hd, h1, h2⟩ | h
        · exact Or.inl ⟨d, List.mem_append_right _ hd, h1, h2⟩
        · exact Or.inr h
    · -- both have records of the key
      rcases hA with ⟨d, hd, h1, -⟩ | ⟨hlow, -⟩
      · exfalso
        rcases hB with ⟨e, he, h2, -⟩ | ⟨h2, -⟩
        · rw [h1, h2] at heq
          have hid := (Props.C08_key_injective _ _ _ _ (S.left.proper d hd).stamp.event
            (S.right.proper e he).stamp.event heq).1
          have := (List.pairwise_append.1 L.order).2.2 d hd e he (by rw [hid]) d.head List.mem_cons_self
          rw [hid] at this
          omega
        · rw [← heq, h1, form_mk] at h2
          omega
      · have hmax : ∀ y, y ∈ c.main ∨ y ∈ c.mem → Key.lt k y.1 = false → Key.lt ra.1 y.1 = false := by
          intro y hy hyk
          rcases hy with hy | hy
          · exact hamax y hy hyk
          · rw [heq]; exact hbmax y hy hyk
        refine Or.inr ⟨fun x hx => ?_, fun hj => ?_⟩
        · by_cases hxk : Key.lt k (Key.mk' x.head.id Form.META) = true
          · exact hxk
          · obtain ⟨g, hg⟩ := hidx x hx
            have := form_le (hmax (_, g) hg (by simpa using hxk))
            rw [form_mk] at this
            omega
        · have hlog : rb.1.form = Form.LOG := by
            by_cases hl : rb.1.form = Form.LOG
            · exact hl
            · exfalso
              have hmem : rb.2 ∈ stored rb.1 c.mem := mem_stored.2 hrb
              rw [(M.mem.state rb.1 hl (by intro e; rw [heq, e] at hlow; omega) (M.low rb hrb)).exact rfl] at hmem
              obtain ⟨d, hd, -⟩ := List.mem_map.1 hmem
              obtain ⟨hd, e⟩ := List.mem_filter.1 hd
              have e := of_decide_eq_true e
              have hy : rb.1.form = Form.YARN := by
                have ht := (S.right.object d hd).2
                rw [heq] at hlow
                rw [← e] at hlow ⊢
                unfold Key.ofUuids at hlow ⊢
                rw [form_mk] at hlow ⊢
                exact types_low ht hlow
              obtain ⟨g, hg⟩ := log_mem M.mem hd
              have hkl : Key.lt k (Key.mk' d.object Form.LOG) = false := by
                cases hc : Key.lt k (Key.mk' d.object Form.LOG) with
                | false => rfl
                | true =>
                  have := form_le (Key.lt_asymm hc)
                  rw [hk, form_mk] at this
                  revert this
                  decide
              have := form_le (hbmax _ hg hkl)
              rw [form_mk, hy] at this
              revert this
              decide
          have hloga : ra.1.form = Form.LOG := by rw [heq]; exact hlog
          obtain ⟨d, hd⟩ := log_chain M.mem hrb hlog
          obtain ⟨hd, ed⟩ := List.mem_filter.1 hd
          have ed := of_decide_eq_true ed
          obtain ⟨a, ha⟩ := log_chain K.toRetains hra hloga
          obtain ⟨ha, ea⟩ := List.mem_filter.1 ha
          have ea := of_decide_eq_true ea
          have hobj : a.object = d.object := (Props.C08_key_injective _ _ _ _ (S.left.object a ha).1.event
            (S.right.object d hd).1.event (by rw [ea, ed, heq])).1
          rcases hj a.object with h | h | ⟨⟨b, hb, hbo, hbt⟩, hs1, hs2⟩
          · exact absurd rfl (h a ha)
          · exact absurd hobj.symm (h d hd)
          · rw [← hbo] at hs1 hs2 hobj
            have hbk : ra.1 = Key.mk' b.object Form.LOG := by rw [hobj, ed, heq]
            obtain ⟨l, hl, hlb⟩ := read_log (v := v) K.toRetains hloga
            rw [hreada] at hl
            cases hl
            rw [hbk, filter_log S.left (S.left.object b hb).1] at hlb
            have hlogF := M.mem.log rb.1 hlog
            rw [← heq, hbk, filter_log S.right (S.left.object b hb).1] at hlogF
            have hrbs : rb.2 ∈ stored (Key.mk' b.object Form.LOG) c.mem := by
              rw [← hbk, heq]; exact mem_stored.2 hrb
            obtain ⟨out, e, -, hsame⟩ := joint_merge (v := v) L hb hbt hs1 hlb (lb := rb.2) (by rw [hrb2]; simp)
              ((sorted_bodies hlogF hs2).sublist (sublist_flatten hrbs))
              (fun o ho => Rdt.mem_body hlogF (List.mem_flatten.2 ⟨_, hrbs, ho⟩))
            rw [hrb2] at e hsame
            rw [heq, Key.lt_irrefl] at hunf
            simp only [Bool.false_eq_true, if_false] at hunf
            rw [if_neg (by simp), if_neg (by simp), hv, e, Option.bind_some, if_pos (show Status.OK.ok = true from rfl)] at hunf
            match out, hsame, hunf with
            | [], hsame, _ =>
              obtain ⟨_, h, -⟩ := (hsame oa.body).2 ⟨oa, by simp, rfl⟩
              cases h
            | o :: f, hsame, hunf =>
              refine ⟨o, f, hunf, ?_⟩
              obtain ⟨x, hx, ex⟩ := (hsame o.body).1 ⟨o, by simp, rfl⟩
              have : ∃ y d, d ∈ H ++ F ∧ y ∈ d.ops ∧ y.body = x.body := by
                rcases List.mem_append.1 hx with hx | hx
                · obtain ⟨y, hy, ey⟩ := Rdt.mem_body hlb hx
                  obtain ⟨d, hd, hy⟩ := List.mem_flatMap.1 hy
                  exact ⟨y, d, List.mem_append_left _ (List.mem_filter.1 hd).1, hy, ey⟩
                · rw [← hrb2] at hx
                  obtain ⟨d, hd, -, y, hy, ey⟩ := log_ops M.mem hrb hlog hx
                  exact ⟨y, d, List.mem_append_right _ hd, hy, ey⟩
              obtain ⟨y, d, hd, hy, ey⟩ := this
              have := ops_not_meta (S.proper d hd) y hy
              rwa [show y.ref = o.ref from congrArg (fun b : Uuid × Uuid × List AVal => b.2.1) (ey.trans ex)] at this
    · rw [Key.lt_asymm hlt] at hunf
      simp only [Bool.false_eq_true, if_false] at hunf
      rw [if_neg (by simp), if_pos (Key.lt_ne hlt)] at hunf
      refine fin ra.1 oa fa hunf hale ?_ ?_
      · intro y hy hyk
        rcases hy with hy | hy
        · exact hamax y hy hyk
        · cases hc : Key.lt ra.1 y.1 with
          | false => rfl
          | true =>
            have := hbmax y hy hyk
            rw [Key.lt_trans hlt hc] at this
            cases this
      · rcases hA with ⟨d, hd, h1, h2⟩ | h
        · exact Or.inl ⟨d, List.mem_append_left _ hd, h1, h2⟩
        · exact Or.inr h

/-- The log of an object as it is read in the middle of a frame: every yarn of it is as it came. -/
theorem log_read (L : Lineage (H ++ F)) (M : Mid wh H F note c) (hv : env.mg = Rdt.mergeCursors v) {d : Chain}
    (hd : d ∈ H ++ F) (hj : Joint H F d.object) :
    ∃ l c', read env c (Key.mk' d.object Form.LOG) [] = some (Status.OK, l, c') ∧ Mid wh H F note c' ∧
      ∀ y : Word, (l.filter fun o => decide (o.id.origin = y)).map AOp.body =
        ((logOf (H ++ F) d.object).filter fun o => decide (o.id.origin = y)).map AOp.body := by
  have S := L.sound
  have hst := (S.object d hd).1
  obtain ⟨la, ha, hla⟩ := read_log (v := v) M.main.toRetains (form_mk d.object Form.LOG)
  obtain ⟨lb, s', hb, hlb, K', hz⟩ := mem_read (v := v) M.mem (form_mk d.object Form.LOG)
  rw [filter_log S.left hst] at hla
  rw [filter_log S.right hst] at hlb
  have hla : la.map AOp.body = (logOf H d.object).map AOp.body := hla
  have hlb : lb.map AOp.body = (logOf F d.object).map AOp.body := hlb
  have M' : Mid wh H F note { c with mem := s' } := ⟨M.main, K', hz M.low⟩
  have happ : logOf (H ++ F) d.object = logOf H d.object ++ logOf F d.object := by
    unfold logOf
    rw [List.filter_append, List.flatMap_append]
  have hfil : ∀ {a b : List AOp} (y : Word), a.map AOp.body = b.map AOp.body →
      (a.filter fun o => decide (o.id.origin = y)).map AOp.body =
        (b.filter fun o => decide (o.id.origin = y)).map AOp.body := by
    intro a b y h
    have key : ∀ l : List AOp, (l.filter fun o => decide (o.id.origin = y)).map AOp.body =
        (l.map AOp.body).filter fun b => decide (b.1.origin = y) := by
      intro l
      rw [List.filter_map]
      rfl
    rw [key, key, h]
  have hunf : read env c (Key.mk' d.object Form.LOG) [] = if la = [] then some (Status.OK, lb, { c with mem := s' })
      else if lb = [] then some (Status.OK, la, { c with mem := s' })
      else (Joined.mergeGuess env.mg [la, lb]).map fun r =>
        if r.1.ok then (Status.OK, r.2, { c with mem := s' }) else (r.1, [], { c with mem := s' }) := by
    unfold read
    rw [hv, ha, Option.bind_some]
    simp only
    rw [if_neg (by decide), hb, Option.bind_some]
    simp only
    rw [if_neg (by decide)]
  by_cases h1 : la = []
  · rw [if_pos h1] at hunf
    refine ⟨lb, _, hunf, M', fun y => ?_⟩
    have : logOf H d.object = [] := by
      rw [h1] at hla
      simpa using hla.symm
    rw [happ, this, List.nil_append]
    exact hfil y hlb
  · by_cases h2 : lb = []
    · rw [if_neg h1, if_pos h2] at hunf
      refine ⟨la, _, hunf, M', fun y => ?_⟩
      have : logOf F d.object = [] := by
        rw [h2] at hlb
        simpa using hlb.symm
      rw [happ, this, List.append_nil]
      exact hfil y hla
    · rw [if_neg h1, if_neg h2] at hunf
      have some_of : ∀ {G : List Chain} {l : List AOp}, l ≠ [] → l.map AOp.body = (logOf G d.object).map AOp.body →
          ∃ a ∈ G, a.object = d.object := by
        intro G l hne hl
        obtain ⟨o, ho⟩ := List.exists_mem_of_ne_nil _ hne
        obtain ⟨x, hx, -⟩ := Rdt.mem_body hl ho
        obtain ⟨a, ha, -⟩ := List.mem_flatMap.1 hx
        obtain ⟨ha, e⟩ := List.mem_filter.1 ha
        exact ⟨a, ha, of_decide_eq_true e⟩
      rcases hj with h | h | ⟨⟨b, hbm, hbo, hbt⟩, hs1, hs2⟩
      · obtain ⟨a, ha, e⟩ := some_of h1 hla
        exact absurd e (h a ha)
      · obtain ⟨a, ha, e⟩ := some_of h2 hlb
        exact absurd e (h a ha)
      · rw [← hbo] at hs1 hs2 hla hlb happ ⊢
        obtain ⟨out, e, hso, hsame⟩ := joint_merge (v := v) L hbm hbt hs1 hla h2 (sorted_bodies hlb hs2)
          (fun o ho => Rdt.mem_body hlb ho)
        rw [hv, e, Option.map_some] at hunf
        simp only [show Status.OK.ok = true from rfl, if_true] at hunf
        rw [hbo] at hla hlb happ hs1 hs2 ⊢
        refine ⟨out, _, hunf, M', fun y => ?_⟩
        apply Rdt.sorted_unique
        · exact List.Pairwise.filter _ hso
        · rw [happ, List.filter_append]
          refine List.pairwise_append.2 ⟨List.Pairwise.filter _ hs1, List.Pairwise.filter _ hs2, ?_⟩
          intro x hx z hz
          obtain ⟨hx, ex⟩ := List.mem_filter.1 hx
          obtain ⟨hz, ez⟩ := List.mem_filter.1 hz
          have ex := of_decide_eq_true ex
          have ez := of_decide_eq_true ez
          obtain ⟨p, hp, hx⟩ := List.mem_flatMap.1 hx
          obtain ⟨q, hq, hz⟩ := List.mem_flatMap.1 hz
          have hp := (List.mem_filter.1 hp).1
          have hq := (List.mem_filter.1 hq).1
          have m := (S.left.proper p hp).mem hx
          have m' := (S.right.proper q hq).mem hz
          have := (List.pairwise_append.1 L.order).2.2 p hp q hq (by rw [← m.1, ← m'.1, ex, ez]) x hx
          exact (Uuid.lt_same (by rw [ex, ez])).2 (by omega)
        · intro bd
          have hall : SameEvents out (logOf (H ++ F) d.object) := by
            intro bd
            rw [hsame bd, happ]
            constructor
            · rintro ⟨o, ho, rfl⟩
              rcases List.mem_append.1 ho with ho | ho
              · obtain ⟨x, hx, ex⟩ := Rdt.mem_body hla ho
                exact ⟨x, List.mem_append_left _ hx, ex⟩
              · obtain ⟨x, hx, ex⟩ := Rdt.mem_body hlb ho
                exact ⟨x, List.mem_append_right _ hx, ex⟩
            · rintro ⟨o, ho, rfl⟩
              rcases List.mem_append.1 ho with ho | ho
              · obtain ⟨x, hx, ex⟩ := Rdt.mem_body hla.symm ho
                exact ⟨x, List.mem_append_left _ hx, ex⟩
              · obtain ⟨x, hx, ex⟩ := Rdt.mem_body hlb.symm ho
                exact ⟨x, List.mem_append_right _ hx, ex⟩
          constructor
          · rintro ⟨o, ho, rfl⟩
            obtain ⟨ho, e⟩ := List.mem_filter.1 ho
            obtain ⟨x, hx, ex⟩ := (hall o.body).1 ⟨o, ho, rfl⟩
            exact ⟨x, List.mem_filter.2 ⟨hx, by rw [Rdt.body_id ex]; exact e⟩, ex⟩
          · rintro ⟨o, ho, rfl⟩
            obtain ⟨ho, e⟩ := List.mem_filter.1 ho
            obtain ⟨x, hx, ex⟩ := (hall o.body).2 ⟨o, ho, rfl⟩
            exact ⟨x, List.mem_filter.2 ⟨hx, by rw [Rdt.body_id ex]; exact e⟩, ex⟩

end Commit
end Ron
