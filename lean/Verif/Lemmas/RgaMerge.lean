import Verif.Lemmas.Weave
/-!
`RGArrayRDT::Merge` on inputs without common ops produces the weave.
-/
namespace Ron
namespace Rdt
open Spec Heap

theorem nextFrom_one {c : Cur AOp} {t : List (Cur AOp)} (hh : IsHeap rgaLess (c :: t))
    (hn : ((flat (c :: t)).map AOp.id).Nodup) (fuel : Nat) :
    ∃ h', nextFrom rgaLess sameId c.1 (fuel + 1) (c :: t) = some h' ∧ Stepped rgaLess c t h' := by
  obtain ⟨h', e, s⟩ := step_spec rgaOrder hh
  refine ⟨h', ?_, s⟩
  unfold nextFrom
  rw [e]
  simp only [Option.bind_some]
  cases h' with
  | nil => rfl
  | cons d t' =>
    have hne : sameId d.1 c.1 = false := by
      cases hs : sameId d.1 c.1 with
      | false => rfl
      | true =>
        have hid := (same_iff _ _).1 hs
        have := (s.flat.map AOp.id).nodup_iff.2 hn
        rw [List.map_cons, List.nodup_cons] at this
        exact absurd (List.mem_map.2 ⟨d.1, by simp [flat], hid⟩) this.1
    simp only [hne]; rfl

variable {ops : List AOp} {root : Uuid} {path : AOp → List Uuid}

abbrev Bef (path : AOp → List Uuid) (x y : AOp) : Prop := before (path x) (path y) = true

/-- Every op but the first refers to an earlier op of the list. -/
def Chained (l : List AOp) : Prop :=
  ∀ pre o post, l = pre ++ o :: post → pre ≠ [] → ∃ p ∈ pre, p.id = o.ref

/-- The ancestors of an op are emitted or precede it. -/
def Closed (ops : List AOp) (path : AOp → List Uuid) (E l : List AOp) : Prop :=
  ∀ pre r post, l = pre ++ r :: post → ∀ z ∈ ops, Anc path z r → z ∈ E ∨ z ∈ pre

theorem Closed.mono {E E' l : List AOp} (h : Closed ops path E l) (hs : ∀ e ∈ E, e ∈ E') :
    Closed ops path E' l := fun pre r post e z hz ha => (h pre r post e z hz ha).imp_left (hs z)

theorem Closed.tail {E l : List AOp} {x : AOp} (h : Closed ops path E (x :: l)) :
    Closed ops path (E ++ [x]) l := by
  intro pre r post e z hz ha
  rcases h (x :: pre) r post (by rw [e]; rfl) z hz ha with h1 | h1
  · exact .inl (by simp [h1])
  · simp only [List.mem_cons] at h1
    rcases h1 with rfl | h1
    · exact .inl (by simp)
    · exact .inr h1

/-- A chained list whose first op has its ancestors emitted is closed. -/
theorem Chained.closed (P : Paths ops root path) {E : List AOp} {x : AOp} {l : List AOp}
    (hm : ∀ o ∈ x :: l, o ∈ ops) (hc : Chained (x :: l)) (hroot : ∀ o ∈ l, o.id ≠ root)
    (hx : ∀ z ∈ ops, Anc path z x → z ∈ E) : Closed ops path E (x :: l) := by
  have main : ∀ n pre r post, pre.length = n → x :: l = pre ++ r :: post → ∀ z ∈ ops, Anc path z r →
      z ∈ E ∨ z ∈ pre := by
    intro n
    induction n using Nat.strongRecOn with
    | ind n ih =>
      intro pre r post hn e z hz ha
      cases pre with
      | nil =>
        simp only [List.nil_append, List.cons.injEq] at e
        rw [← e.1] at ha
        exact .inl (hx z hz ha)
      | cons y pre =>
        obtain ⟨p, hp, hpr⟩ := hc (y :: pre) r post e (by simp)
        have hrm : r ∈ x :: l := by rw [e]; simp
        have hpm : p ∈ x :: l := by rw [e]; exact List.mem_append_left _ hp
        have hr : r ∈ ops := hm r hrm
        have hrl : r ∈ l := by
          simp only [List.cons_append, List.cons.injEq] at e
          rw [e.2]; simp
        rcases P.step r hr with ⟨h1, _⟩ | ⟨q, hq, h1, h2, h3⟩
        · exact absurd h1 (hroot r hrl)
        · have hqp : q = p := P.unique q hq p (hm p hpm) (h1.symm.trans hpr.symm)
          subst hqp
          rcases Anc.parent P hz hq h3 ha with rfl | ha'
          · exact .inr hp
          · obtain ⟨a, b, hab⟩ := List.append_of_mem hp
            have : x :: l = a ++ q :: (b ++ r :: post) := by rw [e, hab]; simp
            have hlen : a.length < n := by rw [← hn, hab]; simp
            rcases ih a.length hlen a q _ rfl this z hz ha' with h | h
            · exact .inl h
            · exact .inr (by rw [hab]; simp [h])
  intro pre r post e z hz ha
  exact main _ pre r post rfl e z hz ha

/-- Ids in a chained list are not below the first. -/
theorem Chained.ge (P : Paths ops root path) {x : AOp} {l : List AOp}
    (hm : ∀ o ∈ x :: l, o ∈ ops) (hc : Chained (x :: l)) (hroot : ∀ o ∈ l, o.id ≠ root) :
    ∀ o ∈ x :: l, o.id = x.id ∨ Uuid.lt x.id o.id = true := by
  have main : ∀ n pre r post, pre.length = n → x :: l = pre ++ r :: post →
      r.id = x.id ∨ Uuid.lt x.id r.id = true := by
    intro n
    induction n using Nat.strongRecOn with
    | ind n ih =>
      intro pre r post hn e
      cases pre with
      | nil =>
        simp only [List.nil_append, List.cons.injEq] at e
        exact .inl (by rw [e.1])
      | cons y pre =>
        obtain ⟨p, hp, hpr⟩ := hc (y :: pre) r post e (by simp)
        have hrm : r ∈ x :: l := by rw [e]; simp
        have hrl : r ∈ l := by
          simp only [List.cons_append, List.cons.injEq] at e
          rw [e.2]; simp
        rcases P.step r (hm r hrm) with ⟨h1, _⟩ | ⟨q, hq, h1, h2, h3⟩
        · exact absurd h1 (hroot r hrl)
        · rw [← h1, ← hpr] at h2
          obtain ⟨a, b, hab⟩ := List.append_of_mem hp
          have : x :: l = a ++ p :: (b ++ r :: post) := by rw [e, hab]; simp
          have hlen : a.length < n := by rw [← hn, hab]; simp
          right
          rcases ih a.length hlen a p _ rfl this with h | h
          · rw [← h]; exact h2
          · exact uuid_lin.trans _ _ _ h h2
  intro o ho
  obtain ⟨a, b, hab⟩ := List.append_of_mem ho
  exact main _ a o b rfl hab

/-- The state of the loop. -/
structure Inv (ops : List AOp) (root : Uuid) (path : AOp → List Uuid) (E : List AOp)
    (h w : List (Cur AOp)) : Prop where
  all : (E ++ (flat h ++ flat w)).Perm ops
  emitted : E.Pairwise (Bef path)
  ahead : ∀ e ∈ E, ∀ r ∈ flat h, Bef path e r
  sortedH : ∀ c ∈ h, (c.1 :: c.2).Pairwise (Bef path)
  sortedW : ∀ c ∈ w, (c.1 :: c.2).Pairwise (Bef path)
  closed : ∀ c ∈ h, Closed ops path E (c.1 :: c.2)
  pieces : ∀ c ∈ w, Chained (c.1 :: c.2)
  noroot : ∀ r ∈ flat w, r.id ≠ root
  waits : ∀ c ∈ w, ∀ e ∈ E, e.id ≠ c.1.ref

theorem Inv.memH {E : List AOp} {h w : List (Cur AOp)} (I : Inv ops root path E h w) {r : AOp}
    (hr : r ∈ flat h) : r ∈ ops := I.all.mem_iff.1 (by simp [hr])

theorem Inv.memW {E : List AOp} {h w : List (Cur AOp)} (I : Inv ops root path E h w) {r : AOp}
    (hr : r ∈ flat w) : r ∈ ops := I.all.mem_iff.1 (by simp [hr])

theorem Inv.memE {E : List AOp} {h w : List (Cur AOp)} (I : Inv ops root path E h w) {r : AOp}
    (hr : r ∈ E) : r ∈ ops := I.all.mem_iff.1 (by simp [hr])

theorem mem_flat {h : List (Cur AOp)} {c : Cur AOp} {r : AOp} (hc : c ∈ h) (hr : r ∈ c.1 :: c.2) :
    r ∈ flat h := by
  unfold flat; rw [List.mem_flatMap]; exact ⟨c, hc, hr⟩

/-- A list of cursors with the least first id. -/
theorem least : ∀ (w : List (Cur AOp)), w ≠ [] →
    ∃ c ∈ w, ∀ d ∈ w, Uuid.lt d.1.id c.1.id = false
  | [], h => absurd rfl h
  | [c], _ => ⟨c, by simp, by simp [uuid_lin.irrefl]⟩
  | c :: d :: w, _ => by
    obtain ⟨m, hm, h⟩ := least (d :: w) (by simp)
    cases hc : Uuid.lt c.1.id m.1.id with
    | false =>
      refine ⟨m, List.mem_cons_of_mem _ hm, fun x hx => ?_⟩
      rw [List.mem_cons] at hx
      rcases hx with rfl | hx
      · exact hc
      · exact h x hx
    | true =>
      refine ⟨c, by simp, fun x hx => ?_⟩
      rw [List.mem_cons] at hx
      rcases hx with rfl | hx
      · exact uuid_lin.irrefl _
      · cases e : Uuid.lt x.1.id c.1.id with
        | false => rfl
        | true =>
          have := uuid_lin.trans _ _ _ e hc
          rw [h x hx] at this; cases this

/-- When the heap is empty, nothing waits. -/
theorem Inv.done (P : Paths ops root path) {E : List AOp} {w : List (Cur AOp)}
    (I : Inv ops root path E [] w) : w = [] := by
  cases hw : w with
  | nil => rfl
  | cons c0 w0 =>
    exfalso
    obtain ⟨c, hc, hmin⟩ := least w (by rw [hw]; simp)
    have hcf : c.1 ∈ flat w := mem_flat hc (by simp)
    rcases P.step c.1 (I.memW hcf) with ⟨h1, _⟩ | ⟨p, hp, h1, h2, _⟩
    · exact I.noroot _ hcf h1
    · have := I.all.mem_iff.2 hp
      simp only [flat, List.flatMap_nil, List.nil_append, List.mem_append] at this
      rcases this with h | h
      · exact I.waits c hc p h h1.symm
      · rw [List.mem_flatMap] at h
        obtain ⟨d, hd, hpd⟩ := h
        have hge := Chained.ge P (fun o ho => I.memW (mem_flat hd ho)) (I.pieces d hd)
          (fun o ho => I.noroot o (mem_flat hd (by simp [ho]))) p hpd
        have hm := hmin d hd
        rcases hge with e | e
        · rw [← e, h2] at hm; cases hm
        · rw [uuid_lin.trans _ _ _ e h2] at hm; cases hm

/-- The front of the heap is the next op of the weave. -/
theorem Inv.front (P : Paths ops root path) (hu : (ops.map AOp.id).Nodup) {E : List AOp}
    {c : Cur AOp} {t w : List (Cur AOp)} (I : Inv ops root path E (c :: t) w)
    (hh : IsHeap rgaLess (c :: t)) {h1 : List (Cur AOp)} (s : Stepped rgaLess c t h1) :
    ∀ r ∈ flat h1, Bef path c.1 r := by
  intro r hr
  have hnd : ((E ++ (c.1 :: flat h1 ++ flat w)).map AOp.id).Nodup :=
    (List.Perm.map AOp.id (((s.flat.append_right _).append_left E).trans I.all)).nodup_iff.2 hu
  have hxm : c.1 ∈ ops := I.memH (by simp [flat])
  unfold flat at hr
  rw [List.mem_flatMap] at hr
  obtain ⟨d, hd, hr⟩ := hr
  rcases s.mem d hd with h | h
  · -- another cursor
    have hdh : d ∈ c :: t := by simp [h]
    have hym : d.1 ∈ ops := I.memH (mem_flat hdh (by simp))
    have hne : d.1.id ≠ c.1.id := by
      rw [List.map_append, List.nodup_append] at hnd
      have := hnd.2.1
      rw [List.cons_append, List.map_cons, List.nodup_cons] at this
      intro e
      exact this.1 (List.mem_map.2 ⟨d.1, List.mem_append_left _ (mem_flat hd (by simp)), e⟩)
    have hlt : Uuid.lt d.1.id c.1.id = true := by
      obtain ⟨i, hi⟩ := List.getElem?_of_mem hdh
      have hmin := front_min rgaOrder hh (c := c) rfl i d hi
      unfold rgaLess at hmin
      exact uuid_lin.of_not hmin (Ne.symm hne)
    have hxy : Bef path c.1 d.1 := by
      have hpne : path c.1 ≠ path d.1 := fun e => hne (by rw [P.inj hxm hym e])
      rcases before_total _ _ hpne with h1 | h1
      · exact h1
      · exfalso
        obtain ⟨z, hz, ha, hzy⟩ := P.key hxm hym hlt h1
        have hzE : z ∈ E := by
          rcases I.closed c (by simp) [] c.1 c.2 rfl z hz ha with h | h
          · exact h
          · simp at h
        rcases hzy with rfl | hzy
        · -- `d.1` emitted and in the heap
          rw [List.map_append, List.nodup_append] at hnd
          exact hnd.2.2 _ (List.mem_map.2 ⟨_, hzE, rfl⟩) _ (List.mem_map.2 ⟨d.1, by
            rw [List.cons_append]
            exact List.mem_cons_of_mem _ (List.mem_append_left _ (mem_flat hd (by simp))), rfl⟩) rfl
        · have := I.ahead z hzE d.1 (mem_flat hdh (by simp))
          have h2 := before_asymm this
          rw [hzy] at h2; cases h2
    simp only [List.mem_cons] at hr
    rcases hr with rfl | hr
    · exact hxy
    · exact before_trans _ _ _ hxy ((List.pairwise_cons.1 (I.sortedH d hdh)).1 r hr)
  · -- the same cursor, advanced
    have := (List.pairwise_cons.1 (I.sortedH c (by simp))).1
    exact this r (by rw [← h]; exact hr)

theorem rgaLoop_weave (P : Paths ops root path) (hu : (ops.map AOp.id).Nodup) :
    ∀ (fuel : Nat) (E : List AOp) (h w : List (Cur AOp)), total h + total w < fuel →
    IsHeap rgaLess h → Inv ops root path E h w →
    ∃ out, rgaLoop fuel h w = some (out, []) ∧ (E ++ out).Perm ops ∧
      (E ++ out).Pairwise (Bef path) := by
  intro fuel
  induction fuel with
  | zero => intro E h w hf; omega
  | succ fuel ih =>
    intro E h w hf hh I
    cases h with
    | nil =>
      have hw := I.done P
      subst hw
      refine ⟨[], rfl, by simpa [flat] using I.all, by simpa using I.emitted⟩
    | cons c t =>
      have hnd : ((flat (c :: t)).map AOp.id).Nodup := by
        have := (I.all.map AOp.id).nodup_iff.2 hu
        rw [List.map_append, List.map_append] at this
        exact (List.nodup_append.1 (List.nodup_append.1 this).2.1).1
      obtain ⟨h1, e1, s1⟩ := nextFrom_one hh hnd (total (c :: t))
      have hfr := I.front P hu hh s1
      have hlen := s1.flat.length_eq
      rw [List.length_cons, flat_length, flat_length] at hlen
      obtain ⟨h2, w2, e2, b1, b2, b3⟩ := attach_spec (fun o => decide (o.ref = c.1.id)) w h1 s1.heap
      have ht := total_perm b2
      rw [total_append] at ht
      have htf := total_filter (fun o => decide (o.ref = c.1.id)) w
      have hfl : (flat h2).Perm (flat h1 ++ flat (w.filter fun d => decide (d.1.ref = c.1.id))) := by
        rw [← flat_append]; exact flat_perm b2
      have hwf := flat_filter (fun o => decide (o.ref = c.1.id)) w
      have hxm : c.1 ∈ ops := I.memH (by simp [flat])
      -- a newly attached cursor
      have att : ∀ d ∈ w, d.1.ref = c.1.id → path d.1 = path c.1 ++ [d.1.id] := by
        intro d hd hr
        have hdf := mem_flat hd (List.mem_cons_self (a := d.1) (l := d.2))
        rcases P.step d.1 (I.memW hdf) with ⟨h, _⟩ | ⟨p, hp, h1, _, h3⟩
        · exact absurd h (I.noroot _ hdf)
        · rw [P.unique p hp c.1 hxm (h1.symm.trans hr)] at h3; exact h3
      have hancc : ∀ z ∈ ops, Anc path z c.1 → z ∈ E := by
        intro z hz ha
        rcases I.closed c (by simp) [] c.1 c.2 rfl z hz ha with h | h
        · exact h
        · simp at h
      have hEc : ∀ e ∈ E, Bef path e c.1 := fun e he => I.ahead e he c.1 (by simp [flat])
      have I2 : Inv ops root path (E ++ [c.1]) h2 w2 := by
        refine ⟨?_, ?_, ?_, ?_, ?_, ?_, ?_, ?_, ?_⟩
        · rw [b3]
          refine List.Perm.trans ?_ I.all
          rw [List.append_assoc]
          refine List.Perm.append_left E ?_
          rw [List.singleton_append, ← List.cons_append]
          have p1 : (flat h2 ++ flat (w.filter fun d => !decide (d.1.ref = c.1.id))).Perm
              (flat h1 ++ flat w) := by
            refine (hfl.append_right _).trans ?_
            rw [List.append_assoc]
            exact hwf.append_left _
          rw [List.cons_append]
          refine (p1.cons _).trans ?_
          rw [← List.cons_append]
          exact s1.flat.append_right _
        · rw [List.pairwise_append]
          refine ⟨I.emitted, by simp, fun e he x hx => ?_⟩
          rw [List.mem_singleton] at hx; rw [hx]; exact hEc e he
        · intro e he r hr
          have := hfl.mem_iff.1 hr
          rw [List.mem_append] at this
          rcases this with h | h
          · rw [List.mem_append, List.mem_singleton] at he
            rcases he with he | rfl
            · refine I.ahead e he r ?_
              exact s1.flat.mem_iff.1 (List.mem_cons_of_mem _ h)
            · exact hfr r h
          · -- in an attached cursor
            unfold flat at h
            rw [List.mem_flatMap] at h
            obtain ⟨d, hd, hrd⟩ := h
            obtain ⟨hdw, hp⟩ := List.mem_filter.1 hd
            have hpd := att d hdw (of_decide_eq_true hp)
            have hcd : Bef path c.1 d.1 := by
              show before (path c.1) (path d.1) = true
              rw [hpd]; exact before_append _ _ (by simp)
            have hed : Bef path e d.1 := by
              rw [List.mem_append, List.mem_singleton] at he
              rcases he with he | rfl
              · exact before_trans _ _ _ (hEc e he) hcd
              · exact hcd
            simp only [List.mem_cons] at hrd
            rcases hrd with rfl | hrd
            · exact hed
            · exact before_trans _ _ _ hed ((List.pairwise_cons.1 (I.sortedW d hdw)).1 r hrd)
        · intro d hd
          have := b2.mem_iff.1 hd
          rw [List.mem_append] at this
          rcases this with h | h
          · rcases s1.mem d h with h' | h'
            · exact I.sortedH d (by simp [h'])
            · rw [h']; exact (List.pairwise_cons.1 (I.sortedH c (by simp))).2
          · exact I.sortedW d (List.mem_filter.1 h).1
        · intro d hd
          rw [b3] at hd
          exact I.sortedW d (List.mem_filter.1 hd).1
        · intro d hd
          have := b2.mem_iff.1 hd
          rw [List.mem_append] at this
          rcases this with h | h
          · rcases s1.mem d h with h' | h'
            · exact (I.closed d (by simp [h'])).mono (by intro e he; simp [he])
            · rw [h']; exact (I.closed c (by simp)).tail
          · obtain ⟨hdw, hp⟩ := List.mem_filter.1 h
            refine Chained.closed P (fun o ho => I.memW (mem_flat hdw ho)) (I.pieces d hdw)
              (fun o ho => I.noroot o (mem_flat hdw (by simp [ho]))) ?_
            intro z hz ha
            rcases Anc.parent P hz hxm (att d hdw (of_decide_eq_true hp)) ha with rfl | h'
            · simp
            · simp [hancc z hz h']
        · intro d hd
          rw [b3] at hd
          exact I.pieces d (List.mem_filter.1 hd).1
        · intro r hr
          rw [b3] at hr
          exact I.noroot r (hwf.mem_iff.1 (List.mem_append_right _ hr))
        · intro d hd e he
          rw [b3] at hd
          obtain ⟨hdw, hp⟩ := List.mem_filter.1 hd
          rw [List.mem_append, List.mem_singleton] at he
          rcases he with he | rfl
          · exact I.waits d hdw e he
          · simp only [Bool.not_eq_true', decide_eq_false_iff_not] at hp
            exact fun h => hp h.symm
      obtain ⟨out, e3, g1, g2⟩ := ih (E ++ [c.1]) h2 w2 (by rw [b3]; omega) b1 I2
      unfold rgaLoop
      rw [e1]
      simp only [Option.bind_some, e2, e3, Option.map_some]
      refine ⟨c.1 :: out, rfl, ?_, ?_⟩
      · simpa using g1
      · simpa using g2

theorem minId_spec : ∀ (w : List (Cur AOp)) (m : Uuid), minId w = some m →
    (∃ c ∈ w, c.1.id = m) ∧ ∀ d ∈ w, Uuid.lt d.1.id m = false := by
  have fold : ∀ (cs : List (Cur AOp)) (x : Uuid),
      (cs.foldl (fun m d => if Uuid.lt d.1.id m then d.1.id else m) x = x ∨
        ∃ c ∈ cs, c.1.id = cs.foldl (fun m d => if Uuid.lt d.1.id m then d.1.id else m) x) ∧
      Uuid.lt x (cs.foldl (fun m d => if Uuid.lt d.1.id m then d.1.id else m) x) = false ∧
      ∀ d ∈ cs, Uuid.lt d.1.id (cs.foldl (fun m d => if Uuid.lt d.1.id m then d.1.id else m) x) = false := by
    intro cs
    induction cs with
    | nil => intro x; exact ⟨.inl rfl, uuid_lin.irrefl x, by simp⟩
    | cons c cs ih =>
      intro x
      rw [List.foldl_cons]
      obtain ⟨h1, h2, h3⟩ := ih (if Uuid.lt c.1.id x then c.1.id else x)
      cases hc : Uuid.lt c.1.id x with
      | true =>
        rw [hc, if_pos rfl] at h1 h2 h3
        rw [if_pos rfl]
        refine ⟨?_, ?_, ?_⟩
        · rcases h1 with h | ⟨d, hd, h⟩
          · exact .inr ⟨c, by simp, h.symm⟩
          · exact .inr ⟨d, by simp [hd], h⟩
        · cases e : Uuid.lt x _ with
          | false => rfl
          | true => rw [uuid_lin.trans _ _ _ hc e] at h2; cases h2
        · intro d hd
          simp only [List.mem_cons] at hd
          rcases hd with rfl | hd
          · exact h2
          · exact h3 d hd
      | false =>
        rw [hc] at h1 h2 h3
        simp only [Bool.false_eq_true, if_false] at h1 h2 h3 ⊢
        refine ⟨?_, h2, ?_⟩
        · rcases h1 with h | ⟨d, hd, h⟩
          · exact .inl h
          · exact .inr ⟨d, by simp [hd], h⟩
        · intro d hd
          simp only [List.mem_cons] at hd
          rcases hd with rfl | hd
          · cases e : Uuid.lt d.1.id _ with
            | false => rfl
            | true =>
              rcases uuid_lin.tri x d.1.id with h | h | h
              · rw [uuid_lin.trans _ _ _ h e] at h2; cases h2
              · rw [← h, h2] at e; cases e
              · rw [hc] at h; cases h
          · exact h3 d hd
  intro w m hm
  cases w with
  | nil => cases hm
  | cons c cs =>
    cases hm
    obtain ⟨h1, h2, h3⟩ := fold cs c.1.id
    refine ⟨?_, ?_⟩
    · rcases h1 with h | ⟨d, hd, h⟩
      · exact ⟨c, by simp, h.symm⟩
      · exact ⟨d, by simp [hd], h⟩
    · intro d hd
      simp only [List.mem_cons] at hd
      rcases hd with rfl | hd
      · exact h2
      · exact h3 d hd

theorem Paths.head_root (P : Paths ops root path) : ∀ o ∈ ops, ∃ s, path o = root :: s := by
  apply P.induct (Q := fun o => ∃ s, path o = root :: s)
  · intro o _ h e; exact ⟨[], by rw [e, h]⟩
  · rintro p _ o _ _ _ e ⟨s, h⟩; exact ⟨s ++ [o.id], by rw [e, h]; rfl⟩

/-- Merging the pieces of a tree gives its weave. -/
theorem rgaMerge_weave {inputs : List (Cur AOp)} (t : Tree (flat inputs) root)
    (hp : ∀ c ∈ inputs, Piece (flat inputs) root (c.1 :: c.2)) (hne : inputs ≠ []) :
    ∃ out, rgaMerge inputs = some (out, []) ∧ IsWeave (flat inputs) root out := by
  obtain ⟨path, P, hiff⟩ := t.paths
  -- the order of the specification and of the lemmas
  have ord : ∀ l : List AOp, (∀ o ∈ l, o ∈ flat inputs) →
      (InOrder (flat inputs) root l ↔ l.Pairwise (Bef path)) := by
    intro l hl
    unfold InOrder
    constructor
    · intro h
      refine List.Pairwise.imp_of_mem ?_ h
      intro a b ha hb hab
      exact hab _ _ ((hiff a (hl a ha) _).2 rfl) ((hiff b (hl b hb) _).2 rfl)
    · intro h
      refine List.Pairwise.imp_of_mem ?_ h
      intro a b ha hb hab p q h1 h2
      rw [← (hiff a (hl a ha) p).1 h1, ← (hiff b (hl b hb) q).1 h2]; exact hab
  have hsorted : ∀ c ∈ inputs, (c.1 :: c.2).Pairwise (Bef path) := fun c hc =>
    (ord _ (fun o ho => mem_flat hc ho)).1 (hp c hc).1
  -- the root is not inside a piece
  have hinner : ∀ c ∈ inputs, ∀ o ∈ c.2, o.id ≠ root := by
    intro c hc o ho e
    have hb : Bef path c.1 o := (List.pairwise_cons.1 (hsorted c hc)).1 o ho
    have hom : o ∈ flat inputs := mem_flat hc (by simp [ho])
    obtain ⟨s, hs⟩ := Paths.head_root P c.1 (mem_flat hc (by simp))
    have ho' : path o = [o.id] := by
      rcases P.step o hom with ⟨_, h⟩ | ⟨p, hpm, _, h2, _⟩
      · exact h
      · exfalso
        obtain ⟨l, hl⟩ := t.reached p hpm
        rcases hl.ge_root with h | h
        · rw [h, e, uuid_lin.irrefl] at h2; cases h2
        · have := uuid_lin.trans _ _ _ h h2
          rw [e, uuid_lin.irrefl] at this; cases this
    unfold Bef at hb
    rw [hs, ho', e, before_cons, uuid_lin.irrefl, before_nil] at hb
    simp at hb
  -- some piece starts with the root
  have hroot : ∃ c ∈ inputs, c.1.id = root := by
    cases hi : inputs with
    | nil => exact absurd hi hne
    | cons c cs =>
      rw [← hi]
      have hcm : c.1 ∈ flat inputs := mem_flat (c := c) (by rw [hi]; simp) (by simp)
      obtain ⟨s, hs⟩ := Paths.head_root P c.1 hcm
      obtain ⟨a, ha, e⟩ := P.prefix c.1 hcm [root] s hs (by simp)
      have hid : a.id = root := by
        obtain ⟨l, hl⟩ := P.last a ha
        rw [e] at hl
        have := List.append_inj_right' (show [] ++ [root] = l ++ [a.id] from hl) rfl
        simpa using this.symm
      unfold flat at ha
      rw [List.mem_flatMap] at ha
      obtain ⟨d, hd, had⟩ := ha
      simp only [List.mem_cons] at had
      rcases had with rfl | had
      · exact ⟨d, hd, hid⟩
      · exact absurd hid (hinner d hd a had)
  have hm : ∃ m, minId inputs = some m := by
    cases inputs with
    | nil => exact absurd rfl hne
    | cons c cs => exact ⟨_, rfl⟩
  obtain ⟨m, hm⟩ := hm
  have hmr : m = root := by
    obtain ⟨⟨c, hc, e⟩, h2⟩ := minId_spec inputs m hm
    obtain ⟨d, hd, e2⟩ := hroot
    have h3 := h2 d hd
    rw [e2] at h3
    obtain ⟨l, hl⟩ := t.reached c.1 (mem_flat hc (by simp))
    rcases hl.ge_root with h | h
    · rw [← e, h]
    · rw [e, h3] at h; cases h
  subst hmr
  unfold rgaMerge
  rw [hm]
  simp only
  obtain ⟨h2, w2, e2, b1, b2, b3⟩ := attach_spec (fun o => decide (o.id = m)) inputs []
    (by intro i _ a b ha; simp at ha)
  have ht := total_perm b2
  rw [List.nil_append] at ht b2
  have htf := total_filter (fun o => decide (o.id = m)) inputs
  have hwf := flat_filter (fun o => decide (o.id = m)) inputs
  have hfl := flat_perm b2
  have I : Inv (flat inputs) m path [] h2 w2 := by
    refine ⟨?_, List.Pairwise.nil, by simp, ?_, ?_, ?_, ?_, ?_, by simp⟩
    · rw [List.nil_append, b3]; exact (hfl.append_right _).trans hwf
    · intro c hc; exact hsorted c (List.mem_filter.1 (b2.mem_iff.1 hc)).1
    · intro c hc; rw [b3] at hc; exact hsorted c (List.mem_filter.1 hc).1
    · intro c hc
      obtain ⟨hci, hcr⟩ := List.mem_filter.1 (b2.mem_iff.1 hc)
      have hcr : c.1.id = m := of_decide_eq_true hcr
      refine Chained.closed P (fun o ho => mem_flat hci ho) (hp c hci).2 (hinner c hci) ?_
      rintro z hz ⟨s, hs, e⟩
      exfalso
      have hcm : c.1 ∈ flat inputs := mem_flat hci (by simp)
      rcases P.step c.1 hcm with ⟨_, h⟩ | ⟨p, hpm, _, h2, _⟩
      · obtain ⟨s', hs'⟩ := Paths.head_root P z hz
        rw [h, hs'] at e
        simp at e
        exact hs e.2.2
      · obtain ⟨l, hl⟩ := t.reached p hpm
        rcases hl.ge_root with h | h
        · rw [h, hcr, uuid_lin.irrefl] at h2; cases h2
        · have := uuid_lin.trans _ _ _ h h2
          rw [hcr, uuid_lin.irrefl] at this; cases this
    · intro c hc; rw [b3] at hc; exact (hp c (List.mem_filter.1 hc).1).2
    · intro r hr e
      rw [b3] at hr
      unfold flat at hr
      rw [List.mem_flatMap] at hr
      obtain ⟨d, hd, hrd⟩ := hr
      obtain ⟨hdi, hdp⟩ := List.mem_filter.1 hd
      simp only [List.mem_cons] at hrd
      rcases hrd with rfl | hrd
      · simp [e] at hdp
      · exact hinner d hdi r hrd e
  obtain ⟨out, e3, g1, g2⟩ := rgaLoop_weave P t.unique (total inputs + 1) [] h2 w2
    (by rw [b3]; omega) b1 I
  rw [e2]
  simp only [Option.bind_some, e3]
  rw [List.nil_append] at g1 g2
  exact ⟨out, rfl, g1, (ord out fun o ho => g1.mem_iff.1 ho).2 g2⟩

/-- A weave is unique. -/
theorem weave_unique (t : Tree ops root) {a b : List AOp}
    (ha : IsWeave ops root a) (hb : IsWeave ops root b) : a = b := by
  obtain ⟨path, P, hiff⟩ := t.paths
  have conv : ∀ l : List AOp, IsWeave ops root l → l.Pairwise (Bef path) := by
    intro l hl
    refine List.Pairwise.imp_of_mem ?_ hl.2
    intro x y hx hy hxy
    exact hxy _ _ ((hiff x (hl.1.mem_iff.1 hx) _).2 rfl) ((hiff y (hl.1.mem_iff.1 hy) _).2 rfl)
  refine List.Perm.eq_of_pairwise (le := Bef path) ?_ (conv a ha) (conv b hb) (ha.1.trans hb.1.symm)
  intro x y _ _ h1 h2
  have := before_asymm h1
  rw [h2] at this; cases this

end Rdt
end Ron
