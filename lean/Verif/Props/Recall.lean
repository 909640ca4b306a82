import Verif.Model.Recall
import Verif.Spec.Recall
import Verif.Lemmas.RgaAttach
import Verif.Props.Lww
import Verif.Props.Rga
/-!
C74: the state of an object as of a version.
-/
namespace Ron.Props
open Rdt Spec Recall

/-- C74: for every object of a type with history, and every op in its log, the state as of that op can be
had, and consists of the events up to it. -/
def C74_claim : Prop := ∀ (v : View) (type : Uuid) (log past : List AOp) (x : Uuid),
  uuid2form type = Form.LWW ∨ uuid2form type = Form.MX ∨ uuid2form type = Form.RGA →
  LogOf type log → Until x log past →
  ∃ out, version v x log = some (Status.OK, out) ∧ SameEvents out past

/-- Ops in a row: each refers to the one before, and ids go up. -/
inductive Linked : List AOp → Prop where
  | one (o : AOp) : Linked [o]
  | more (a b : AOp) (l : List AOp) : b.ref = a.id → Uuid.lt a.id b.id = true → Linked (b :: l) →
      Linked (a :: b :: l)

theorem link_cons (o : AOp) (cs : List (List AOp)) : ∃ c ds, link o cs = (o :: c) :: ds := by
  unfold link
  split
  · split <;> exact ⟨_, _, rfl⟩
  · exact ⟨_, _, rfl⟩

theorem chainsFrom_cons (x : Uuid) (o : AOp) (os : List AOp) :
    ∃ c cs, chainsFrom x (o :: os) = (o :: c) :: cs := by
  rw [chainsFrom]
  split
  · exact ⟨_, _, rfl⟩
  · exact link_cons o _

theorem chainsFrom_step (x : Uuid) (o n : AOp) (os : List AOp) (h : o.id ≠ x) :
    ∃ c cs, chainsFrom x (n :: os) = (n :: c) :: cs ∧ chainsFrom x (o :: n :: os) =
      if n.ref = o.id then (o :: n :: c) :: cs else [o] :: (n :: c) :: cs := by
  obtain ⟨c, cs, e⟩ := chainsFrom_cons x n os
  refine ⟨c, cs, e, ?_⟩
  rw [chainsFrom, if_neg h, e]
  rfl

theorem chainsFrom_one (x : Uuid) (o : AOp) : chainsFrom x [o] = [[o]] := by
  rw [chainsFrom]
  split <;> rfl

theorem chainsFrom_sub (x : Uuid) : ∀ l : List AOp, ∀ q ∈ (chainsFrom x l).flatten, q ∈ l := by
  intro l
  induction l with
  | nil => intro q hq; simp [chainsFrom] at hq
  | cons a l ih =>
    intro q hq
    by_cases ha : a.id = x
    · rw [chainsFrom, if_pos ha] at hq
      simp at hq
      subst hq
      exact List.mem_cons_self ..
    cases l with
    | nil => rw [chainsFrom_one] at hq; simpa using hq
    | cons b l =>
      obtain ⟨c, cs, e1, e2⟩ := chainsFrom_step x a b l ha
      rw [e1] at ih
      rw [e2] at hq
      have : q = a ∨ q ∈ ((b :: c) :: cs).flatten := by
        split at hq <;> simpa using hq
      rcases this with rfl | hq
      · exact List.mem_cons_self ..
      · exact List.mem_cons_of_mem _ (ih q hq)

theorem chainsFrom_stop (x : Uuid) (o : AOp) (os : List AOp) (h : o.id = x) : chainsFrom x (o :: os) = [[o]] := by
  rw [chainsFrom, if_pos h]

theorem chainsFrom_flatten (x : Uuid) (o : AOp) (ho : o.id = x) (post : List AOp) : ∀ pre : List AOp,
    (∀ p ∈ pre, p.id ≠ x) → (chainsFrom x (pre ++ o :: post)).flatten = pre ++ [o] := by
  intro pre
  induction pre with
  | nil => intro _; rw [List.nil_append, chainsFrom_stop x o post ho]; rfl
  | cons p pre ih =>
    intro h
    have ih := ih fun q hq => h q (List.mem_cons_of_mem _ hq)
    cases e : pre ++ o :: post with
    | nil => simp at e
    | cons n os =>
      rw [List.cons_append, e]
      obtain ⟨c, cs, e1, e2⟩ := chainsFrom_step x p n os (h p (List.mem_cons_self ..))
      rw [e, e1] at ih
      rw [e2]
      split
      · simpa using ih
      · simpa using ih

theorem chainsFrom_all (x : Uuid) : ∀ log : List AOp, (∀ p ∈ log, p.id ≠ x) → (chainsFrom x log).flatten = log := by
  intro log
  induction log with
  | nil => intro _; rfl
  | cons p log ih =>
    intro h
    have ih := ih fun q hq => h q (List.mem_cons_of_mem _ hq)
    cases log with
    | nil => rw [chainsFrom_one]; rfl
    | cons n os =>
      obtain ⟨c, cs, e1, e2⟩ := chainsFrom_step x p n os (h p (List.mem_cons_self ..))
      rw [e1] at ih
      rw [e2]
      split <;> simpa using ih

theorem chainsFrom_linked (x : Uuid) : ∀ log : List AOp,
    (∀ pre p post, log = pre ++ p :: post → pre ≠ [] → Uuid.lt p.ref p.id = true) →
    ∀ c ∈ chainsFrom x log, Linked c := by
  intro log
  induction log with
  | nil => intro _ c hc; simp [chainsFrom] at hc
  | cons o log ih =>
    intro h c hc
    by_cases ho : o.id = x
    · rw [chainsFrom_stop x o log ho, List.mem_singleton] at hc
      subst hc
      exact .one o
    cases log with
    | nil =>
      rw [chainsFrom_one, List.mem_singleton] at hc
      subst hc
      exact .one o
    | cons n os =>
      have ih := ih fun pre p post e hp => h (o :: pre) p post (by rw [e]; rfl) (by simp)
      obtain ⟨d, cs, e1, e2⟩ := chainsFrom_step x o n os ho
      rw [e2] at hc
      rw [e1] at ih
      split at hc
      · rename_i hr
        rcases List.mem_cons.1 hc with rfl | hc
        · refine .more o n d hr ?_ (ih _ (List.mem_cons_self ..))
          rw [← hr]
          exact h [o] n os rfl (by simp)
        · exact ih c (List.mem_cons_of_mem _ hc)
      · rcases List.mem_cons.1 hc with rfl | hc
        · exact .one o
        · exact ih c hc

/-- All heads of chains but the first are ops that are not the first of the log. -/
theorem chainsFrom_heads (x : Uuid) (P : AOp → Prop) : ∀ (o : AOp) (log : List AOp), (∀ p ∈ log, P p) →
    ∀ c cs, chainsFrom x (o :: log) = c :: cs → ∀ d ∈ cs, ∀ p ∈ d, P p := by
  intro o log
  induction log generalizing o with
  | nil =>
    intro _ c cs e
    rw [chainsFrom_one] at e
    cases e
    simp
  | cons n os ih =>
    intro h c cs e d hd p hp
    by_cases ho : o.id = x
    · rw [chainsFrom_stop x o _ ho] at e
      cases e
      simp at hd
    obtain ⟨c', cs', e1, e2⟩ := chainsFrom_step x o n os ho
    have ih := ih n (fun q hq => h q (List.mem_cons_of_mem _ hq)) _ _ e1
    rw [e2] at e
    split at e
    · cases e
      exact ih d hd p hp
    · cases e
      rcases List.mem_cons.1 hd with rfl | hd
      · exact h p (chainsFrom_sub x _ p (by rw [e1]; simp only [List.flatten_cons, List.mem_append]; exact .inl hp))
      · exact ih d hd p hp

theorem Linked.lower {l : List AOp} (h : Linked l) : ∀ a os, l = a :: os → ∀ b ∈ os, Uuid.lt a.id b.id = true := by
  induction h with
  | one o =>
    intro a os e b hb
    cases e
    cases hb
  | more a b l _ hlt _ ih =>
    intro a' os e c hc
    cases e
    rcases List.mem_cons.1 hc with rfl | hc
    · exact hlt
    · exact uuid_lin.trans _ _ _ hlt (ih b l rfl c hc)

theorem Linked.sorted {l : List AOp} (h : Linked l) : IdSorted l := by
  induction h with
  | one o => exact List.pairwise_singleton _ _
  | more a b l h1 h2 h3 ih => exact List.pairwise_cons.2 ⟨(Linked.more a b l h1 h2 h3).lower a _ rfl, ih⟩

/-- The type is found whatever the other chains, if they begin with references to events. -/
theorem getForm_rest (t : Uuid) : ∀ cs : List (List AOp), (∀ d ∈ cs, ∀ p ∈ d, p.ref.version ≠ Uuid.vNAME) →
    getForm t cs = some (uuid2form t) := by
  intro cs
  induction cs with
  | nil => intro _; rfl
  | cons d cs ih =>
    intro h
    have ih := ih fun e he => h e (List.mem_cons_of_mem _ he)
    cases d with
    | nil => exact ih
    | cons o os =>
      rw [getForm, if_pos (h _ (List.mem_cons_self ..) o (List.mem_cons_self ..))]
      exact ih

theorem type_name {t : Uuid} (h : uuid2form t = Form.LWW ∨ uuid2form t = Form.MX ∨ uuid2form t = Form.RGA) :
    t.version = Uuid.vNAME := by
  have hall : ∀ e ∈ UUID2FORM, (e.2 = Form.LWW ∨ e.2 = Form.MX ∨ e.2 = Form.RGA) → e.1.version = Uuid.vNAME := by
    decide +kernel
  unfold uuid2form at h
  split at h
  · rename_i e he
    have h1 := List.mem_of_find?_eq_some he
    have h2 := List.find?_some he
    rw [← eq_of_beq h2]
    exact hall e h1 h
  · exact absurd h (by decide)

theorem id_ne_nil {type : Uuid} {log : List AOp} (h : LogOf type log) : ∀ o ∈ log, o.id ≠ Uuid.NIL := by
  intro o ho e
  obtain ⟨pre, post, hs⟩ := List.append_of_mem ho
  cases pre with
  | nil =>
    obtain ⟨o', os, e1, _, e3⟩ := h.first
    rw [hs] at e1
    cases e1
    exact e3 e
  | cons p pre =>
    have := (h.refs _ _ _ hs (by simp)).2.1
    rw [e] at this
    simp [Uuid.lt, Uuid.NIL] at this

/-- What the split of a log makes. -/
theorem split_log {type : Uuid} (ht : uuid2form type = Form.LWW ∨ uuid2form type = Form.MX ∨ uuid2form type = Form.RGA)
    {log : List AOp} (hl : LogOf type log) {x : Uuid} (hx : x ≠ Uuid.NIL) :
    getForm Uuid.NIL (split x log) = some (uuid2form type) ∧ (∀ c ∈ split x log, Linked c) ∧ split x log ≠ [] ∧
      ∃ o c cs, split x log = (o :: c) :: cs ∧ o.ref = type := by
  obtain ⟨o, os, e1, e2, e3⟩ := hl.first
  unfold split
  rw [if_neg hx]
  obtain ⟨c, cs, e⟩ := chainsFrom_cons x o os
  have hh := chainsFrom_heads x (fun p => p.ref.version ≠ Uuid.vNAME) o os (by
    intro p hp
    obtain ⟨a, b, hs⟩ := List.append_of_mem hp
    exact (hl.refs (o :: a) p b (by rw [e1, hs]; rfl) (by simp)).1) _ _ e
  refine ⟨?_, ?_, ?_, ?_⟩
  · rw [e1, e, getForm, if_neg (by rw [e2, type_name ht]; simp), if_pos (by rfl), e2]
    exact getForm_rest type cs hh
  · exact chainsFrom_linked x log fun pre p post h1 h2 => (hl.refs pre p post h1 h2).2.1
  · rw [e1, e]; simp
  · exact ⟨o, c, cs, by rw [e1, e], e2⟩

theorem split_until {x : Uuid} {log past : List AOp} (hx : x ≠ Uuid.NIL) (h : Until x log past) :
    (split x log).flatten = past := by
  obtain ⟨pre, o, post, rfl, rfl, ho, hp⟩ := h
  unfold split
  rw [if_neg hx]
  exact chainsFrom_flatten x o ho post pre hp

theorem until_mem {x : Uuid} {log past : List AOp} (h : Until x log past) : ∃ o ∈ log, o.id = x := by
  obtain ⟨pre, o, post, rfl, rfl, ho, hp⟩ := h
  exact ⟨o, by simp, ho⟩

theorem until_sub {x : Uuid} {log past : List AOp} (h : Until x log past) : ∀ o ∈ past, o ∈ log := by
  obtain ⟨pre, o, post, rfl, rfl, ho, hp⟩ := h
  intro p hp
  simp at hp ⊢
  rcases hp with h | h
  · exact .inl h
  · exact .inr (.inl h)

theorem until_ne {type x : Uuid} {log past : List AOp} (hl : LogOf type log) (h : Until x log past) : x ≠ Uuid.NIL := by
  obtain ⟨o, ho, rfl⟩ := until_mem h
  exact id_ne_nil hl o ho

theorem unique_consistent {l : List AOp} (h : (l.map AOp.id).Nodup) : Consistent l := by
  intro a ha b hb e
  rw [ids_inj h a ha b hb e]

/-- C74 for the types whose states are ordered by id: the state as of a version has the events of the log up
to that version, and no others. -/
theorem C74_by_id (v : View) (type : Uuid) (log past : List AOp) (x : Uuid)
    (ht : uuid2form type = Form.LWW ∨ uuid2form type = Form.MX) (hl : LogOf type log) (hu : Until x log past) :
    ∃ out, version v x log = some (Status.OK, out) ∧ SameEvents out past ∧ IdSorted out := by
  have hx := until_ne hl hu
  obtain ⟨h1, h2, _⟩ := split_log (ht.elim .inl (fun h => .inr (.inl h))) hl hx
  have hf := split_until hx hu
  have hc : Consistent (split x log).flatten := by
    rw [hf]
    intro a ha b hb
    exact unique_consistent hl.unique a (until_sub hu a ha) b (until_sub hu b hb)
  obtain ⟨out, e, s1, s2, _⟩ := merge_id_same v (f := uuid2form type)
    (ht.elim (fun h => .inl h) fun h => .inr (.inl h)) (split x log) (fun c hc => (h2 c hc).sorted) hc
  refine ⟨out, ?_, hf ▸ s2, s1⟩
  unfold version
  rw [h1]
  exact e

/-- C74 for last-write-wins objects: as of a version, a key reads as its last value then. -/
theorem C74_reads (v : View) (type : Uuid) (log past : List AOp) (x : Uuid) (ht : uuid2form type = Form.LWW)
    (hl : LogOf type log) (hu : Until x log past) :
    ∃ out, version v x log = some (Status.OK, out) ∧ ∀ k,
      (∀ y, Lww.obj out k = some y ↔ LastWrite past k y) ∧ (Lww.obj out k = none ↔ Unwritten past k) := by
  have hx := until_ne hl hu
  obtain ⟨h1, h2, _⟩ := split_log (.inl ht) hl hx
  have hf := split_until hx hu
  have hc : Consistent (split x log).flatten := by
    rw [hf]
    intro a ha b hb
    exact unique_consistent hl.unique a (until_sub hu a ha) b (until_sub hu b hb)
  obtain ⟨out, e, h⟩ := C29_last_write_partial v (split x log) (fun c hc => (h2 c hc).sorted) hc
  rw [hf] at h
  refine ⟨out, ?_, h⟩
  unfold version
  rw [h1, ht]
  exact e

/-- The two ways to make a state of a log agree. -/
theorem C74_state (v : View) (type : Uuid) (log : List AOp) (x : Uuid) (hx : x ≠ Uuid.NIL)
    (ht : uuid2form type = Form.LWW ∨ uuid2form type = Form.MX ∨ uuid2form type = Form.RGA) (hl : LogOf type log) :
    state v x log = version v x log := by
  obtain ⟨h1, _, _, o, c, cs, e, hr⟩ := split_log ht hl hx
  unfold state version
  rw [h1, e]
  simp only
  rw [hr]

/-- A version that is not in the log, of whatever time, is taken for the latest one. -/
theorem C74_unknown (v : View) (log : List AOp) (x y : Uuid) (hx : x ≠ Uuid.NIL) (hy : y ≠ Uuid.NIL)
    (h : ∀ o ∈ log, o.id ≠ x ∧ o.id ≠ y) : version v x log = version v y log ∧ (split x log).flatten = log := by
  have key : ∀ l : List AOp, (∀ o ∈ l, o.id ≠ x ∧ o.id ≠ y) → chainsFrom x l = chainsFrom y l := by
    intro l
    induction l with
    | nil => intro _; rfl
    | cons o l ih =>
      intro h
      have ho := h o (List.mem_cons_self ..)
      have ih := ih fun p hp => h p (List.mem_cons_of_mem _ hp)
      rw [chainsFrom, chainsFrom, if_neg ho.1, if_neg ho.2, ih]
  constructor
  · unfold version split
    rw [if_neg hx, if_neg hy, key log h]
  · unfold split
    rw [if_neg hx]
    exact chainsFrom_all x log fun p hp => (h p hp).1

theorem path_mem {ops : List AOp} {root : Uuid} {o : AOp} {l : List Uuid} (h : Path ops root o l) : o ∈ ops := by
  cases h <;> assumption

/-- The ops of a log up to any of them are a tree. -/
theorem log_tree {type x : Uuid} {log past : List AOp} (hl : LogOf type log) (hu : Until x log past) :
    ∃ o, o ∈ past ∧ o.ref = type ∧ Tree past o.id := by
  obtain ⟨o, os, e1, e2, _⟩ := hl.first
  obtain ⟨pre, y, post, e, rfl, _, _⟩ := hu
  have e' : log = (pre ++ [y]) ++ post := by rw [e]; simp
  have ho : ∃ r, pre ++ [y] = o :: r := by
    rw [e'] at e1
    cases h : pre ++ [y] with
    | nil => simp at h
    | cons a r => rw [h] at e1; cases e1; exact ⟨r, rfl⟩
  obtain ⟨r, hr⟩ := ho
  refine ⟨o, by rw [hr]; exact List.mem_cons_self .., e2, ?_, ?_⟩
  · have := hl.unique
    rw [e', List.map_append] at this
    exact (List.nodup_append.1 this).1
  · have key : ∀ n (a : AOp) (p q : List AOp), p.length ≤ n → pre ++ [y] = p ++ a :: q →
        ∃ l, Path (pre ++ [y]) o.id a l := by
      intro n
      induction n with
      | zero =>
        intro a p q hn hs
        have : p = [] := List.length_eq_zero_iff.1 (by omega)
        subst this
        rw [hr] at hs
        cases hs
        exact ⟨_, .root _ (by rw [hr]; exact List.mem_cons_self ..) rfl⟩
      | succ n ih =>
        intro a p q hn hs
        by_cases hp : p = []
        · exact ih a p q (by rw [hp]; simp) hs
        obtain ⟨_, hlt, b, hb, hid⟩ := hl.refs p a (q ++ post) (by rw [e', hs]; simp) hp
        obtain ⟨p1, p2, hsp⟩ := List.append_of_mem hb
        obtain ⟨l, hpath⟩ := ih b p1 (p2 ++ a :: q) (by rw [hsp] at hn; simp at hn; omega)
          (by rw [hs, hsp]; simp)
        exact ⟨_, .child b a l hpath (by rw [hs]; simp) hid.symm (by rw [hid]; exact hlt)⟩
    intro a ha
    obtain ⟨p, q, hs⟩ := List.append_of_mem ha
    exact key _ a p q (Nat.le_refl _) hs

/-- Paths along a chain are longer and longer. -/
theorem Linked.path {ops : List AOp} {root : Uuid} {l : List AOp} (h : Linked l) :
    ∀ a os, l = a :: os → (∀ b ∈ os, b ∈ ops) → ∀ p, Path ops root a p → ∀ b ∈ os, ∃ s, s ≠ [] ∧ Path ops root b (p ++ s) := by
  induction h with
  | one o =>
    intro a os e _ p _ b hb
    cases e
    cases hb
  | more a b l hr hlt _ ih =>
    intro a' os e hm p hp c hc
    cases e
    have hb : Path ops root b (p ++ [b.id]) := .child a b p hp (hm b (List.mem_cons_self ..)) hr hlt
    rcases List.mem_cons.1 hc with rfl | hc
    · exact ⟨_, by simp, hb⟩
    · obtain ⟨s, _, hs'⟩ := ih b l rfl (fun d hd => hm d (List.mem_cons_of_mem _ hd)) _ hb c hc
      exact ⟨b.id :: s, by simp, by simpa using hs'⟩

theorem Linked.piece {ops : List AOp} {root : Uuid} (ht : Tree ops root) {l : List AOp} (h : Linked l)
    (hm : ∀ b ∈ l, b ∈ ops) : Piece ops root l := by
  have hu := ids_inj ht.unique
  constructor
  · unfold InOrder
    induction h with
    | one o => exact List.pairwise_singleton _ _
    | more a b l hr hlt hl ih =>
      refine List.pairwise_cons.2 ⟨?_, ih fun d hd => hm d (List.mem_cons_of_mem _ hd)⟩
      intro c hc p q hp hq
      obtain ⟨s, hs, hs'⟩ := (Linked.more a b l hr hlt hl).path a _ rfl
        (fun d hd => hm d (List.mem_cons_of_mem _ hd)) p hp c hc
      rw [hq.fun hu hs']
      exact before_append p s hs
  · clear hm
    induction h with
    | one o =>
      intro pre p post e hne
      cases pre with
      | nil => exact absurd rfl hne
      | cons q pre => simp at e
    | more a b l hr hlt hl ih =>
      intro pre p post e hne
      cases pre with
      | nil => exact absurd rfl hne
      | cons q pre =>
        simp only [List.cons_append, List.cons.injEq] at e
        obtain ⟨rfl, e⟩ := e
        by_cases hp : pre = []
        · subst hp
          simp only [List.nil_append, List.cons.injEq] at e
          obtain ⟨rfl, _⟩ := e
          exact ⟨a, List.mem_cons_self .., hr.symm⟩
        · obtain ⟨r, hr1, hr2⟩ := ih pre p post e hp
          exact ⟨r, List.mem_cons_of_mem _ hr1, hr2⟩

/-- C74 for causal trees, if the log has no more than three chains up to the version: the state is the weave
of the events up to it. Missing from the claim: logs of more chains. -/
theorem C74_rga_partial (v : View) (type : Uuid) (log past : List AOp) (x : Uuid) (ht : uuid2form type = Form.RGA)
    (hl : LogOf type log) (hu : Until x log past) (h3 : (split x log).length ≤ 3) :
    ∃ root out w, version v x log = some (Status.OK, out) ∧ root ∈ past ∧ root.ref = type ∧
      out = punctuate w ∧ IsWeave past root.id w := by
  have hx := until_ne hl hu
  obtain ⟨h1, h2, hne, _⟩ := split_log (.inr (.inr ht)) hl hx
  have hf := split_until hx hu
  obtain ⟨o, ho, hr, htree⟩ := log_tree hl hu
  obtain ⟨out, w, e, e1, e2⟩ := C30_weave_partial v o.id (split x log) (by rw [hf]; exact htree) (by
    intro i hi
    refine ⟨fun e => ?_, ?_⟩
    · have := h2 i hi
      rw [e] at this
      cases this
    · rw [hf]
      exact (h2 i hi).piece htree fun b hb => hf ▸ List.mem_flatten.2 ⟨i, hi, hb⟩) h3 hne
  rw [hf] at e2
  refine ⟨o, out, w, ?_, ho, hr, e1, e2⟩
  unfold version
  rw [h1, ht]
  exact e

/-- With more than three chains there is no state of a causal tree. -/
theorem C74_rga_many (v : View) (type : Uuid) (log : List AOp) (x : Uuid) (hx : x ≠ Uuid.NIL)
    (ht : uuid2form type = Form.RGA) (hl : LogOf type log) (h3 : 3 < (split x log).length) :
    version v x log = some (Status.NOT_IMPLEMENTED, []) := by
  obtain ⟨h1, h2, _⟩ := split_log (.inr (.inr ht)) hl hx
  have hv : ∀ cs : List (List AOp), (∀ c ∈ cs, Linked c) → (valid cs).length = cs.length := by
    intro cs
    induction cs with
    | nil => intro _; rfl
    | cons c cs ih =>
      intro h
      have ih := ih fun d hd => h d (List.mem_cons_of_mem _ hd)
      cases c with
      | nil => have := h [] (List.mem_cons_self ..); cases this
      | cons a l => simp [valid, ih]
  unfold version
  rw [h1, ht]
  show mergeCursors v Form.RGA _ = _
  unfold mergeCursors
  have : master v Form.RGA ABuilder.empty (split x log) = rga ABuilder.empty (split x log) := rfl
  rw [this]
  unfold rga
  rw [if_pos (by rw [hv _ h2]; exact h3)]
  rfl

private def ev (n : Nat) : Uuid := ⟨BitVec.ofNat 64 n, BitVec.ofNat 64 (2 ^ 61 + 7)⟩
private def opOf (n r : Nat) (vals : List AVal := []) : AOp := ⟨ev n, ev r, vals, .reduced⟩
private def headOf (f : Form) : AOp := ⟨ev 1, ((UUID2FORM.find? fun e => e.2 == f).map (·.1)).getD Uuid.NIL, [], .header⟩
private def plain : View := ⟨fun _ _ => false, fun _ => headOf Form.LWW⟩
private def typeOf (f : Form) : Uuid := (headOf f).ref
private def name (n : Nat) : AVal := .uuid ⟨BitVec.ofNat 64 n, 0#64⟩

/-- A way to check that a list is a log. -/
def isLog (type : Uuid) (log : List AOp) : Bool :=
  (match log with
    | [] => false
    | o :: _ => decide (o.ref = type ∧ o.id ≠ Uuid.NIL)) &&
  (List.range log.length).all (fun i => i == 0 || match log[i]? with
    | none => true
    | some p => decide (p.ref.version ≠ Uuid.vNAME) && Uuid.lt p.ref p.id && (log.take i).any fun q => decide (q.id = p.ref)) &&
  decide (log.map AOp.id).Nodup

theorem isLog_sound {type : Uuid} {log : List AOp} (h : isLog type log = true) : LogOf type log := by
  unfold isLog at h
  rw [Bool.and_eq_true, Bool.and_eq_true] at h
  obtain ⟨⟨h1, h2⟩, h3⟩ := h
  refine ⟨?_, ?_, of_decide_eq_true h3⟩
  · split at h1
    · cases h1
    · have := of_decide_eq_true h1
      exact ⟨_, _, rfl, this.1, this.2⟩
  · intro pre p post e hne
    rw [List.all_eq_true] at h2
    have h2 := h2 pre.length (by rw [e]; simp)
    have h0 : (pre.length == 0) = false := by
      cases pre with
      | nil => exact absurd rfl hne
      | cons _ _ => rfl
    rw [h0, Bool.false_or, e] at h2
    simp only [List.getElem?_append_right (Nat.le_refl _), Nat.sub_self, List.getElem?_cons_zero,
      List.take_left', Bool.and_eq_true, List.any_eq_true, decide_eq_true_eq] at h2
    exact ⟨h2.1.1, h2.1.2, h2.2⟩

/-- A log of a last-write-wins object: two branches; the version in the middle is before the second write. -/
private def log74 : List AOp :=
  [headOf Form.LWW, opOf 2 1 [name 5, .int 1], opOf 4 2 [name 5, .int 2], opOf 3 2 [name 6, .int 3],
    opOf 9 4 [name 5, .int 4]]

example : uuid2form (typeOf Form.LWW) = Form.LWW ∧ LogOf (typeOf Form.LWW) log74 ∧
    Until (ev 3) log74 (log74.take 4) ∧ (split (ev 3) log74).map List.length = [3, 1] :=
  ⟨by decide +kernel, isLog_sound (by decide +kernel),
    ⟨log74.take 3, opOf 3 2 [name 6, .int 3], log74.drop 4, by decide +kernel, by decide +kernel, rfl, by decide +kernel⟩,
    by decide +kernel⟩

/-- The same for a causal tree. -/
private def log74t : List AOp := [headOf Form.RGA, opOf 2 1 [.int 1], opOf 4 1 [.int 2], opOf 3 2 [.int 3]]

example : uuid2form (typeOf Form.RGA) = Form.RGA ∧ LogOf (typeOf Form.RGA) log74t ∧ Until (ev 3) log74t log74t ∧
    (split (ev 3) log74t).length = 3 :=
  ⟨by decide +kernel, isLog_sound (by decide +kernel),
    ⟨log74t.take 3, opOf 3 2 [.int 3], [], by decide +kernel, by decide +kernel, rfl, by decide +kernel⟩, by decide +kernel⟩

/-- Four ops inserted at the same place make five chains. -/
private def log74m : List AOp :=
  [headOf Form.RGA, opOf 2 1 [.int 1], opOf 3 1 [.int 2], opOf 4 1 [.int 3], opOf 5 1 [.int 4]]

/-- C74 is violated: a causal tree with a log of more than three chains has no state as of a version. -/
theorem C74_violated : ¬ C74_claim := by
  intro h
  have hl : LogOf (typeOf Form.RGA) log74m := isLog_sound (by decide +kernel)
  obtain ⟨out, e, _⟩ := h plain (typeOf Form.RGA) log74m log74m (ev 5) (.inr (.inr (by decide +kernel))) hl
    ⟨log74m.take 4, opOf 5 1 [.int 4], [], by decide +kernel, by decide +kernel, rfl, by decide +kernel⟩
  rw [C74_rga_many plain (typeOf Form.RGA) log74m (ev 5) (by decide +kernel) (by decide +kernel) hl
    (by decide +kernel)] at e
  have : Status.NOT_IMPLEMENTED = Status.OK := congrArg Prod.fst (Option.some.inj e)
  revert this
  decide +kernel

end Ron.Props
