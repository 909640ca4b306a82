import Verif.Model.IncStack
/-!
C26: the incremental stack behaves as a stack.

The specification is a plain list, the last element on top.
-/
namespace Ron.Props
open Ron IncStack

/-- A stack operation. -/
inductive Cmd (α : Type) where
  | push (v : α)
  | pop

variable {α : Type} [DecidableEq α]

/-- The operations on a plain list; popping an empty stack is not allowed. -/
def listRun : List α → List (Cmd α) → Option (List α)
  | l, [] => some l
  | l, .push v :: cs => listRun (l ++ [v]) cs
  | [], .pop :: _ => none
  | x :: l, .pop :: cs => listRun (x :: l).dropLast cs

/-- The operations on the span-compressed stack. -/
def stackRun (plus : α → Nat → α) : IncStack α → List (Cmd α) → Option (IncStack α)
  | s, [] => some s
  | s, .push v :: cs => stackRun plus (s.push plus v) cs
  | s, .pop :: cs => (s.pop).bind fun s => stackRun plus s cs

/-- `++` n times from the beginning. -/
def iterAt (s : IncStack α) : Nat → Option (Iter α)
  | 0 => some s.begin_
  | n + 1 => (iterAt s n).bind Iter.next

/-- The elements of a span, of a list of spans. -/
private def expand (plus : α → Nat → α) (s : Span α) : List α := (List.range s.size).map (plus s.value)
private def all (plus : α → Nat → α) (ss : List (Span α)) : List α := ss.flatMap (expand plus)

private structure Rep (plus : α → Nat → α) (s : IncStack α) (l : List α) : Prop where
  all_ : all plus s.spans = l
  pos : ∀ x ∈ s.spans, 1 ≤ x.size
  size_ : s.size = l.length
  lt : l.length < 2 ^ 32

omit [DecidableEq α] in
private theorem expand_len (plus : α → Nat → α) (s : Span α) : (expand plus s).length = s.size := by
  simp [expand]

omit [DecidableEq α] in
private theorem size_le (plus : α → Nat → α) {ss : List (Span α)} {x : Span α} (h : x ∈ ss) :
    x.size ≤ (all plus ss).length := by
  induction ss with
  | nil => cases h
  | cons y ys ih =>
    simp only [all, List.flatMap_cons, List.length_append, expand_len]
    rcases List.mem_cons.1 h with rfl | h
    · omega
    · have := ih h; simp only [all] at this; omega

omit [DecidableEq α] in
private theorem all_concat (plus : α → Nat → α) (ss : List (Span α)) (x : Span α) :
    all plus (ss ++ [x]) = all plus ss ++ expand plus x := by simp [all]

private theorem cases_last {β : Type} (l : List β) : l = [] ∨ ∃ a b, l = a ++ [b] := by
  rcases List.eq_nil_or_concat l with h | ⟨a, b, h⟩
  · exact .inl h
  · exact .inr ⟨a, b, by rw [h, List.concat_eq_append]⟩

omit [DecidableEq α] in
private theorem expand_succ (plus : α → Nat → α) (v : α) (n : Nat) :
    expand plus ⟨v, n + 1⟩ = expand plus ⟨v, n⟩ ++ [plus v n] := by
  simp [expand, List.range_succ]

private theorem push_rep {plus : α → Nat → α} (h0 : ∀ v, plus v 0 = v) {s : IncStack α} {l : List α} (r : Rep plus s l)
    (v : α) (h : (l ++ [v]).length < 2 ^ 32) : Rep plus (s.push plus v) (l ++ [v]) := by
  have hl : (s.size + 1) % 2 ^ 32 = (l ++ [v]).length := by
    rw [r.size_]; simp at h ⊢; omega
  have new : ∀ ss n, all plus ss = l → (∀ x ∈ ss, 1 ≤ x.size) → n = (l ++ [v]).length →
      Rep plus ⟨ss ++ [⟨v, 1⟩], n⟩ (l ++ [v]) := by
    intro ss n ha hp hn
    refine ⟨?_, ?_, hn, h⟩
    · rw [all_concat, ha]; simp [expand, h0]
    · intro x hx
      rcases List.mem_append.1 hx with hx | hx
      · exact hp x hx
      · rw [List.mem_singleton.1 hx]; exact Nat.le_refl 1
  rcases cases_last s.spans with hs | ⟨a, b, hs⟩
  · have : s.push plus v = ⟨s.spans ++ [⟨v, 1⟩], (s.size + 1) % 2 ^ 32⟩ := by
      unfold IncStack.push; rw [hs]; rfl
    rw [this]; exact new _ _ r.all_ r.pos hl
  · have hg : s.spans.getLast? = some b := by rw [hs]; simp
    have hd : s.spans.dropLast = a := by rw [hs]; simp
    have hb : b.size < 2 ^ 32 := by
      have := size_le plus (ss := s.spans) (x := b) (by rw [hs]; simp)
      rw [r.all_] at this; have := r.lt; omega
    unfold IncStack.push
    rw [hg, hd]
    dsimp only
    by_cases hc : plus b.value b.size = v
    · have hb2 : b.size + 1 < 2 ^ 32 := by
        have h2 := r.all_
        rw [hs, all_concat] at h2
        have := congrArg List.length h2
        rw [List.length_append, expand_len] at this
        simp at h; omega
      rw [if_pos hc, Nat.mod_eq_of_lt hb2]
      refine ⟨?_, ?_, hl, h⟩
      · rw [all_concat, expand_succ, ← List.append_assoc, ← all_concat, hc]
        have : a ++ [(⟨b.value, b.size⟩ : Span α)] = s.spans := by rw [hs]
        rw [this, r.all_]
      · intro x hx
        rcases List.mem_append.1 hx with hx | hx
        · exact r.pos x (by rw [hs]; simp [hx])
        · rw [List.mem_singleton.1 hx]; simp
    · rw [if_neg hc]; exact new _ _ r.all_ r.pos hl

omit [DecidableEq α] in
private theorem pop_rep {plus : α → Nat → α} {s : IncStack α} {l : List α} {v : α}
    (r : Rep plus s (l ++ [v])) : ∃ s', s.pop = some s' ∧ Rep plus s' l := by
  have hl : (s.size + (2 ^ 32 - 1)) % 2 ^ 32 = l.length := by
    have := r.lt; have := r.size_; simp at *; omega
  have hlt : l.length < 2 ^ 32 := by have := r.lt; simp at this; omega
  rcases cases_last s.spans with hs | ⟨a, b, hs⟩
  · have := r.all_; rw [hs] at this; simp [all] at this
  · have hg : s.spans.getLast? = some b := by rw [hs]; simp
    have hd : s.spans.dropLast = a := by rw [hs]; simp
    have hpa : ∀ x ∈ a, 1 ≤ x.size := fun x hx => r.pos x (by rw [hs]; simp [hx])
    have hpb : 1 ≤ b.size := r.pos b (by rw [hs]; simp)
    have hblt : b.size < 2 ^ 32 := by
      have := size_le plus (ss := s.spans) (x := b) (by rw [hs]; simp)
      rw [r.all_] at this; have := r.lt; omega
    have hall := r.all_
    obtain ⟨k, hk⟩ : ∃ k, b.size = k + 1 := ⟨b.size - 1, by omega⟩
    have hbe : b = ⟨b.value, k + 1⟩ := by rw [← hk]
    rw [hs, all_concat, hbe, expand_succ, ← List.append_assoc] at hall
    have hall := (List.append_inj_left' hall rfl)
    unfold IncStack.pop
    rw [hg, hd]
    dsimp only
    by_cases h1 : b.size = 1
    · rw [if_pos h1]
      refine ⟨_, rfl, ?_, hpa, hl, hlt⟩
      have : k = 0 := by omega
      subst this
      simpa [expand] using hall
    · rw [if_neg h1]
      have hm : (b.size + (2 ^ 32 - 1)) % 2 ^ 32 = k := by omega
      rw [hm]
      refine ⟨_, rfl, ?_, ?_, hl, hlt⟩
      · rw [all_concat]; exact hall
      · intro x hx
        rcases List.mem_append.1 hx with hx | hx
        · exact hpa x hx
        · rw [List.mem_singleton.1 hx]; show 1 ≤ k; omega

private theorem run_rep {plus : α → Nat → α} (h0 : ∀ v, plus v 0 = v) : ∀ (cs : List (Cmd α)) (s : IncStack α) (l : List α),
    Rep plus s l → l.length + cs.length < 2 ^ 32 →
    match listRun l cs with
    | none => stackRun plus s cs = none
    | some l' => ∃ s', stackRun plus s cs = some s' ∧ Rep plus s' l' := by
  intro cs
  induction cs with
  | nil => intro s l r _; exact ⟨s, rfl, r⟩
  | cons c cs ih =>
    intro s l r h
    simp only [List.length_cons] at h
    cases c with
    | push v =>
      have h' : (l ++ [v]).length + cs.length < 2 ^ 32 := by simp; omega
      exact ih _ _ (push_rep h0 r v (by omega)) h'
    | pop =>
      rcases cases_last l with rfl | ⟨a, b, rfl⟩
      · show stackRun plus s (.pop :: cs) = none
        have : s.spans = [] := by
          cases hs : s.spans with
          | nil => rfl
          | cons x xs =>
            have h1 := r.all_
            have h2 := size_le plus (ss := s.spans) (x := x) (by rw [hs]; simp)
            have h3 := r.pos x (by rw [hs]; simp)
            rw [h1] at h2; simp at h2; omega
        simp [stackRun, IncStack.pop, this]
      · obtain ⟨s', e, r'⟩ := pop_rep r
        have hr : listRun (a ++ [b]) (.pop :: cs) = listRun a cs := by
          cases a with
          | nil => simp [listRun]
          | cons x t => simp [listRun, List.dropLast_cons_of_ne_nil]
        rw [hr]
        have : stackRun plus s (.pop :: cs) = stackRun plus s' cs := by
          simp [stackRun, e]
        rw [this]
        exact ih _ _ r' (by simp at h; omega)

/-- What an iterator has still to show. -/
private def rest (plus : α → Nat → α) (i : Iter α) : List α := (all plus i.rest).drop i.off

private structure IterOk (i : Iter α) : Prop where
  pos : ∀ x ∈ i.rest, 1 ≤ x.size ∧ x.size < 2 ^ 32
  off : (i.rest = [] ∧ i.off = 0) ∨ ∃ s t, i.rest = s :: t ∧ i.off < s.size

omit [DecidableEq α] in
private theorem deref_rest {plus : α → Nat → α} {i : Iter α} (h : IterOk i) : i.deref plus = (rest plus i).head? := by
  rcases h.off with ⟨h1, h2⟩ | ⟨s, t, h1, h2⟩
  · simp [Iter.deref, rest, h1, all]
  · simp only [Iter.deref, rest, h1, all, List.flatMap_cons, List.head?_drop]
    rw [List.getElem?_append_left (by rw [expand_len]; exact h2)]
    simp [expand, h2]

omit [DecidableEq α] in
private theorem next_rest {plus : α → Nat → α} {i : Iter α} {x : α} {xs : List α} (h : IterOk i)
    (hr : rest plus i = x :: xs) : ∃ j, i.next = some j ∧ IterOk j ∧ rest plus j = xs := by
  rcases h.off with ⟨h1, h2⟩ | ⟨s, t, h1, h2⟩
  · simp [rest, h1, all] at hr
  · have hs := (h.pos s (by rw [h1]; simp))
    have htail : xs = (all plus i.rest).drop (i.off + 1) := by
      have := congrArg List.tail hr
      simpa [rest, List.tail_drop] using this.symm
    have hm : (i.off + 1) % 2 ^ 32 = i.off + 1 := Nat.mod_eq_of_lt (by omega)
    have hpt : ∀ x ∈ t, 1 ≤ x.size ∧ x.size < 2 ^ 32 := fun x hx => h.pos x (by rw [h1]; simp [hx])
    unfold Iter.next
    rw [h1]
    dsimp only
    rw [hm]
    by_cases hc : i.off + 1 = s.size
    · rw [if_pos hc]
      refine ⟨_, rfl, ⟨hpt, ?_⟩, ?_⟩
      · cases t with
        | nil => exact .inl ⟨rfl, rfl⟩
        | cons y ys => exact .inr ⟨y, ys, rfl, by have := hpt y (by simp); show 0 < y.size; omega⟩
      · rw [htail, h1, hc]
        simp only [rest, all, List.flatMap_cons, List.drop_zero]
        rw [List.drop_append, expand_len, Nat.sub_self, List.drop_zero,
          List.drop_eq_nil_of_le (by rw [expand_len]; exact Nat.le_refl _), List.nil_append]
    · rw [if_neg hc]
      refine ⟨_, rfl, ⟨fun x hx => h.pos x (by rw [h1]; exact hx), .inr ⟨s, t, rfl, by show i.off + 1 < s.size; omega⟩⟩, ?_⟩
      rw [htail, h1]; rfl

private theorem end_rest {plus : α → Nat → α} {i : Iter α} (h : IterOk i) (hr : rest plus i = []) :
    i = end_ := by
  rcases h.off with ⟨h1, h2⟩ | ⟨s, t, h1, h2⟩
  · cases i; simp only at h1 h2; subst h1; subst h2; rfl
  · have := congrArg List.length hr
    simp only [rest, h1, all, List.flatMap_cons, List.length_drop, List.length_append, expand_len,
      List.length_nil] at this
    omega

omit [DecidableEq α] in
private theorem iterAt_rest {plus : α → Nat → α} {s : IncStack α} {l : List α} (r : Rep plus s l) :
    ∀ n, n ≤ l.length → ∃ i, iterAt s n = some i ∧ IterOk i ∧ rest plus i = l.drop n := by
  have hp : ∀ x ∈ s.spans, 1 ≤ x.size ∧ x.size < 2 ^ 32 := fun x hx =>
    ⟨r.pos x hx, by have := size_le plus hx; rw [r.all_] at this; have := r.lt; omega⟩
  intro n
  induction n with
  | zero =>
    intro _
    refine ⟨s.begin_, rfl, ⟨hp, ?_⟩, by simp [rest, begin_, r.all_]⟩
    cases hs : s.spans with
    | nil => exact .inl ⟨hs, rfl⟩
    | cons x xs => exact .inr ⟨x, xs, hs, by have := hp x (by rw [hs]; simp); show 0 < x.size; omega⟩
  | succ n ih =>
    intro hn
    obtain ⟨i, e, hi, hr⟩ := ih (by omega)
    rw [List.drop_eq_getElem_cons (by omega)] at hr
    obtain ⟨j, e2, hj, hr2⟩ := next_rest hi hr
    exact ⟨j, by simp [iterAt, e, e2], hj, hr2⟩

/-- The full claim: reading by index, too (`+=` from the beginning). -/
def C26_claim : Prop := ∀ (cmds : List (Cmd Uuid)) (s : IncStack Uuid) (l : List Uuid),
  cmds.length < 2 ^ 32 → stackRun Uuid.plus IncStack.empty cmds = some s → listRun [] cmds = some l →
  ∀ n < l.length, (Iter.advance n s.spans 0).bind (Iter.deref Uuid.plus) = l[n]?

private def u (v : Nat) : Uuid := ⟨BitVec.ofNat 64 v, 7#64⟩

/-- It fails for `+=`: within a span it moves the span pointer and not the offset. -/
theorem C26_violated : ¬ C26_claim := by
  intro h
  have := h [.push (u 1), .push (u 2), .push (u 9)] ⟨[⟨u 1, 2⟩, ⟨u 9, 1⟩], 3⟩ [u 1, u 2, u 9]
    (by decide) (by decide) (by decide) 1 (by decide)
  revert this
  decide

/-- Everything but `+=`: after any sequence of pushes and pops (of less than 2^32 elements) the
span-compressed stack fails exactly when the plain stack does, and else it has the same size,
emptiness, first and last element, and its iterator shows the same elements and then the end. -/
theorem C26_stack_partial (plus : α → Nat → α) (h0 : ∀ v, plus v 0 = v) (cmds : List (Cmd α))
    (hlen : cmds.length < 2 ^ 32) :
    (listRun [] cmds = none → stackRun plus IncStack.empty cmds = none) ∧
    ∀ l, listRun [] cmds = some l → ∃ s, stackRun plus IncStack.empty cmds = some s ∧
      s.size = l.length ∧ s.isEmpty = l.isEmpty ∧ s.front = l.head? ∧ s.back plus = l.getLast? ∧
      (∀ n, n < l.length → (iterAt s n).bind (Iter.deref plus) = l[n]?) ∧
      iterAt s l.length = some end_ := by
  have r0 : Rep plus (IncStack.empty : IncStack α) [] :=
    ⟨rfl, fun x hx => (List.not_mem_nil hx).elim, rfl, by simp⟩
  have h := run_rep h0 cmds IncStack.empty [] r0 (by simpa using hlen)
  refine ⟨fun hn => by rw [hn] at h; exact h, fun l hl => ?_⟩
  rw [hl] at h
  obtain ⟨s, e, r⟩ := h
  refine ⟨s, e, r.size_, ?_, ?_, ?_, ?_, ?_⟩
  · simp [IncStack.isEmpty, r.size_]
    cases l <;> simp
  · cases hs : s.spans with
    | nil => have := r.all_; rw [hs] at this; simp [all] at this; subst this; simp [front, hs]
    | cons x xs =>
      have := r.all_
      have hx := r.pos x (by rw [hs]; simp)
      obtain ⟨k, hk⟩ : ∃ k, x.size = k + 1 := ⟨x.size - 1, by omega⟩
      rw [hs] at this
      rw [← this]
      simp [front, hs, all, expand, hk, List.range_succ_eq_map, h0]
  · rcases cases_last s.spans with hs | ⟨a, b, hs⟩
    · have := r.all_; rw [hs] at this; simp [all] at this; subst this; simp [back, hs]
    · have hall := r.all_
      have hb := r.pos b (by rw [hs]; simp)
      have hblt : b.size < 2 ^ 32 := by
        have := size_le plus (ss := s.spans) (x := b) (by rw [hs]; simp)
        rw [r.all_] at this; have := r.lt; omega
      obtain ⟨k, hk⟩ : ∃ k, b.size = k + 1 := ⟨b.size - 1, by omega⟩
      have hbe : b = ⟨b.value, k + 1⟩ := by rw [← hk]
      have hm : (b.size + (2 ^ 32 - 1)) % 2 ^ 32 = k := by omega
      rw [hs, all_concat, hbe, expand_succ] at hall
      simp only [back, hs, List.getLast?_concat, Option.map_some, hm]
      rw [← hall, ← List.append_assoc, List.getLast?_concat]
  · intro n hn
    obtain ⟨i, e, hi, hr⟩ := iterAt_rest r n (by omega)
    rw [e, Option.bind_some, deref_rest hi, hr, List.head?_drop]
  · obtain ⟨i, e, hi, hr⟩ := iterAt_rest r l.length (Nat.le_refl _)
    rw [e, end_rest hi (plus := plus) (by rw [hr]; simp)]

/-- `skip_span` moves by what it says, at most by what it is asked for and not beyond the end:
the element it arrives at is the one `k` steps further, and the elements skipped are
consecutive. -/
theorem C26_skip_partial (plus : α → Nat → α) (h0 : ∀ v, plus v 0 = v) (cmds : List (Cmd α))
    (hlen : cmds.length < 2 ^ 32) (s : IncStack α) (l : List α) (hl : listRun [] cmds = some l)
    (hs : stackRun plus IncStack.empty cmds = some s) (n max : Nat) (hn : n < l.length)
    (hmax : max < 2 ^ 31) (hshort : l.length < 2 ^ 31) (hpos : 0 < max) :
    ∃ i k j, iterAt s n = some i ∧ i.skipSpan max = some (k, j) ∧ 0 < k ∧ k ≤ max ∧ n + k ≤ l.length ∧
      j.deref plus = l[n + k]? ∧ ∃ v o, ∀ m < k, l[n + m]? = some (plus v (o + m)) := by
  have r0 : Rep plus (IncStack.empty : IncStack α) [] :=
    ⟨rfl, fun x hx => (List.not_mem_nil hx).elim, rfl, by simp⟩
  have h := run_rep h0 cmds IncStack.empty [] r0 (by simpa using hlen)
  rw [hl] at h
  obtain ⟨s', e, r⟩ := h
  rw [hs] at e
  cases e
  obtain ⟨i, e, hi, hr⟩ := iterAt_rest r n (by omega)
  rcases hi.off with ⟨h1, h2⟩ | ⟨x, t, h1, h2⟩
  · have := congrArg List.length hr
    simp [rest, h1, all] at this; omega
  · have hx := hi.pos x (by rw [h1]; simp)
    have hlenx : x.size - i.off ≤ l.length - n := by
      have := congrArg List.length hr
      simp only [rest, h1, all, List.flatMap_cons, List.length_drop, List.length_append, expand_len] at this
      omega
    have hget : ∀ m, i.off + m < x.size → l[n + m]? = some (plus x.value (i.off + m)) := by
      intro m hm
      have : (l.drop n)[m]? = l[n + m]? := by rw [List.getElem?_drop]
      rw [← this, ← hr]
      simp only [rest, h1, all, List.flatMap_cons]
      rw [List.getElem?_drop, List.getElem?_append_left (by rw [expand_len]; exact hm)]
      simp [expand, hm]
    have hxl : x.size ≤ l.length := by
      have hm : x ∈ s.spans := by
        have suf : ∀ n i, iterAt s n = some i → i.rest <:+ s.spans := by
          intro n
          induction n with
          | zero => intro i e; simp [iterAt, begin_] at e; subst e; exact List.suffix_refl _
          | succ n ih =>
            intro i e
            simp only [iterAt] at e
            cases hj : iterAt s n with
            | none => rw [hj] at e; cases e
            | some j =>
              rw [hj, Option.bind_some] at e
              have hsuf := ih j hj
              unfold Iter.next at e
              cases hjr : j.rest with
              | nil => rw [hjr] at e; cases e
              | cons y ys =>
                rw [hjr] at e hsuf
                dsimp only at e
                split at e <;> cases e
                · exact (List.suffix_cons y ys).trans hsuf
                · exact hsuf
        have := suf n i e
        rw [h1] at this
        exact this.subset (by simp)
      have := size_le plus hm
      rw [r.all_] at this; exact this
    refine ⟨i, ?_⟩
    unfold Iter.skipSpan
    rw [h1]
    dsimp only
    rw [Nat.mod_eq_of_lt (show i.off + max < 2 ^ 32 by omega)]
    by_cases hc : i.off + max < x.size
    · rw [if_pos hc]
      refine ⟨max, _, e, rfl, hpos, Nat.le_refl _, by omega, ?_, ?_⟩
      · simp only [Iter.deref, List.head?_cons, Option.map_some]
        rw [hget max hc]
      · exact ⟨x.value, i.off, fun m hm => hget m (by omega)⟩
    · rw [if_neg hc]
      have hm : (x.size + (2 ^ 32 - i.off)) % 2 ^ 32 = x.size - i.off := by omega
      rw [hm]
      have hrest : l.drop (n + (x.size - i.off)) = all plus t := by
        rw [← List.drop_drop, ← hr]
        simp only [rest, h1, all, List.flatMap_cons, List.drop_drop]
        rw [List.drop_append, expand_len, show i.off + (x.size - i.off) = x.size by omega,
          Nat.sub_self, List.drop_zero, List.drop_eq_nil_of_le (by rw [expand_len]; exact Nat.le_refl _),
          List.nil_append]
      refine ⟨_, _, e, rfl, by omega, by omega, by omega, ?_, ?_⟩
      · have hok : IterOk (⟨t, 0⟩ : Iter α) := by
          refine ⟨fun y hy => hi.pos y (by rw [h1]; simp [hy]), ?_⟩
          cases t with
          | nil => exact .inl ⟨rfl, rfl⟩
          | cons y ys => exact .inr ⟨y, ys, rfl, by have := hi.pos y (by rw [h1]; simp); show 0 < y.size; omega⟩
        rw [deref_rest hok, ← List.head?_drop, hrest]
        simp [rest]
      · exact ⟨x.value, i.off, fun m hm => hget m (by omega)⟩

/-- The two element types in use satisfy the hypothesis. -/
example : ∀ v, Uuid.plus v 0 = v := by intro v; simp [Uuid.plus]

example : (stackRun Uuid.plus IncStack.empty
    [.push (u 1), .push (u 2), .push (u 3), .push (u 8), .pop, .pop, .push (u 9)]).map
      (fun s => (s.size, s.spans.length, s.back Uuid.plus)) = some (3, 2, some (u 9)) := by decide

end Ron.Props
