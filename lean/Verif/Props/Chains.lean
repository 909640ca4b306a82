import Verif.Lemmas.Chains
import Verif.Props.Compare
/-!
Property theorems C48 (splitting a log into chains).
-/
namespace Ron.Props
open Spec Cursor Chains

/-- C48 as claimed, the first half: the chains have exactly the ops of the log up to the cutoff. -/
def C48_claim : Prop := ∀ (buf : List Byte) (ops : List OpView), Contents buf ops .endOfFrame →
  ∀ (cutoff : Uuid), cutoff ≠ Uuid.NIL → ∀ fuel, ops.length < fuel →
  ∃ chains css, splitLog fuel cutoff buf = .ok (some (chains, .ok)) ∧
    Same2 (fun ch cs => ChainOps ch cs .endOfFrame) chains css ∧ css.flatten = upTo cutoff ops

/-- C48 as claimed, the second half: the ops of a chain are in one yarn. -/
def C48_yarn_claim : Prop := ∀ (buf : List Byte) (ops : List OpView), Contents buf ops .endOfFrame →
  ∀ (cutoff : Uuid) (fuel : Nat) (chains : List Cursor),
  splitLog fuel cutoff buf = .ok (some (chains, .ok)) →
  ∀ ch ∈ chains, ∀ vs, ChainOps ch vs .endOfFrame → OneYarn vs

theorem same2_imp {α β : Type} {R S : α → β → Prop} (h : ∀ a b, R a b → S a b) {l : List α}
    {m : List β} (h' : Same2 R l m) : Same2 S l m := by
  induction h' with
  | nil => exact .nil
  | cons h1 _ ih => exact .cons (h _ _ h1) ih

/-- C48, what the split does, for all logs below `10^9 - 1` bytes without words of more than ten
characters (see C19), well-formed or not, and all cutoffs but NIL. It yields chains, each of them
not empty and consecutive, and as long as it can be. Put together they are the ops of the log up to
and including the cutoff. Missing from the claim: if the cutoff is inside of a span, the last chain
goes on to the end of the span (`extra`). A syntax error in the first op makes an empty list of
chains and is not reported; later ones are reported unless they are after the cutoff. -/
theorem C48_split_partial (buf : List Byte) (hn : buf.length < 10 ^ 9 - 1) (hl : ¬ LongWord buf)
    (ops : List OpView) (st : NextStatus) (h : Contents buf ops st) (cutoff : Uuid)
    (hc : cutoff ≠ Uuid.NIL) (fuel : Nat) (hf : ops.length < fuel) :
    ∃ chains css st', splitLog fuel cutoff buf = .ok (some (chains, st')) ∧
      Same2 (fun ch cs => ∃ e, ChainOps ch cs e ∧ (e = .endOfFrame ∨ e = st)) chains css ∧
      css.flatten <+: ops ∧
      (∃ extra, css.flatten = upTo cutoff ops ++ extra ∧
        (extra = [] ∨ ∃ d, Passed buf d ∧ d.id = some cutoff ∧ d.span = extra.length)) ∧
      (∀ cs ∈ css, cs ≠ [] ∧ Consecutive cs) ∧ Maximal css ∧
      st' = if ops = [] ∨ (upTo cutoff ops).length < ops.length ∨ st = .endOfFrame then .ok
        else st := by
  obtain ⟨f, l, h1, h2⟩ := h
  have ht := trail_of_iterate _ _ _ _ h1
  cases ht with
  | stop hx h0 =>
    cases h2
    refine ⟨[], [], .ok, ?_, .nil, by simp, ⟨[], by simp [upTo]⟩, by simp, ?_, by simp⟩
    · unfold splitLog
      rw [hx]
      simp only [Out.bind]
      rw [if_neg h0]
    · intro pre vs v w ws post e
      simp at e
  | @more _ c l st hx t =>
    have hp : Passed buf c := .first hx
    have hlen := collect_length h2
    obtain ⟨chains, st', css, i1, i2⟩ := loop_trail hn hl cutoff fuel c l st ⟨0#64, 0#64⟩ [] .ok ops t hp
      (fun e => hc e.symm) h2 (by simp at hlen; omega)
    refine ⟨chains, css, if st' = .endOfFrame then .ok else st', ?_, i2.ops, i2.pre, i2.cut, i2.each,
      i2.maximal, ?_⟩
    · unfold splitLog
      rw [hx]
      simp only [Out.bind, if_true, i1, Option.map_some, List.nil_append]
    · have hne : ops ≠ [] := by
        intro e
        rw [e] at hlen
        simp at hlen
      rw [i2.status]
      by_cases e1 : (upTo cutoff ops).length < ops.length
      · rw [if_pos e1]; simp [e1]
      · rw [if_neg e1]
        by_cases e2 : st = .endOfFrame
        · simp [e2]
        · simp [e1, e2, hne]

/-- C48, partial: if the cutoff is not inside of a span, the chains of a well-formed log have exactly
the ops of the log up to and including the cutoff, and each chain is consecutive. -/
theorem C48_exact_partial (buf : List Byte) (hn : buf.length < 10 ^ 9 - 1) (hl : ¬ LongWord buf)
    (ops : List OpView) (h : Contents buf ops .endOfFrame) (cutoff : Uuid)
    (hc : cutoff ≠ Uuid.NIL) (hs : ∀ d, Passed buf d → d.id = some cutoff → d.span = 0)
    (fuel : Nat) (hf : ops.length < fuel) :
    ∃ chains css, splitLog fuel cutoff buf = .ok (some (chains, .ok)) ∧
      Same2 (fun ch cs => ChainOps ch cs .endOfFrame) chains css ∧ css.flatten = upTo cutoff ops ∧
      ∀ cs ∈ css, cs ≠ [] ∧ Consecutive cs := by
  obtain ⟨chains, css, st', h1, h2, _, ⟨extra, h4, h5⟩, h6, _, h7⟩ :=
    C48_split_partial buf hn hl ops _ h cutoff hc fuel hf
  have he : extra = [] := by
    rcases h5 with h5 | ⟨d, d1, d2, d3⟩
    · exact h5
    · rw [hs d d1 d2] at d3
      exact List.length_eq_zero_iff.1 d3.symm
  have h7' : st' = .ok := by rw [h7]; simp
  refine ⟨chains, css, by rw [h1, h7'], ?_, by rw [h4, he]; simp, h6⟩
  exact same2_imp (fun a b ⟨e, e1, e2⟩ => by rcases e2 with rfl | rfl <;> exact e1) h2

/-- C48: with the cutoff NIL there are no chains at all. -/
theorem C48_nil (fuel : Nat) (buf : List Byte) (x : List Cursor × NextStatus)
    (h : splitLog fuel Uuid.NIL buf = .ok (some x)) : x = ([], .ok) := by
  unfold splitLog at h
  obtain ⟨r, h1, h2⟩ := bind_ok h
  split at h2
  · cases fuel with
    | zero => simp [loop, Out.bind] at h2
    | succ fuel =>
      rw [loop, if_neg (fun x => x.2 rfl)] at h2
      simp [Out.bind] at h2
      exact h2.symm
  · simp at h2
    exact h2.symm

theorem trail_det {c : Cursor} {l l' : List Cursor} {st st' : NextStatus} (h : Trail c l st) :
    Trail c l' st' → l = l' ∧ st = st' := by
  induction h generalizing l' st' with
  | stop h h0 =>
    intro h'
    cases h' with
    | stop k k0 => rw [h] at k; cases k; exact ⟨rfl, rfl⟩
    | more k _ => rw [h] at k; cases k; exact absurd rfl h0
  | more h _ ih =>
    intro h'
    cases h' with
    | stop k k0 => rw [h] at k; cases k; exact absurd rfl k0
    | more k t => rw [h] at k; cases k; obtain ⟨rfl, rfl⟩ := ih t; exact ⟨rfl, rfl⟩

/-- A chain has only one contents. -/
theorem chainOps_det {c : Cursor} {vs vs' : List OpView} {st st' : NextStatus}
    (h : ChainOps c vs st) (h' : ChainOps c vs' st') : vs = vs' := by
  obtain ⟨f, l, h1, h2⟩ := h
  obtain ⟨f', l', h1', h2'⟩ := h'
  obtain ⟨rfl, _⟩ := trail_det (trail_of_iterate _ _ _ _ h1) (trail_of_iterate _ _ _ _ h1')
  rw [h2] at h2'
  cases h2'
  rfl

/-- The ops of a chain, computed. -/
def chainRead (fuel : Nat) (c : Cursor) : Out (Option (List OpView × NextStatus)) :=
  (iterate fuel c).bind fun x =>
    match x with
    | none => .ok none
    | some (l, st) => (collect viewOp (c :: l)).bind fun vs => .ok (some (vs, st))

theorem chainOps_of {c : Cursor} {ops : List OpView} {st : NextStatus} (fuel : Nat)
    (h : chainRead fuel c = .ok (some (ops, st))) : ChainOps c ops st := by
  unfold chainRead at h
  obtain ⟨x, h1, h2⟩ := bind_ok h
  cases x with
  | none => cases h2
  | some x =>
    obtain ⟨l, st'⟩ := x
    obtain ⟨vs, h3, h4⟩ := bind_ok h2
    cases h4
    exact ⟨fuel, l, h1, h3⟩

/-- The chains of a log, for concrete logs. -/
def chainsOf (cutoff : Uuid) (buf : List Byte) : List Cursor :=
  match splitLog 20 cutoff buf with
  | .ok (some (l, _)) => l
  | _ => []

/-- The first chain. -/
def firstChain (cutoff : Uuid) (buf : List Byte) : Cursor :=
  (chainsOf cutoff buf).head?.getD (init [])

/-- What is in a chain, for concrete logs. -/
def chainOf (c : Cursor) : List OpView :=
  match chainRead 20 c with
  | .ok (some (l, _)) => l
  | _ => []

/-- The ids of the ops of the chains. -/
def chainIds (cutoff : Uuid) (buf : List Byte) : List (List Uuid) :=
  (chainsOf cutoff buf).map fun c => (chainOf c).map (·.id)

/-- `FATAL`, the default cutoff: `rdt/rdt.hpp:170`. -/
def noCutoff : Uuid := Uuid.FATAL

/-- The id of an op, for concrete logs. -/
def idAt (i : Nat) (buf : List Byte) : Uuid := (((opsOf buf).map (·.id))[i]?).getD Uuid.NIL

/-- A log of two yarns: two consecutive ops, one that is not, one that continues it. -/
def log48 : List Byte := lit "@1+A :lww; 'a' 5; @1+B :1+A 'b' 6; @2+B :1+B 'c' 7;"

/-- The cursors at its ops. -/
def cursors48 : List Cursor :=
  match iterate 20 (init log48) with
  | .ok (some (l, _)) => l
  | _ => []

example : (chainIds noCutoff log48).map List.length = [2, 2] := by decide +kernel
example : (chainIds noCutoff log48).flatten = (opsOf log48).map (·.id) := by decide +kernel
example : chainIds (idAt 2 log48) log48 =
    [((opsOf log48).map (·.id)).take 2, [idAt 2 log48]] := by decide +kernel
-- The hypotheses of the theorems hold for it.
example : ∃ chains css, splitLog 20 noCutoff log48 = .ok (some (chains, .ok)) ∧
    Same2 (fun ch cs => ChainOps ch cs .endOfFrame) chains css ∧
    css.flatten <+: opsOf log48 := by
  obtain ⟨chains, css, st, h1, h2, h3, _, _, _, h7⟩ := C48_split_partial log48 (by decide +kernel)
    (notLong_of (by decide +kernel)) (opsOf log48) .endOfFrame
    (contents_of 20 (by decide +kernel)) noCutoff (by decide) 20 (by decide +kernel)
  refine ⟨chains, css, by rw [h1, h7]; simp, ?_, h3⟩
  exact same2_imp (fun a b ⟨e, e1, e2⟩ => by rcases e2 with rfl | rfl <;> exact e1) h2

theorem passed_mem {buf : List Byte} {l : List Cursor} {st : NextStatus}
    (h : Trail (init buf) l st) {c : Cursor} (hp : Passed buf c) :
    ∃ pre post, l = pre ++ c :: post ∧ Trail c post st := by
  induction hp with
  | first k =>
    cases h with
    | stop k' h0 => rw [k] at k'; cases k'; exact absurd rfl h0
    | more k' t => rw [k] at k'; cases k'; exact ⟨[], _, rfl, t⟩
  | next _ k ih =>
    obtain ⟨pre, post, e, t⟩ := ih
    cases t with
    | stop k' h0 => rw [k] at k'; cases k'; exact absurd rfl h0
    | more k' t => rw [k] at k'; cases k'; exact ⟨pre ++ [_], _, by rw [e, List.append_assoc]; rfl, t⟩

-- A cutoff that is not inside of a span.
example : ∃ chains css, splitLog 20 (idAt 2 log48) log48 = .ok (some (chains, .ok)) ∧
    Same2 (fun ch cs => ChainOps ch cs .endOfFrame) chains css ∧
    css.flatten = upTo (idAt 2 log48) (opsOf log48) ∧ ∀ cs ∈ css, cs ≠ [] ∧ Consecutive cs := by
  refine C48_exact_partial log48 (by decide +kernel) (notLong_of (by decide +kernel)) (opsOf log48)
    (contents_of 20 (by decide +kernel)) _ (by decide +kernel) ?_ 20 (by decide +kernel)
  intro d hd _
  have hi : iterate 20 (init log48) = .ok (some (cursors48, .endOfFrame)) := by decide +kernel
  obtain ⟨pre, post, e, _⟩ := passed_mem (trail_of_iterate _ _ _ _ hi) hd
  have hall : ∀ d ∈ cursors48, d.span = 0 := by decide +kernel
  exact hall d (by rw [e]; simp)

/-- Three ops in a span. -/
def span48 : List Byte := lit "@1+A :lww (3);"

/-- The second op of the span. -/
def mid48 : Uuid := idAt 1 span48

/-- C48 is violated: if the cutoff is inside of a span, the last chain has the ops after it, too. -/
theorem C48_violated : ¬ C48_claim := by
  intro h
  obtain ⟨chains, css, h1, h2, h3⟩ := h span48 (opsOf span48) (contents_of 20 (by decide +kernel))
    mid48 (by decide +kernel) 20 (by decide +kernel)
  have hs : splitLog 20 mid48 span48 =
      .ok (some ([firstChain mid48 span48], .ok)) := by decide +kernel
  rw [hs] at h1
  cases h1
  cases h2 with
  | cons ha hb =>
    cases hb
    have := chainOps_det ha (chainOps_of 20 (by decide +kernel :
      chainRead 20 (firstChain mid48 span48) =
        .ok (some (opsOf span48, .endOfFrame))))
    rw [this] at h3
    revert h3
    decide +kernel

/-- Two ops of two replicas, the second refers to the first. -/
def yarns48 : List Byte := lit "@1+A :lww; @2+B :1+A 'a' 5;"

/-- C48 is violated: a chain goes from one yarn to another if an op refers to the one that is
before it in the log. -/
theorem C48_yarn_violated : ¬ C48_yarn_claim := by
  intro h
  have hs : splitLog 20 noCutoff yarns48 =
      .ok (some ([firstChain noCutoff yarns48], .ok)) := by decide +kernel
  have := h yarns48 (opsOf yarns48) (contents_of 20 (by decide +kernel)) noCutoff 20 _ hs _
    (List.mem_singleton.2 rfl) (opsOf yarns48) (chainOps_of 20 (by decide +kernel))
  have hn : ¬ ∀ v ∈ opsOf yarns48, ∀ w ∈ opsOf yarns48, v.id.origin = w.id.origin := by
    decide +kernel
  exact hn this

end Ron.Props
