import Verif.Model.Scan
import Verif.Spec.Scan
/-!
The stack discipline of `ScanRGA`.
-/
namespace Ron.Rga
open Ron Spec

/-- The id and the entry type at a position. -/
def idAt (ops : List AOp) (i : Nat) : Uuid := (ops[i]?.map AOp.id).getD Uuid.NIL
def kindAt (ops : List AOp) (i : Nat) : Nat := (ops[i]?.map entryType).getD 9

theorem entryType_kind (o : AOp) : entryType o =
    match kind o with | .insert => 1 | .remove => 2 | .undo => 3 := by
  rcases o with ⟨id, ref, vals, term⟩
  simp only [entryType, kind]
  match vals with
  | [] => simp [ENTRY]
  | [.uuid v] =>
    simp only [List.cons.injEq, and_true, AVal.uuid.injEq]
    show (if v = rmName then 2 else if v = unName then 3 else 1) = _
    by_cases h1 : v = rmName
    · simp [h1]
    · by_cases h2 : v = unName
      · subst h2; rw [if_neg h1, if_pos rfl, if_neg h1, if_pos rfl]
      · simp [h1, h2]
  | [.int _] => simp [ENTRY]
  | [.float _] => simp [ENTRY]
  | [.str _] => simp [ENTRY]
  | _ :: _ :: _ => simp [ENTRY]

theorem kindAt_iff {ops : List AOp} {i : Nat} (k : Kind) :
    IsKind ops k i ↔ kindAt ops i = match k with | .insert => 1 | .remove => 2 | .undo => 3 := by
  unfold IsKind kindAt
  cases h : ops[i]? with
  | none => simp; cases k <;> simp
  | some o =>
    simp only [Option.some.injEq, Option.map_some, Option.getD_some, entryType_kind]
    constructor
    · rintro ⟨_, rfl, rfl⟩; rfl
    · intro h
      refine ⟨o, rfl, ?_⟩
      revert h
      cases kind o <;> cases k <;> simp

/-- The state of the scan for a stack of elements, removals, undos and trash. -/
def stOf (E R U T : List Nat) : Nat :=
  if T ≠ [] then 4 else if U ≠ [] then 3 else if R ≠ [] then 2 else if E ≠ [] then 1 else 0

/-- The ceilings. -/
def cf (E R U : List Nat) : Nat → Nat
  | 0 => 0
  | 1 => 1
  | 2 => 1 + E.length
  | 3 => 1 + E.length + R.length
  | _ => 1 + E.length + R.length + U.length

theorem cf_iff (E R U T : List Nat) (k : Nat) (h1 : 1 ≤ k) (h4 : k ≤ 4) :
    1 + E.length + R.length + U.length + T.length = cf E R U k ↔ stOf E R U T < k := by
  have e : ∀ l : List Nat, l ≠ [] ↔ 0 < l.length := fun l => List.length_pos_iff.symm
  unfold stOf
  simp only [e]
  have : k = 1 ∨ k = 2 ∨ k = 3 ∨ k = 4 := by omega
  rcases this with rfl | rfl | rfl | rfl <;> simp only [cf] <;> (repeat' split) <;> omega

theorem stOf_le (E R U T : List Nat) : stOf E R U T ≤ 4 := by unfold stOf; (repeat' split) <;> omega

theorem settle_spec {E R U T : List Nat} {ceil : List Nat} {d : Nat}
    (hd : d = 1 + E.length + R.length + U.length + T.length) (st : Nat) (hst : st ≤ 4)
    (hc : ∀ i ≤ st, ceil[i]? = some (cf E R U i)) (hle : stOf E R U T ≤ st) :
    settle d ceil st = some (stOf E R U T) := by
  induction st with
  | zero =>
    unfold settle
    rw [hc 0 (Nat.le_refl _)]
    simp only [cf, Option.some.injEq]
    rw [if_neg (by omega)]
    congr 1; omega
  | succ s ih =>
    unfold settle
    rw [hc (s + 1) (Nat.le_refl _)]
    simp only [Option.some.injEq]
    have := cf_iff E R U T (s + 1) (by omega) hst
    rw [← hd] at this
    by_cases h : d = cf E R U (s + 1)
    · rw [if_pos h]
      exact ih (by omega) (fun i hi => hc i (by omega)) (by have := this.1 h; omega)
    · rw [if_neg h]
      congr 1
      have : ¬ stOf E R U T < s + 1 := fun hh => h (this.2 hh)
      omega

/-- The stack of the scan after `n` ops: the way to the op on top. -/
structure Shape (ops : List AOp) (n : Nat) (s : Scan) (E R U T : List Nat) : Prop where
  pos : s.positions = 0 :: (E ++ R ++ U ++ T)
  path : s.path = (0 :: (E ++ R ++ U ++ T)).map (idAt ops)
  kills : s.kills.length = 1 + E.length + R.length + U.length + T.length
  tombs : s.tombs.length = n
  depth : s.depth = 1 + E.length + R.length + U.length + T.length
  ceilLen : s.ceil.length = 5
  ceil : ∀ i ≤ stOf E R U T, s.ceil[i]? = some (cf E R U i)
  state : s.state = stOf E R U T
  to : ∃ t, PathTo ops t (0 :: (E ++ R ++ U ++ T))
  bound : ∀ x ∈ 0 :: (E ++ R ++ U ++ T), x < n
  small : 1 + E.length + R.length + U.length + T.length < 2 ^ 31
  kE : ∀ x ∈ E, kindAt ops x = 1
  kR : ∀ x ∈ R, kindAt ops x = 2
  kU : ∀ x ∈ U, kindAt ops x = 3
  rE : R ≠ [] → E ≠ []
  uR : U ≠ [] → R ≠ []
  irr : ∀ x, T.head? = some x → kindAt ops x ≠ stOf E R U [] ∧ kindAt ops x ≠ stOf E R U [] + 1

theorem sub32_of_le {a b : Nat} (h : b ≤ a) (ha : a < 2 ^ 32) : sub32 a b = a - b := by
  unfold sub32; omega

theorem sub32_of_gt {a b : Nat} (h : a < b) (hb : b < 2 ^ 32) : sub32 a b = 2 ^ 32 + a - b := by
  unfold sub32; omega

/-! ### Paths -/

theorem _root_.Ron.Spec.PathTo.lt {ops : List AOp} {i : Nat} {p : List Nat} (h : PathTo ops i p) : i < ops.length := by
  cases h with
  | root h => exact h
  | child _ j p a b _ _ _ hb _ => exact (List.getElem?_eq_some_iff.1 hb).1

theorem _root_.Ron.Spec.PathTo.last {ops : List AOp} {i : Nat} {p : List Nat} (h : PathTo ops i p) :
    ∃ q, p = q ++ [i] ∧ ∀ x ∈ q, x < i := by
  induction h with
  | root _ => exact ⟨[], rfl, fun x hx => absurd hx (by simp)⟩
  | child i j p a b _ hlt _ _ _ ih =>
    obtain ⟨q, rfl, hq⟩ := ih
    refine ⟨_, rfl, fun x hx => ?_⟩
    rcases List.mem_append.1 hx with hx | hx
    · have := hq x hx; omega
    · rw [List.mem_singleton.1 hx]; exact hlt

/-- Every part of a path from the root is a path. -/
theorem _root_.Ron.Spec.PathTo.prefix {ops : List AOp} {i : Nat} {p : List Nat} (h : PathTo ops i p) :
    ∀ (a b : List Nat) (x : Nat), p = a ++ x :: b → PathTo ops x (a ++ [x]) := by
  induction h with
  | root h0 =>
    intro a b x e
    cases a with
    | nil =>
      simp only [List.nil_append, List.cons.injEq] at e
      obtain ⟨rfl, rfl⟩ := e
      exact .root h0
    | cons y ys => simp at e
  | child i j p o o' hp hlt ho ho' hr ih =>
    intro a b x e
    rcases List.eq_nil_or_concat b with rfl | ⟨b', y, hb⟩
    · obtain ⟨rfl, h2⟩ := List.append_inj' e rfl
      simp only [List.cons.injEq, and_true] at h2
      subst h2
      exact .child i j p o o' hp hlt ho ho' hr
    · rw [hb, List.concat_eq_append] at e
      have e2 : p ++ [i] = (a ++ x :: b') ++ [y] := by rw [e]; simp
      exact ih a b' x (List.append_inj_left' e2 rfl)

/-- With unique ids there is one path. -/
theorem _root_.Ron.Spec.PathTo.unique {ops : List AOp} (hu : (ops.map AOp.id).Nodup) {i : Nat} {p q : List Nat}
    (h : PathTo ops i p) (h' : PathTo ops i q) : p = q := by
  induction h generalizing q with
  | root _ =>
    cases h' with
    | root _ => rfl
    | child _ j p a b _ hlt _ _ _ => exact absurd hlt (by omega)
  | child i j p a b hp hlt ha hb hr ih =>
    cases h' with
    | root _ => exact absurd hlt (by omega)
    | child _ j' p' a' b' hp' hlt' ha' hb' hr' =>
      rw [hb] at hb'
      cases hb'
      have : j = j' := by
        have h1 := (List.getElem?_eq_some_iff.1 ha)
        have h2 := (List.getElem?_eq_some_iff.1 ha')
        obtain ⟨l1, e1⟩ := h1
        obtain ⟨l2, e2⟩ := h2
        have hne := List.pairwise_iff_getElem.1 hu
        have heq : a.id = a'.id := by rw [← hr, ← hr']
        rcases Nat.lt_trichotomy j j' with h | h | h
        · refine absurd ?_ (hne j j' (by simpa using l1) (by simpa using l2) h)
          simpa only [List.getElem_map, e1, e2] using heq
        · exact h
        · refine absurd ?_ (hne j' j (by simpa using l2) (by simpa using l1) h)
          simpa only [List.getElem_map, e1, e2] using heq.symm
      subst this
      rw [ih hp']

/-! ### One op off the stack -/

/-- `rdt/rga.hpp:177-209`. -/
def one (s : Scan) (kill : Bool) (at_ : Nat) : SOut Scan :=
  match resolve s kill at_ with
  | .bad e => .bad e
  | .ub => .ub
  | .ok s' => popTop s'

theorem unroll_succ (ref : Uuid) (fuel : Nat) (s : Scan) : unroll ref (fuel + 1) s =
    match s.path.getLast?, s.kills.getLast?, s.positions.getLast? with
    | some top, some kill, some at_ =>
      if top = ref then .ok s
      else match one s kill at_ with
        | .bad e => .bad e
        | .ub => .ub
        | .ok s'' => unroll ref fuel s''
    | _, _, _ => .ub := by
  rw [unroll]
  unfold one
  cases s.path.getLast? with
  | none => rfl
  | some top =>
    cases s.kills.getLast? with
    | none => rfl
    | some kill =>
      cases s.positions.getLast? with
      | none => rfl
      | some at_ =>
        dsimp only
        split
        · rfl
        · cases resolve s kill at_ <;> rfl

theorem popTop_shape {ops : List AOp} {n : Nat} {s s' : Scan} {E R U T E' R' U' T' : List Nat} {t : Nat}
    (h : Shape ops n s E R U T)
    (hs : s'.state = s.state ∧ s'.path = s.path ∧ s'.positions = s.positions ∧ s'.depth = s.depth ∧
      s'.ceil = s.ceil ∧ s'.kills.length = s.kills.length ∧ s'.tombs.length = s.tombs.length)
    (he : E ++ R ++ U ++ T = (E' ++ R' ++ U' ++ T') ++ [t])
    (hle : stOf E' R' U' T' ≤ stOf E R U T)
    (hcf : ∀ i ≤ stOf E R U T, cf E' R' U' i = cf E R U i)
    (sE : ∀ x ∈ E', x ∈ E) (sR : ∀ x ∈ R', x ∈ R) (sU : ∀ x ∈ U', x ∈ U)
    (rE : R' ≠ [] → E' ≠ []) (uR : U' ≠ [] → R' ≠ [])
    (irr : ∀ x, T'.head? = some x → kindAt ops x ≠ stOf E' R' U' [] ∧ kindAt ops x ≠ stOf E' R' U' [] + 1) :
    ∃ s'', popTop s' = .ok s'' ∧ Shape ops n s'' E' R' U' T' ∧
      s''.kills = s'.kills.dropLast ∧ s''.tombs = s'.tombs ∧ s''.pos = s'.pos := by
  obtain ⟨h1, h2, h3, h4, h5, h6, h7⟩ := hs
  have hlen := congrArg List.length he
  simp only [List.length_append, List.length_cons, List.length_nil] at hlen
  have hd : sub32 s'.depth 1 = 1 + E'.length + R'.length + U'.length + T'.length := by
    rw [h4, h.depth, sub32_of_le (by omega) (by have := h.small; omega)]; omega
  have hst := settle_spec (E := E') (R := R') (U := U') (T := T') (ceil := s.ceil) hd (stOf E R U T)
    (stOf_le _ _ _ _) (fun i hi => by rw [h.ceil i hi, hcf i hi]) hle
  unfold popTop
  dsimp only
  rw [h1, h5, h.state, hst]
  refine ⟨_, rfl, ?_, rfl, rfl, rfl⟩
  have hdl : ∀ x : Nat, x :: (E' ++ R' ++ U' ++ T') ++ [t] = x :: (E ++ R ++ U ++ T) := by
    intro x; rw [he]; rfl
  constructor
  · show s'.positions.dropLast = _
    rw [h3, h.pos, ← hdl 0, List.dropLast_concat]
  · show s'.path.dropLast = _
    rw [h2, h.path, ← hdl 0, List.map_append, List.map_singleton, List.dropLast_concat]
  · show s'.kills.dropLast.length = _
    rw [List.length_dropLast, h6, h.kills]; omega
  · exact h7.trans h.tombs
  · exact hd
  · exact h.ceilLen
  · intro i hi
    show s.ceil[i]? = _
    rw [h.ceil i (by omega), hcf i (by omega)]
  · rfl
  · obtain ⟨u, hu⟩ := h.to
    rw [← hdl 0] at hu
    rcases List.eq_nil_or_concat (0 :: (E' ++ R' ++ U' ++ T')) with h0 | ⟨a, b, hab⟩
    · cases h0
    · rw [hab, List.concat_eq_append] at hu ⊢
      exact ⟨b, hu.prefix a [t] b (by simp)⟩
  · intro x hx
    apply h.bound
    rw [← hdl 0]; exact List.mem_append_left _ hx
  · have := h.small; omega
  · exact fun x hx => h.kE x (sE x hx)
  · exact fun x hx => h.kR x (sR x hx)
  · exact fun x hx => h.kU x (sU x hx)
  · exact rE
  · exact uR
  · exact irr

theorem setTrue_lt {v : List Bool} {i : Nat} (h : i < v.length) : setTrue v i = some (v.set i true) :=
  if_pos h

theorem setTrue_ge {v : List Bool} {i : Nat} (h : v.length ≤ i) : setTrue v i = none :=
  if_neg (by omega)

theorem one_trash {ops : List AOp} {n : Nat} {s : Scan} {E R U T : List Nat} {t : Nat}
    (h : Shape ops n s E R U (T ++ [t])) (k : Bool) (a : Nat) :
    ∃ s'', one s k a = .ok s'' ∧ Shape ops n s'' E R U T ∧ s''.kills = s.kills.dropLast ∧
      s''.tombs = s.tombs ∧ s''.pos = s.pos := by
  have hst : s.state = 4 := by rw [h.state]; simp [stOf]
  have : one s k a = popTop s := by
    unfold one resolve
    simp [hst, META, ENTRY, REMOVE, UNDO]
  rw [this]
  refine popTop_shape (E' := E) (R' := R) (U' := U) (T' := T) (t := t) h ⟨rfl, rfl, rfl, rfl, rfl, rfl, rfl⟩
    (by simp) ?_ (fun _ _ => rfl) (fun _ => id) (fun _ => id) (fun _ => id) h.rE h.uR ?_
  · have := stOf_le E R U T
    rw [show stOf E R U (T ++ [t]) = 4 by simp [stOf]]; exact this
  · intro x hx
    apply h.irr
    cases T with
    | nil => simp at hx
    | cons y ys => simpa using hx

theorem one_undo {ops : List AOp} {n : Nat} {s : Scan} {E R U : List Nat} {t : Nat}
    (h : Shape ops n s E R (U ++ [t]) []) (k : Bool) (a : Nat) :
    (1 + E.length + R.length < U.length + 1 ∧ one s k a = .ub) ∨
    ∃ s'', one s k a = .ok s'' ∧ Shape ops n s'' E R U [] ∧
      s''.kills = (if U.length + 1 < R.length then s.kills.set (E.length + R.length - U.length) true
        else s.kills).dropLast ∧
      s''.tombs = s.tombs ∧ s''.pos = s.pos := by
  have hst : s.state = 3 := by rw [h.state]; simp [stOf]
  have hso : stOf E R (U ++ [t]) [] = 3 := by simp [stOf]
  have hd := h.depth
  have hsm := h.small
  have hkl := h.kills
  simp only [List.length_append, List.length_cons, List.length_nil] at hd hsm hkl
  have hc3 : s.ceil.getD UNDO 0 = 1 + E.length + R.length := by
    have := h.ceil 3 (by rw [hso]; exact Nat.le_refl _)
    rw [List.getD_eq_getElem?_getD]; show (s.ceil[_]?).getD 0 = _; first | rw [show s.ceil[UNDO]? = _ from this]; rfl | rw [show s.ceil[REMOVE]? = _ from this]; rfl
  have hc2 : s.ceil.getD REMOVE 0 = 1 + E.length := by
    have := h.ceil 2 (by rw [hso]; decide)
    rw [List.getD_eq_getElem?_getD]; show (s.ceil[_]?).getD 0 = _; first | rw [show s.ceil[UNDO]? = _ from this]; rfl | rw [show s.ceil[REMOVE]? = _ from this]; rfl
  have hsub : sub32 s.depth (1 + E.length + R.length) = U.length + 1 := by
    rw [sub32_of_le (by omega) (by omega)]; omega
  have hpop : ∀ s' : Scan, (s'.state = s.state ∧ s'.path = s.path ∧ s'.positions = s.positions ∧
      s'.depth = s.depth ∧ s'.ceil = s.ceil ∧ s'.kills.length = s.kills.length ∧
      s'.tombs.length = s.tombs.length) → ∃ s'', popTop s' = .ok s'' ∧ Shape ops n s'' E R U [] ∧
        s''.kills = s'.kills.dropLast ∧ s''.tombs = s'.tombs ∧ s''.pos = s'.pos := by
    intro s' hs'
    have hE : R ≠ [] := h.uR (by simp)
    refine popTop_shape (E' := E) (R' := R) (U' := U) (T' := []) (t := t) h hs' (by simp) ?_ ?_
      (fun _ => id) (fun _ => id) (fun x hx => List.mem_append_left _ hx) h.rE (fun _ => hE) (by simp)
    · rw [hso]; unfold stOf; simp; (repeat' split) <;> omega
    · intro i hi
      rw [hso] at hi
      have : i = 0 ∨ i = 1 ∨ i = 2 ∨ i = 3 := by omega
      rcases this with rfl | rfl | rfl | rfl <;> rfl
  have hres : resolve s k a =
      if sub32 (1 + E.length + R.length) (U.length + 1) > 1 + E.length then
        match setTrue s.kills (sub32 (1 + E.length + R.length) (U.length + 1)) with
        | some k => .ok { s with kills := k }
        | none => .ub
      else .ok s := by
    unfold resolve
    rw [if_neg (by rw [hst]; decide), if_neg (by rw [hst]; decide), if_neg (by rw [hst]; decide),
      if_pos (by rw [hst]; rfl)]
    simp only [hc3, hc2, hsub]; rfl
  unfold one
  by_cases hb : U.length + 1 ≤ 1 + E.length + R.length
  · right
    rw [hres, sub32_of_le hb (by omega)]
    by_cases hlt : U.length + 1 < R.length
    · rw [if_pos (by omega), setTrue_lt (by omega), if_pos hlt]
      obtain ⟨s'', e, hs, hk, ht, hp⟩ := hpop { s with kills := s.kills.set (1 + E.length + R.length - (U.length + 1)) true }
        ⟨rfl, rfl, rfl, rfl, rfl, by simp, rfl⟩
      refine ⟨s'', e, hs, ?_, ht, hp⟩
      rw [hk]
      show (s.kills.set _ true).dropLast = _
      congr 2
      omega
    · rw [if_neg (by omega), if_neg hlt]
      exact hpop s ⟨rfl, rfl, rfl, rfl, rfl, rfl, rfl⟩
  · left
    refine ⟨by omega, ?_⟩
    rw [hres, sub32_of_gt (by omega) (by omega), if_pos (by omega), setTrue_ge (by omega)]

theorem one_remove {ops : List AOp} {n : Nat} {s : Scan} {E R : List Nat} {t : Nat}
    (h : Shape ops n s E (R ++ [t]) [] []) (k : Bool) (a : Nat) :
    (1 + E.length < R.length + 1 ∧ one s k a = .ub) ∨
    ∃ s'', one s k a = .ok s'' ∧ Shape ops n s'' E R [] [] ∧
      s''.kills = (if k = false ∧ R.length + 1 ≤ E.length then s.kills.set (E.length - R.length) true
        else s.kills).dropLast ∧
      s''.tombs = s.tombs ∧ s''.pos = s.pos := by
  have hst : s.state = 2 := by rw [h.state]; simp [stOf]
  have hso : stOf E (R ++ [t]) [] [] = 2 := by simp [stOf]
  have hd := h.depth
  have hsm := h.small
  have hkl := h.kills
  simp only [List.length_append, List.length_cons, List.length_nil] at hd hsm hkl
  have hc2 : s.ceil.getD REMOVE 0 = 1 + E.length := by
    have := h.ceil 2 (by rw [hso]; decide)
    rw [List.getD_eq_getElem?_getD]; show (s.ceil[_]?).getD 0 = _; first | rw [show s.ceil[UNDO]? = _ from this]; rfl | rw [show s.ceil[REMOVE]? = _ from this]; rfl
  have hsub : sub32 s.depth (1 + E.length) = R.length + 1 := by
    rw [sub32_of_le (by omega) (by omega)]; omega
  have hE : E ≠ [] := h.rE (by simp)
  have hpop : ∀ s' : Scan, (s'.state = s.state ∧ s'.path = s.path ∧ s'.positions = s.positions ∧
      s'.depth = s.depth ∧ s'.ceil = s.ceil ∧ s'.kills.length = s.kills.length ∧
      s'.tombs.length = s.tombs.length) → ∃ s'', popTop s' = .ok s'' ∧ Shape ops n s'' E R [] [] ∧
        s''.kills = s'.kills.dropLast ∧ s''.tombs = s'.tombs ∧ s''.pos = s'.pos := by
    intro s' hs'
    refine popTop_shape (E' := E) (R' := R) (U' := []) (T' := []) (t := t) h hs' (by simp) ?_ ?_
      (fun _ => id) (fun x hx => List.mem_append_left _ hx) (fun _ => id) (fun _ => hE) (by simp) (by simp)
    · rw [hso]; unfold stOf; simp; (repeat' split) <;> omega
    · intro i hi
      rw [hso] at hi
      have : i = 0 ∨ i = 1 ∨ i = 2 := by omega
      rcases this with rfl | rfl | rfl <;> rfl
  have hres : resolve s k a =
      if k then .ok s else
      if sub32 (1 + E.length) (R.length + 1) > 0 then
        match setTrue s.kills (sub32 (1 + E.length) (R.length + 1)) with
        | some k => .ok { s with kills := k }
        | none => .ub
      else .ok s := by
    unfold resolve
    rw [if_neg (by rw [hst]; decide), if_neg (by rw [hst]; decide), if_pos (by rw [hst]; rfl)]
    simp only [hc2, hsub]; rfl
  unfold one
  rw [hres]
  cases k with
  | true =>
    right
    simp only [if_true]
    rw [if_neg (by simp)]
    exact hpop s ⟨rfl, rfl, rfl, rfl, rfl, rfl, rfl⟩
  | false =>
    simp only [Bool.false_eq_true, if_false, true_and]
    by_cases hb : R.length + 1 ≤ 1 + E.length
    · right
      rw [sub32_of_le hb (by omega)]
      by_cases hlt : R.length + 1 ≤ E.length
      · rw [if_pos (by omega), setTrue_lt (by omega), if_pos hlt]
        obtain ⟨s'', e, hs, hk, ht, hp⟩ := hpop { s with kills := s.kills.set (1 + E.length - (R.length + 1)) true }
          ⟨rfl, rfl, rfl, rfl, rfl, by simp, rfl⟩
        refine ⟨s'', e, hs, ?_, ht, hp⟩
        rw [hk]
        show (s.kills.set _ true).dropLast = _
        congr 2
        omega
      · rw [if_neg (by omega), if_neg hlt]
        exact hpop s ⟨rfl, rfl, rfl, rfl, rfl, rfl, rfl⟩
    · left
      refine ⟨by omega, ?_⟩
      rw [sub32_of_gt (by omega) (by omega), if_pos (by omega), setTrue_ge (by omega)]

theorem one_entry {ops : List AOp} {n : Nat} {s : Scan} {E : List Nat} {t : Nat}
    (h : Shape ops n s (E ++ [t]) [] [] []) (k : Bool) :
    ∃ s'', one s k t = .ok s'' ∧ Shape ops n s'' E [] [] [] ∧ s''.kills = s.kills.dropLast ∧
      s''.tombs = (if k then s.tombs.set t true else s.tombs) ∧ s''.pos = s.pos := by
  have hst : s.state = 1 := by rw [h.state]; simp [stOf]
  have hso : stOf (E ++ [t]) [] [] [] = 1 := by simp [stOf]
  have hpop : ∀ s' : Scan, (s'.state = s.state ∧ s'.path = s.path ∧ s'.positions = s.positions ∧
      s'.depth = s.depth ∧ s'.ceil = s.ceil ∧ s'.kills.length = s.kills.length ∧
      s'.tombs.length = s.tombs.length) → ∃ s'', popTop s' = .ok s'' ∧ Shape ops n s'' E [] [] [] ∧
        s''.kills = s'.kills.dropLast ∧ s''.tombs = s'.tombs ∧ s''.pos = s'.pos := by
    intro s' hs'
    refine popTop_shape (E' := E) (R' := []) (U' := []) (T' := []) (t := t) h hs' (by simp) ?_ ?_
      (fun x hx => List.mem_append_left _ hx) (fun _ => id) (fun _ => id) (by simp) (by simp) (by simp)
    · rw [hso]; unfold stOf; simp; (repeat' split) <;> omega
    · intro i hi
      rw [hso] at hi
      have : i = 0 ∨ i = 1 := by omega
      rcases this with rfl | rfl <;> rfl
  have ht : t < s.tombs.length := by rw [h.tombs]; exact h.bound t (by simp)
  have hres : resolve s k t = .ok { s with tombs := if k then s.tombs.set t true else s.tombs } := by
    unfold resolve
    rw [if_neg (by rw [hst]; decide), if_pos (by rw [hst]; rfl)]
    cases k with
    | false => rfl
    | true => rw [setTrue_lt ht]; rfl
  unfold one
  rw [hres]
  obtain ⟨s'', e, hs, hk, ht, hp⟩ := hpop { s with tombs := if k then s.tombs.set t true else s.tombs }
    ⟨rfl, rfl, rfl, rfl, rfl, rfl, by cases k <;> simp⟩
  exact ⟨s'', e, hs, hk, ht, hp⟩

theorem one_root {ops : List AOp} {n : Nat} {s : Scan} (h : Shape ops n s [] [] [] []) (k : Bool) (a : Nat) :
    one s k a = .bad Status.CAUSEBREAK := by
  have hst : s.state = 0 := by rw [h.state]; rfl
  unfold one resolve
  rw [if_pos (by rw [hst]; rfl)]

/-! ### An op on the stack -/

theorem _root_.Ron.Spec.PathTo.len {ops : List AOp} {i : Nat} {p : List Nat} (h : PathTo ops i p) :
    p.length ≤ i + 1 := by
  induction h with
  | root _ => simp
  | child i j p a b _ hlt _ _ _ ih => simp only [List.length_append, List.length_singleton]; omega

theorem entryType_cases (o : AOp) : entryType o = 1 ∨ entryType o = 2 ∨ entryType o = 3 := by
  rw [entryType_kind]; cases kind o <;> simp

/-- The second half of `enter`. -/
def push (s : Scan) (id : Uuid) : Scan :=
  { s with
    tombs := s.tombs ++ [decide (s.state ≠ ENTRY)]
    depth := (s.depth + 1) % 2 ^ 32
    path := s.path ++ [id]
    kills := s.kills ++ [false]
    positions := s.positions ++ [s.pos] }

theorem push_shape {ops : List AOp} {n : Nat} {s : Scan} {E R U T E' R' U' T' : List Nat} {o : AOp}
    (h : Shape ops n s E R U T) (hn : n < 2 ^ 31 - 1) (ho : ops[n]? = some o) (hp : s.pos = n)
    (htop : s.path.getLast? = some o.ref) (st : Nat) (ceil : List Nat)
    (he : E' ++ R' ++ U' ++ T' = E ++ R ++ U ++ T ++ [n])
    (hst : st = stOf E' R' U' T') (hcl : ceil.length = 5)
    (hc : ∀ i ≤ stOf E' R' U' T', ceil[i]? = some (cf E' R' U' i))
    (kE : ∀ x ∈ E', kindAt ops x = 1) (kR : ∀ x ∈ R', kindAt ops x = 2)
    (kU : ∀ x ∈ U', kindAt ops x = 3) (rE : R' ≠ [] → E' ≠ []) (uR : U' ≠ [] → R' ≠ [])
    (irr : ∀ x, T'.head? = some x → kindAt ops x ≠ stOf E' R' U' [] ∧ kindAt ops x ≠ stOf E' R' U' [] + 1) :
    Shape ops (n + 1) (push { s with state := st, ceil := ceil } o.id) E' R' U' T' := by
  have hlen := congrArg List.length he
  simp only [List.length_append, List.length_cons, List.length_nil] at hlen
  have hdl : 0 :: (E' ++ R' ++ U' ++ T') = 0 :: (E ++ R ++ U ++ T) ++ [n] := by rw [he]; rfl
  obtain ⟨t, ht⟩ := h.to
  obtain ⟨q, hq, hlt⟩ := ht.last
  have htn : t < n := h.bound t (by rw [hq]; simp)
  have htl : 1 + E.length + R.length + U.length + T.length ≤ t + 1 := by
    have := ht.len; simp only [List.length_cons, List.length_append] at this; omega
  have hpt : PathTo ops n (0 :: (E ++ R ++ U ++ T) ++ [n]) := by
    obtain ⟨a, ha⟩ : ∃ a, ops[t]? = some a := ⟨_, List.getElem?_eq_getElem ht.lt⟩
    refine .child n t _ a o ht htn ha ho ?_
    rw [h.path, hq, List.map_append, List.map_singleton, List.getLast?_concat] at htop
    simp only [idAt, ha, Option.map_some, Option.getD_some, Option.some.injEq] at htop
    exact htop.symm
  constructor
  · show s.positions ++ [s.pos] = _
    rw [h.pos, hp, hdl]
  · show s.path ++ [o.id] = _
    rw [h.path, hdl, List.map_append, List.map_singleton]
    simp [idAt, ho]
  · show (s.kills ++ [false]).length = _
    rw [List.length_append, h.kills, List.length_singleton]; omega
  · show (s.tombs ++ [_]).length = _
    rw [List.length_append, h.tombs, List.length_singleton]
  · show (s.depth + 1) % 2 ^ 32 = _
    rw [h.depth, Nat.mod_eq_of_lt (by omega)]; omega
  · exact hcl
  · exact hc
  · exact hst
  · rw [hdl]; exact ⟨n, hpt⟩
  · rw [hdl]
    intro x hx
    rcases List.mem_append.1 hx with hx | hx
    · have := h.bound x hx; omega
    · rw [List.mem_singleton.1 hx]; omega
  · omega
  · exact kE
  · exact kR
  · exact kU
  · exact rE
  · exact uR
  · exact irr

theorem mem_snoc {P : Nat → Prop} {l : List Nat} {n : Nat} (hl : ∀ x ∈ l, P x) (hn : P n) :
    ∀ x ∈ l ++ [n], P x := by
  intro x hx
  rcases List.mem_append.1 hx with hx | hx
  · exact hl x hx
  · rw [List.mem_singleton.1 hx]; exact hn

theorem enter_shape {ops : List AOp} {n : Nat} {s : Scan} {E R U T : List Nat} {o : AOp}
    (h : Shape ops n s E R U T) (hn : n < 2 ^ 31 - 1) (ho : ops[n]? = some o) (hp : s.pos = n)
    (htop : s.path.getLast? = some o.ref) :
    ∃ E' R' U' T', E' ++ R' ++ U' ++ T' = E ++ R ++ U ++ T ++ [n] ∧
      Shape ops (n + 1) (enter s o.id (entryType o)) E' R' U' T' ∧
      (enter s o.id (entryType o)).kills = s.kills ++ [false] ∧
      (enter s o.id (entryType o)).tombs = s.tombs ++ [decide (stOf E' R' U' T' ≠ 1)] ∧
      (enter s o.id (entryType o)).pos = s.pos := by
  have hk : kindAt ops n = entryType o := by simp [kindAt, ho]
  have fin : ∀ (s' : Scan) (st : Nat) (ceil : List Nat) (E' R' U' T' : List Nat),
      s' = { s with state := st, ceil := ceil } → st = stOf E' R' U' T' →
      (push s' o.id).kills = s.kills ++ [false] ∧
      (push s' o.id).tombs = s.tombs ++ [decide (stOf E' R' U' T' ≠ 1)] ∧
      (push s' o.id).pos = s.pos := by
    intro s' st ceil E' R' U' T' e e2
    subst e; subst e2; exact ⟨rfl, rfl, rfl⟩
  have hst := h.state
  have hen : enter s o.id (entryType o) = push (if entryType o ≠ s.state then
      if entryType o ≠ s.state + 1 then
        { s with state := if s.state < TRASH then TRASH else s.state
                 ceil := trash s.depth s.ceil s.state }
      else { s with state := entryType o, ceil := s.ceil.set (entryType o) s.depth }
    else s) o.id := rfl
  by_cases hT : T = []
  case neg =>
    -- below trash everything is trash
    have h4 : stOf E R U T = 4 := by simp [stOf, hT]
    have h4' : stOf E R U (T ++ [n]) = 4 := by simp [stOf]
    have e : (if entryType o ≠ s.state then
      if entryType o ≠ s.state + 1 then
        { s with state := if s.state < TRASH then TRASH else s.state
                 ceil := trash s.depth s.ceil s.state }
      else { s with state := entryType o, ceil := s.ceil.set (entryType o) s.depth }
      else s) = { s with state := 4, ceil := trash s.depth s.ceil 4 } := by
      rw [hst, h4]
      have := entryType_cases o
      rw [if_pos (by omega), if_pos (by omega)]
      rfl
    rw [hen, e]
    refine ⟨E, R, U, T ++ [n], by simp, ?_, fin _ 4 _ E R U _ rfl h4'.symm⟩
    refine push_shape h hn ho hp htop 4 _ (by simp) h4'.symm (by simp [trash, h.ceilLen]) ?_
      h.kE h.kR h.kU h.rE h.uR ?_
    · intro i hi
      rw [h4'] at hi
      simp only [trash, List.getElem?_mapIdx, h.ceil i (by rw [h4]; exact hi), Option.map_some]
      rw [if_neg (by omega)]
    · intro x hx
      apply h.irr
      cases T with
      | nil => exact absurd rfl hT
      | cons y ys => simpa using hx
  case pos =>
    subst hT
    have h3 : stOf E R U [] ≤ 3 := by unfold stOf; simp; (repeat' split) <;> omega
    have hd : s.depth = 1 + E.length + R.length + U.length := by rw [h.depth]; simp
    have hcf : ∀ i, stOf E R U [] < i → i ≤ 4 → cf E R U i = s.depth := by
      intro i h1 h2
      have := (cf_iff E R U [] i (by omega) h2).2 h1
      rw [← this, hd]; simp
    by_cases e1 : entryType o = stOf E R U []
    · -- the same kind
      have e : (if entryType o ≠ s.state then
        if entryType o ≠ s.state + 1 then
          { s with state := if s.state < TRASH then TRASH else s.state
                   ceil := trash s.depth s.ceil s.state }
        else { s with state := entryType o, ceil := s.ceil.set (entryType o) s.depth }
        else s) = { s with state := s.state, ceil := s.ceil } := by
        rw [hst, if_neg (by simpa using e1)]
      rw [hen, e]
      have hnk : kindAt ops n = stOf E R U [] := by rw [hk, e1]
      by_cases hU : U = []
      · by_cases hR : R = []
        · by_cases hE : E = []
          · have := entryType_cases o
            rw [e1] at this; simp [stOf, hE, hR, hU] at this
          · have hs1 : stOf E R U [] = 1 := by simp [stOf, hE, hR, hU]
            have hs1' : stOf (E ++ [n]) [] [] [] = 1 := by simp [stOf]
            subst hU; subst hR
            refine ⟨E ++ [n], [], [], [], by simp, ?_, fin _ _ _ _ _ _ _ rfl (by rw [hst, hs1, hs1'])⟩
            refine push_shape h hn ho hp htop _ _ (by simp) (by rw [hst, hs1, hs1']) h.ceilLen ?_
              (mem_snoc h.kE (by rw [hnk, hs1])) (by simp) (by simp) (by simp) (by simp) (by simp)
            intro i hi
            rw [hs1'] at hi
            rw [h.ceil i (by omega)]
            have : i = 0 ∨ i = 1 := by omega
            rcases this with rfl | rfl <;> rfl
        · have hs1 : stOf E R U [] = 2 := by simp [stOf, hR, hU]
          have hs1' : stOf E (R ++ [n]) [] [] = 2 := by simp [stOf]
          subst hU
          refine ⟨E, R ++ [n], [], [], by simp, ?_, fin _ _ _ _ _ _ _ rfl (by rw [hst, hs1, hs1'])⟩
          refine push_shape h hn ho hp htop _ _ (by simp) (by rw [hst, hs1, hs1']) h.ceilLen ?_
            h.kE (mem_snoc h.kR (by rw [hnk, hs1])) (by simp) (fun _ => h.rE hR) (by simp) (by simp)
          intro i hi
          rw [hs1'] at hi
          rw [h.ceil i (by omega)]
          have : i = 0 ∨ i = 1 ∨ i = 2 := by omega
          rcases this with rfl | rfl | rfl <;> rfl
      · have hs1 : stOf E R U [] = 3 := by simp [stOf, hU]
        have hs1' : stOf E R (U ++ [n]) [] = 3 := by simp [stOf]
        refine ⟨E, R, U ++ [n], [], by simp, ?_, fin _ _ _ _ _ _ _ rfl (by rw [hst, hs1, hs1'])⟩
        refine push_shape h hn ho hp htop _ _ (by simp) (by rw [hst, hs1, hs1']) h.ceilLen ?_
          h.kE h.kR (mem_snoc h.kU (by rw [hnk, hs1])) h.rE (fun _ => h.uR hU) (by simp)
        intro i hi
        rw [hs1'] at hi
        rw [h.ceil i (by omega)]
        have : i = 0 ∨ i = 1 ∨ i = 2 ∨ i = 3 := by omega
        rcases this with rfl | rfl | rfl | rfl <;> rfl
    · by_cases e2 : entryType o = stOf E R U [] + 1
      · -- the next kind
        have e : (if entryType o ≠ s.state then
          if entryType o ≠ s.state + 1 then
            { s with state := if s.state < TRASH then TRASH else s.state
                     ceil := trash s.depth s.ceil s.state }
          else { s with state := entryType o, ceil := s.ceil.set (entryType o) s.depth }
          else s) = { s with state := entryType o, ceil := s.ceil.set (entryType o) s.depth } := by
          rw [hst, if_pos e1, if_neg (by simpa using e2)]
        rw [hen, e]
        have hceil : ∀ i ≤ stOf E R U [] + 1,
            (s.ceil.set (entryType o) s.depth)[i]? = some (cf E R U i) := by
          intro i hi
          rw [List.getElem?_set, e2]
          by_cases hi2 : stOf E R U [] + 1 = i
          · rw [if_pos hi2, if_pos (by have := h.ceilLen; omega), hcf i (by omega) (by omega)]
          · rw [if_neg hi2, h.ceil i (by omega)]
        have hcl : (s.ceil.set (entryType o) s.depth).length = 5 := by simp [h.ceilLen]
        have hec := entryType_cases o
        by_cases hU : U = []
        · by_cases hR : R = []
          · subst hU; subst hR
            by_cases hE : E = []
            · subst hE
              have hs1 : stOf [] [] [] [] = 0 := rfl
              have hs1' : stOf [n] [] [] [] = 1 := rfl
              refine ⟨[n], [], [], [], by simp, ?_, fin _ _ _ _ _ _ _ rfl (by rw [e2, hs1, hs1'])⟩
              refine push_shape h hn ho hp htop _ _ (by simp) (by rw [e2, hs1, hs1']) hcl ?_
                (by intro x hx; rw [List.mem_singleton.1 hx, hk, e2, hs1]) (by simp) (by simp) (by simp) (by simp) (by simp)
              intro i hi
              rw [hs1'] at hi
              rw [hceil i (by rw [hs1]; exact hi)]
              have : i = 0 ∨ i = 1 := by omega
              rcases this with rfl | rfl <;> rfl
            · have hs1 : stOf E [] [] [] = 1 := by simp [stOf, hE]
              have hs1' : stOf E [n] [] [] = 2 := by simp [stOf]
              refine ⟨E, [n], [], [], by simp, ?_, fin _ _ _ _ _ _ _ rfl (by rw [e2, hs1, hs1'])⟩
              refine push_shape h hn ho hp htop _ _ (by simp) (by rw [e2, hs1, hs1']) hcl ?_
                h.kE (by intro x hx; rw [List.mem_singleton.1 hx, hk, e2, hs1]) (by simp) (fun _ => hE) (by simp) (by simp)
              intro i hi
              rw [hs1'] at hi
              rw [hceil i (by rw [hs1]; exact hi)]
              have : i = 0 ∨ i = 1 ∨ i = 2 := by omega
              rcases this with rfl | rfl | rfl <;> rfl
          · subst hU
            have hs1 : stOf E R [] [] = 2 := by simp [stOf, hR]
            have hs1' : stOf E R [n] [] = 3 := by simp [stOf]
            refine ⟨E, R, [n], [], by simp, ?_, fin _ _ _ _ _ _ _ rfl (by rw [e2, hs1, hs1'])⟩
            refine push_shape h hn ho hp htop _ _ (by simp) (by rw [e2, hs1, hs1']) hcl ?_
              h.kE h.kR (by intro x hx; rw [List.mem_singleton.1 hx, hk, e2, hs1]) h.rE (fun _ => hR) (by simp)
            intro i hi
            rw [hs1'] at hi
            rw [hceil i (by rw [hs1]; exact hi)]
            have : i = 0 ∨ i = 1 ∨ i = 2 ∨ i = 3 := by omega
            rcases this with rfl | rfl | rfl | rfl <;> rfl
        · have hs1 : stOf E R U [] = 3 := by simp [stOf, hU]
          omega
      · -- out of order: trash
        have e : (if entryType o ≠ s.state then
          if entryType o ≠ s.state + 1 then
            { s with state := if s.state < TRASH then TRASH else s.state
                     ceil := trash s.depth s.ceil s.state }
          else { s with state := entryType o, ceil := s.ceil.set (entryType o) s.depth }
          else s) = { s with state := 4, ceil := trash s.depth s.ceil (stOf E R U []) } := by
          rw [hst, if_pos e1, if_pos e2, if_pos (by show _ < 4; omega)]
          rfl
        rw [hen, e]
        have h4' : stOf E R U [n] = 4 := by simp [stOf]
        refine ⟨E, R, U, [n], by simp, ?_, fin _ _ _ _ _ _ _ rfl h4'.symm⟩
        refine push_shape h hn ho hp htop 4 _ (by simp) h4'.symm (by simp [trash, h.ceilLen]) ?_
          h.kE h.kR h.kU h.rE h.uR ?_
        · intro i hi
          rw [h4'] at hi
          simp only [trash, List.getElem?_mapIdx]
          by_cases hi2 : stOf E R U [] < i
          · rw [List.getElem?_eq_getElem (by have := h.ceilLen; omega), Option.map_some, if_pos hi2,
              hcf i hi2 hi]
          · rw [h.ceil i (by omega), Option.map_some, if_neg hi2]
        · intro x hx
          simp only [List.head?_cons, Option.some.injEq] at hx
          subst hx
          rw [hk]; exact ⟨e1, e2⟩

end Ron.Rga
