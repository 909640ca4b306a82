import Verif.Lemmas.Replica
import Verif.Spec.Comments
/-!
Receiving a frame with comments and without: both are taken in step.
-/
namespace Ron.Commit
open Ron Spec

/-- Outcomes that are alike: the same status, the same commit and rests that differ by comments. -/
inductive Alike (fin : Status) : Option (Status × Commit × ACur) → Option (Status × Commit × ACur) → Prop where
  | neither : Alike fin none none
  | both {st : Status} {c : Commit} {xs ys : List AOp} : Remarked xs ys →
    Alike fin (some (st, c, ⟨xs, fin, true⟩)) (some (st, c, ⟨ys, fin, true⟩))

theorem Alike.bind {fin : Status} {α : Type} {x : Option α} {f g : α → Option (Status × Commit × ACur)}
    (h : ∀ a, Alike fin (f a) (g a)) : Alike fin (x.bind f) (x.bind g) := by
  cases x with
  | none => exact .neither
  | some a => exact h a

theorem Alike.map {fin : Status} {α : Type} {x : Option α} {f g : α → Status × Commit × ACur}
    (h : ∀ a, Alike fin (some (f a)) (some (g a))) : Alike fin (x.map f) (x.map g) := by
  cases x with
  | none => exact .neither
  | some a => exact h a

theorem Remarked.refl : ∀ (xs : List AOp), Remarked xs xs
  | [] => .nil
  | _ :: os => .op (fun _ _ => rfl) (Remarked.refl os)

theorem remarked_nil {xs : List AOp} (h : Remarked xs []) : xs = [] := by
  generalize e : ([] : List AOp) = ys at h
  cases h with
  | nil => rfl
  | op _ _ => cases e
  | remark _ hn _ => exact absurd e.symm hn

theorem remarked_ne {xs ys : List AOp} (h : Remarked xs ys) (hn : ys ≠ []) : xs ≠ [] := by
  cases h with
  | nil => exact hn
  | op _ _ => simp
  | remark _ _ _ => simp

theorem remarked_empty {xs ys : List AOp} (h : Remarked xs ys) : xs.isEmpty = ys.isEmpty := by
  cases h with
  | nil => rfl
  | op _ _ => rfl
  | remark _ hn _ =>
    match ys, hn with
    | _ :: _, _ => rfl

theorem remarked_drop {p : AOp → Bool} (hp : ∀ o : AOp, o.id = COMMENT → p o = true) {xs ys : List AOp}
    (h : Remarked xs ys) : Remarked (xs.dropWhile p) (ys.dropWhile p) := by
  induction h with
  | nil => exact .nil
  | @op o xs ys hd h ih =>
    by_cases ho : p o = true
    · rw [List.dropWhile_cons_of_pos ho, List.dropWhile_cons_of_pos ho]; exact ih
    · rw [List.dropWhile_cons_of_neg ho, List.dropWhile_cons_of_neg ho]; exact .op hd h
  | remark hc hn h ih => rw [List.dropWhile_cons_of_pos (hp _ hc)]; exact ih

/-- What `SaveChainlet` gives for the two. -/
inductive AlikeC : Option (Status × Chainlet × List AOp) → Option (Status × Chainlet × List AOp) → Prop where
  | neither : AlikeC none none
  | both {st : Status} {s : Chainlet} {xs ys : List AOp} : Remarked xs ys →
    AlikeC (some (st, s, xs)) (some (st, s, ys))

theorem AlikeC.map {fin : Status} {x y : Option (Status × Chainlet × List AOp)}
    {f : Status × Chainlet × List AOp → Status × Commit × List AOp}
    {g : Status × Commit × List AOp → Status × Commit × ACur} (h : AlikeC x y)
    (hf : ∀ st s xs ys, Remarked xs ys → Alike fin (some (g (f (st, s, xs)))) (some (g (f (st, s, ys))))) :
    Alike fin ((x.map f).map g) ((y.map f).map g) := by
  cases h with
  | neither => exact .neither
  | both h => exact hf _ _ _ _ h

theorem chainlet_alike (hs : Hashing) (fin : Status) {xs ys : List AOp} (h : Remarked xs ys) :
    ∀ s : Chainlet, AlikeC (chainletLoop hs fin s xs) (chainletLoop hs fin s ys) := by
  induction h with
  | nil => intro s; exact .both .nil
  | @op o xs ys hd h ih =>
    intro s
    rw [chainletLoop, chainletLoop]
    split
    · exact ih s
    · split
      · split
        · exact .both (.op hd h)
        · cases s.m.next hs o s.m with
          | none => exact .neither
          | some m =>
            simp only [Option.bind_some]
            split
            · split
              · exact .both (.op hd h)
              · exact ih _
            · exact ih _
      · split
        · split
          · exact .both (.op hd h)
          · exact ih s
        · exact .both (.op hd h)
  | remark hc hn h ih =>
    intro s
    rw [chainletLoop, if_pos hc]
    exact ih s

theorem saveChain_alike (env : Env) (c : Commit) (fin : Status) (o : AOp) {xs ys : List AOp}
    (h : Remarked (o :: xs) (o :: ys)) (h' : Remarked xs ys) :
    Alike fin (saveChain env c ⟨o :: xs, fin, true⟩) (saveChain env c ⟨o :: ys, fin, true⟩) := by
  unfold saveChain
  simp only
  split
  · exact .both h
  · refine Alike.bind fun t => ?_
    split
    · exact .both h
    · refine Alike.bind fun m => ?_
      split
      · exact .both h
      · unfold storeChain
        generalize (if o.ref ≠ m.2.1.id then m.2.2.write (Key.mk' o.id Form.META) (m.2.1.save env.hs)
          else (Status.OK, m.2.2)) = w
        simp only
        split
        · exact .both h
        · refine AlikeC.map (chainlet_alike env.hs fin h' _) ?_
          intro st s xs ys h
          simp only
          split
          · exact .both h
          · split
            · exact .both h
            · split
              · exact .both h
              · split
                · exact .both h
                · exact .both h

theorem writeNew_alike (env : Env) (c : Commit) (fin : Status) {xs ys : List AOp} (h : Remarked xs ys) :
    Alike fin (writeNewEvents env c ⟨xs, fin, true⟩) (writeNewEvents env c ⟨ys, fin, true⟩) := by
  rw [writeNewEvents_eq, writeNewEvents_eq]
  have e : (ACur.mk xs fin true).valid = (ACur.mk ys fin true).valid := by
    simp only [ACur.valid, remarked_empty h]
  simp only [e]
  split
  · exact .both (remarked_drop (fun o ho => by rw [ho]; decide) h)
  · exact .both h

theorem txtWrite_alike (env : Env) (c : Commit) (fin : Status) (o : AOp) {xs ys : List AOp}
    (h : Remarked (o :: xs) (o :: ys)) (h' : Remarked xs ys) :
    Alike fin (txtWrite env c ⟨o :: xs, fin, true⟩) (txtWrite env c ⟨o :: ys, fin, true⟩) := by
  unfold txtWrite
  simp only
  split
  · refine Alike.bind fun r => ?_
    split
    · exact .both h
    · split
      · exact .neither
      · exact .both h
      · exact Alike.map fun w => .both h'
  · exact .both h

theorem dispatch_alike (env : Env) (c : Commit) (fin : Status) (o : AOp) {xs ys : List AOp}
    (hd : o.id.version = Uuid.vDERIVED → o.term = .reduced → xs.head? = ys.head?) (h' : Remarked xs ys) :
    Alike fin (dispatch env c ⟨o :: xs, fin, true⟩) (dispatch env c ⟨o :: ys, fin, true⟩) := by
  have h : Remarked (o :: xs) (o :: ys) := .op hd h'
  have hn : ∀ zs : List AOp, (ACur.mk (o :: zs) fin true).next.2 = ⟨zs, fin, true⟩ := fun zs =>
    next_step (cur := ⟨o :: zs, fin, true⟩) rfl
  unfold dispatch
  simp only
  split
  · split
    · unfold receiveQuery
      simp only
      split
      · unfold queryObject
        refine Alike.map fun r => ?_
        split
        · exact .both h
        · rw [hn, hn]; exact .both h'
      · split
        · unfold queryObjectLog
          simp only [hn]
          refine Alike.bind fun m => ?_
          split
          · exact .both h'
          · refine Alike.bind fun r => ?_
            split
            · exact .both h'
            · split
              · exact .both h'
              · split
                · exact .neither
                · split
                  · exact .both h'
                  · exact .both h'
        · exact .both h
    · split
      · exact saveChain_alike env c fin o h h'
      · unfold receiveWrites
        simp only
        split
        · exact writeNew_alike env c fin h
        · split
          · exact .both h
          · split
            · exact writeNew_alike env c fin h
            · split
              · exact txtWrite_alike env c fin o h h'
              · exact .both h
  · split
    · next hv =>
      have e : peekTerm (o :: xs) = peekTerm (o :: ys) := by
        simp only [peekTerm]
        by_cases ht : o.term = .reduced
        · rw [if_neg (by simpa using ht), if_neg (by simpa using ht)]
          have := hd hv ht
          match xs, ys, this with
          | [], [], _ => rfl
          | x :: _, y :: _, e => cases e; rfl
        · rw [if_pos ht, if_pos ht]
      rw [e]
      split
      · unfold receiveMapQuery
        simp only
        split
        · refine Alike.map fun r => ?_
          split
          · exact .both h
          · rw [hn, hn]; exact .both h'
        · exact .both h
      · unfold receiveMapWrites
        simp only
        split
        · exact txtWrite_alike env c fin o h h'
        · exact .both h
    · split
      · split
        · have e := remarked_empty h'
          match xs, ys, e, h' with
          | [], [], _, h' => exact .both h'
          | _ :: _, _ :: _, _, h' => exact .both h'
        · split
          · unfold writeName
            simp only
            split
            · split
              · exact .both h
              · exact .both h'
            · exact .both h
          · exact .both h
      · exact .both h

theorem receiveLoop_alike (env : Env) (fin : Status) : ∀ (n m : Nat) (c : Commit) (xs ys : List AOp),
    xs.length < n → ys.length < m → Remarked xs ys →
    receiveLoop env n c ⟨xs, fin, true⟩ = receiveLoop env m c ⟨ys, fin, true⟩ := by
  intro n
  induction n with
  | zero => intro m c xs ys h; omega
  | succ n ih =>
    intro m c xs ys hx hy h
    match m, hy with
    | m + 1, hy =>
    cases h with
    | nil => rfl
    | @remark o xs _ hc hne h =>
      match xs, h with
      | [], h => exact absurd rfl (remarked_ne h hne)
      | x :: xs, h =>
        rw [receiveLoop, if_neg (by simp [ACur.valid])]
        have e : dispatch env c ⟨o :: x :: xs, fin, true⟩ = some (Status.OK, c, ⟨x :: xs, fin, true⟩) := by
          unfold dispatch
          simp only [hc]
          rw [if_neg (by decide), if_neg (by decide), if_pos (by decide), if_pos trivial]
          rfl
        rw [e]
        simp only [Option.bind_some]
        rw [if_neg (by decide), if_pos (by simp [ACur.valid])]
        exact ih (m + 1) c (x :: xs) ys (by simp only [List.length_cons] at hx ⊢; omega) hy h
    | @op o xs ys hd h =>
      rw [receiveLoop, receiveLoop, if_neg (by simp [ACur.valid]), if_neg (by simp [ACur.valid])]
      have a := dispatch_alike env c fin o hd h
      generalize e1 : dispatch env c ⟨o :: xs, fin, true⟩ = r1 at a
      generalize e2 : dispatch env c ⟨o :: ys, fin, true⟩ = r2 at a
      cases a with
      | neither => rfl
      | @both st c' xs' ys' h'' =>
        simp only [Option.bind_some]
        by_cases hs : st.ok = true
        · have l1 := (dispatch_named (by simp [ACur.valid]) e1).2.2 hs
          have l2 := (dispatch_named (by simp [ACur.valid]) e2).2.2 hs
          rw [if_neg (c := ¬ st.ok = true) (by simpa using hs), if_neg (c := ¬ st.ok = true) (by simpa using hs)]
          have ev : (ACur.mk xs' fin true).valid = (ACur.mk ys' fin true).valid := by
            simp only [ACur.valid, remarked_empty h'']
          rw [ev]
          by_cases hv : (ACur.mk ys' fin true).valid = true
          · rw [if_pos hv, if_pos hv]
            exact ih m c' xs' ys' (by simp only [List.length_cons] at hx l1; omega)
              (by simp only [List.length_cons] at hy l2; omega) h''
          · rw [if_neg hv, if_neg hv]
        · rw [if_pos hs, if_pos hs]

end Ron.Commit
