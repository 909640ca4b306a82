import Verif.Lemmas.Whole
/-!
Sequences of calls of the builder.
-/
namespace Ron
open Spec
namespace Builder
open Op

/-- The builder between calls. -/
structure Inv (hok : List View → Bool) (b : Builder) (l : List (Nat × OpView)) (pid : Uuid) (pv : List View)
    (closed mid : Bool) (ops : List OpView) : Prop where
  idle : closed = true → Idle b l ∧ ops = []
  pend : closed = false → ∃ hd, Pend b l ops hd ∧
    ∀ y, hd = some y → mid = false ∧ (hok pv = true → y.length = 1)
  pid : b.prevId = pid
  sig : b.prev2 = Builder.sig pv
  ty : ∀ u, pv = [.uuid u] → Atom.type u = Atom.tUUID

theorem appendSrc_close {f : Atom → Out (List Byte)} {s : Src} {b b' : Builder} {o : OpView} {x : List Byte}
    (hs : Shown f s o x) (hw : b.writeTerm 1 = .ok b') (h0 : b'.span = 0) (hp : b'.prevId = b.prevId)
    (h2 : b'.prev2 = b.prev2) (h : isSameSpan b s o.id o.ref = false) :
    appendSrc f b s = appendSrc f b' s := by
  obtain ⟨vals, d, hop, -⟩ := hs.vals
  have h' : isSameSpan b' s o.id o.ref = false := by
    unfold isSameSpan at h ⊢
    rw [hp, h2]; exact h
  unfold appendSrc
  rw [hop]
  simp only
  rw [h, h', hw]
  have : b'.writeTerm 1 = .ok b' := by unfold writeTerm; rw [if_pos h0]
  rw [this, if_neg (by decide), if_neg (by decide)]

theorem obind_assoc {α β γ : Type} (x : Out α) (f : α → Out β) (g : β → Out γ) :
    (x.bind f).bind g = x.bind fun a => (f a).bind g := by
  cases x <;> rfl

theorem frame_of_ops {p q : Uuid} {pre w : List Byte} {l : List (Nat × OpView)} (h : OpsText p pre l q)
    (hw : Blank w) : FrameText p (pre ++ w) l := by
  induction h with
  | nil => exact .stop hw
  | cons h hl _ ih => rw [List.append_assoc]; exact .op h hl ih

/-- Work for the builder. -/
inductive Work where
  | op (f : Atom → Out (List Byte)) (s : Src)
  | endChunk (t : Nat)

/-- Doing the work. -/
def doWork : List Work → Builder → Out Builder
  | [], b => .ok b
  | .op f s :: l, b => (appendSrc f b s).bind (doWork l)
  | .endChunk t :: l, b => (b.endChunk t).bind (doWork l)

/-- The work is to say this. -/
inductive Fits (hok : List View → Bool) : Work → Step → Prop
  | op {f : Atom → Out (List Byte)} {s : Src} {o : OpView} {x : List Byte} (hs : Shown f s o x)
      (hx : (∃ t, o.vals = [.text t]) → hok o.vals = true → x.length = 1) : Fits hok (.op f s) (.op o)
  | endChunk (t : Nat) : Fits hok (.endChunk t) (.endChunk t)

/-- The work writes no code points longer than they need to be. -/
def WholeWork : Work → Prop
  | .op f s => WholeVals f s
  | .endChunk _ => True

/-- From a state between calls, clean work makes a text of what was written, what is pending and
what the work is to say. -/
theorem doWork_ok {hok : List View → Bool} {works : List Work} {sts : List Step}
    (hf : Same2 (Fits hok) works sts) : ∀ {b : Builder}
    {l : List (Nat × OpView)} {pid : Uuid} {pv : List View} {closed mid : Bool} {ops : List OpView},
    Inv hok b l pid pv closed mid ops → CleanSteps hok pid pv closed mid sts →
    b.span + sts.length < 2 ^ 32 →
    ∃ b' text pre w q, (doWork works b).bind release = .ok (text, b') ∧ text = pre ++ w ∧ Blank w ∧
      OpsText Uuid.NIL pre
        (l ++ ops.map (fun o => (termAfter pid pv sts, o)) ++ saidBy sts) q ∧
      (Whole b.data → (∀ w ∈ works, WholeWork w) → Whole text) := by
  induction hf with
  | nil =>
    intro b l pid pv closed mid ops hi _ hn
    simp only [List.length_nil, Nat.add_zero] at hn
    have key : ∃ b', (if b.span ≠ 0 then endChunk b 0 else .ok b) = .ok b' ∧
        Idle b' (l ++ ops.map fun o => (0, o)) ∧ (Whole b.data → Whole b'.data) := by
      cases hc : closed with
      | true =>
        obtain ⟨h1, rfl⟩ := hi.idle hc
        refine ⟨b, ?_, by simpa using h1, id⟩
        rw [if_neg (by rw [h1.span]; simp)]
      | false =>
        obtain ⟨hd, h1, -⟩ := hi.pend hc
        obtain ⟨b', e1, e2, -, -⟩ := close h1 hn (t := 0) (by decide)
        by_cases h0 : b.span = 0
        · exfalso
          cases h1 <;> omega
        · refine ⟨b', ?_, e2, fun h => whole_term h e1⟩
          rw [if_pos h0]
          unfold endChunk
          rw [if_neg (by decide), e1]
    obtain ⟨b', e1, ⟨-, pre, w, e2, e3, e4⟩, e5⟩ := key
    refine ⟨{ b' with data := [] }, b'.data, pre, w, b'.prevId, ?_, e2, e3, ?_, fun h _ => e5 h⟩
    · unfold doWork
      rw [obind]
      unfold release
      rw [e1, obind]
    · simpa [saidBy, termAfter] using e4
  | @cons c st works sts hst _ ih =>
    intro b l pid pv closed mid ops hi hc hn
    simp only [List.length_cons] at hn
    cases hst with
    | endChunk t =>
      unfold CleanSteps at hc
      obtain ⟨ht, hc⟩ := hc
      have ht4 : t < 4 ∧ t ≠ 1 := by
        simp at ht
        omega
      have key : ∃ b', b.endChunk t = .ok b' ∧ Idle b' (l ++ ops.map fun o => (t, o)) ∧
          b'.prevId = b.prevId ∧ b'.prev2 = b.prev2 ∧ (Whole b.data → Whole b'.data) := by
        unfold endChunk
        rw [if_neg ht4.2]
        cases hcl : closed with
        | true =>
          obtain ⟨h1, rfl⟩ := hi.idle hcl
          refine ⟨b, ?_, by simpa using h1, rfl, rfl, id⟩
          unfold writeTerm; rw [if_pos h1.span]
        | false =>
          obtain ⟨hd, h1, -⟩ := hi.pend hcl
          obtain ⟨b', c1, c2, c3, c4⟩ := close h1 (by omega) ht4.1
          exact ⟨b', c1, c2, c3, c4, fun h => whole_term h c1⟩
      obtain ⟨b', e1, e2, e3, e4, e5⟩ := key
      have hi' : Inv hok b' (l ++ ops.map fun o => (t, o)) pid pv true mid [] :=
        ⟨fun _ => ⟨e2, rfl⟩, fun h => by simp at h, e3.trans hi.pid, e4.trans hi.sig, hi.ty⟩
      obtain ⟨b2, text, pre, w, q, f1, f2, f3, f4, f5⟩ := ih hi' hc (by rw [e2.span]; omega)
      refine ⟨b2, text, pre, w, q, ?_, f2, f3, ?_, fun h hw => f5 (e5 h) fun w hm => hw w (by simp [hm])⟩
      · rw [doWork, e1, obind, f1]
      · simpa [saidBy, termAfter] using f4
    | @op f src o x hs hx =>
      unfold CleanSteps at hc
      obtain ⟨hseq, hfold, hc⟩ := hc
      have hss := isSameSpan_eq hs hi.sig hi.ty
      simp only [hi.pid] at hss
      have hstep : ∃ b' l' ops' , appendSrc f b src = .ok b' ∧
          Inv hok b' l' o.id o.vals false (folds pid pv o) ops' ∧
          b'.span ≤ b.span + 1 ∧ (Whole b.data → WholeVals f src → Whole b'.data) ∧
          ∀ t, l' ++ ops'.map (fun o => (t, o)) = l ++ ops.map (fun x =>
            (if folds pid pv o then t else 1, x)) ++ [(t, o)] := by
        cases hf : folds pid pv o with
        | true =>
          rw [show (follows pid o.id o.ref && alike pv o.vals) = folds pid pv o from rfl, hf] at hss
          obtain ⟨c1, c2⟩ := hfold hf
          obtain ⟨hd, p1, p2⟩ := hi.pend c1
          have hone : ∀ y, hd = some y → y.length = 1 := fun y hy => by
            obtain ⟨q1, q2⟩ := p2 y hy
            rcases c2 with c2 | c2
            · rw [q1] at c2; simp at c2
            · exact q2 c2
          obtain ⟨b', e1, e2, e3, e4, e5⟩ := append_more hs p1 hone (by omega) hss
          exact ⟨b', l, _, e1, ⟨fun h => by simp at h, fun _ => ⟨none, e2, by simp⟩, e4, e5, hs.valType⟩,
            by omega, fun h _ => whole_more hs p1 hone h hss e1, fun t => by simp⟩
        | false =>
          rw [show (follows pid o.id o.ref && alike pv o.vals) = folds pid pv o from rfl, hf] at hss
          have key : ∃ b1 l1, appendSrc f b src = appendSrc f b1 src ∧
              Idle b1 l1 ∧ b1.prevId = b.prevId ∧ b1.prev2 = b.prev2 ∧
              l1 = l ++ ops.map (fun o => (1, o)) := by
            cases hcl : closed with
            | true =>
              obtain ⟨h1, rfl⟩ := hi.idle hcl
              exact ⟨b, l, rfl, h1, rfl, rfl, by simp⟩
            | false =>
              obtain ⟨hd, h1, -⟩ := hi.pend hcl
              obtain ⟨b1, g1, g2, g3, g4⟩ := close h1 (by omega) (t := 1) (by decide)
              exact ⟨b1, _, appendSrc_close hs g1 g2.span g3 g4 hss, g2, g3, g4, rfl⟩
          obtain ⟨b1, l1, k1, k2, k3, k4, rfl⟩ := key
          have hss1 : isSameSpan b1 src o.id o.ref = false := by
            unfold isSameSpan at hss ⊢
            rw [k3, k4]; exact hss
          obtain ⟨b', hd, e1, e2, e3, e4, e5, e6⟩ := append_new hs k2 (by rw [k3, hi.pid]; exact hseq) hss1
          refine ⟨b', _, _, k1.trans e1, ⟨fun h => by simp at h, fun _ => ⟨hd, e2, ?_⟩, e4, e5, hs.valType⟩,
            by omega, fun h hv => whole_new hs hv h hss (k1.trans e1), fun t => by simp⟩
          intro y hy
          obtain ⟨rfl, e7⟩ := e6 y hy
          exact ⟨rfl, fun h => hx e7 h⟩
      obtain ⟨b', l', ops', e1, e2, e3, e5, e4⟩ := hstep
      obtain ⟨b2, text, pre, w, q, f1, f2, f3, f4, f5⟩ := ih e2 hc (by omega)
      refine ⟨b2, text, pre, w, q, ?_, f2, f3, ?_, fun h hw => f5 (e5 h (hw _ (List.mem_cons_self ..)))
        fun w hm => hw w (by simp [hm])⟩
      · rw [doWork, e1, obind, f1]
      · rw [e4, List.append_assoc] at f4
        rw [termAfter, saidBy]
        exact f4

/-- Clean work makes a frame of the grammar that says what it is to say. -/
theorem work_whole {hok : List View → Bool} {works : List Work} {sts : List Step}
    (hf : Same2 (Fits hok) works sts) (hc : CleanFrom hok sts) (hn : sts.length < 2 ^ 32) :
    ∃ b text b', doWork works Builder.init = .ok b ∧ release b = .ok (text, b') ∧
      FrameText Uuid.NIL text (saidBy sts) ∧ ((∀ w ∈ works, WholeWork w) → NoOverlong text) := by
  have hi : Inv hok Builder.init [] Uuid.NIL [.uuid Uuid.FATAL] true false [] :=
    ⟨fun _ => ⟨⟨rfl, [], [], rfl, blank_nil, .nil⟩, rfl⟩, fun h => by simp at h, rfl, rfl, by
      rintro u hu
      simp at hu
      rw [← hu]
      unfold Atom.type; decide⟩
  obtain ⟨b', text, pre, w, q, f1, f2, f3, f4, f5⟩ := doWork_ok hf hi hc (by simpa [Builder.init] using hn)
  cases hd : doWork works Builder.init with
  | ok b =>
    rw [hd, obind] at f1
    refine ⟨b, text, b', rfl, f1, ?_, fun h => (f5 whole_nil h).noOverlong⟩
    rw [f2]
    simpa using frame_of_ops f4 f3
  | abort => rw [hd] at f1; exact absurd f1 (by simp [Out.bind])
  | ub => rw [hd] at f1; exact absurd f1 (by simp [Out.bind])

theorem work_ok {hok : List View → Bool} {works : List Work} {sts : List Step}
    (hf : Same2 (Fits hok) works sts) (hc : CleanFrom hok sts) (hn : sts.length < 2 ^ 32) :
    ∃ b text b', doWork works Builder.init = .ok b ∧ release b = .ok (text, b') ∧
      FrameText Uuid.NIL text (saidBy sts) := by
  obtain ⟨b, text, b', h1, h2, h3, -⟩ := work_whole hf hc hn
  exact ⟨b, text, b', h1, h2, h3⟩

theorem perform_work {fmt : Word → List Byte} : ∀ {calls : List Call},
    (∀ id ref args, .op id ref args ∈ calls → Spec.OpOk fmt id ref args) →
    ∃ works, (∀ b, perform fmt calls b = doWork works b) ∧ Same2 (Fits headOk) works (steps fmt calls) ∧
      ∀ w ∈ works, WholeWork w := by
  intro calls
  induction calls with
  | nil => intro _; exact ⟨[], fun _ => rfl, .nil, by simp⟩
  | cons c calls ih =>
    intro h
    obtain ⟨works, w1, w2, w3⟩ := ih fun id ref args hm => h id ref args (List.mem_cons_of_mem _ hm)
    cases c with
    | endChunk t =>
      refine ⟨.endChunk t :: works, fun b => ?_, .cons (.endChunk t) w2, by
        intro w hw
        rcases List.mem_cons.1 hw with rfl | hw
        · trivial
        · exact w3 w hw⟩
      rw [perform, doWork]
      congr 1
      exact funext w1
    | op id ref args =>
      obtain ⟨o, x, m1, hs, hx⟩ := shown_op (h id ref args (List.mem_cons_self ..))
      refine ⟨.op (writeValue fmt o.src) o.src :: works, fun b => ?_, .cons (.op hs hx) w2, by
        intro w hw
        rcases List.mem_cons.1 hw with rfl | hw
        · exact op_whole (h id ref args (List.mem_cons_self ..)) m1
        · exact w3 w hw⟩
      rw [perform, m1, obind, doWork]
      show (appendSrc _ b o.src).bind _ = _
      congr 1
      exact funext w1

theorem steps_length (fmt : Word → List Byte) : ∀ calls : List Call, (steps fmt calls).length = calls.length
  | [] => rfl
  | .op _ _ _ :: l => by rw [steps, List.length_cons, List.length_cons, steps_length fmt l]
  | .endChunk _ :: l => by rw [steps, List.length_cons, List.length_cons, steps_length fmt l]

/-- Clean calls make a frame of the grammar that says what they say. -/
theorem built_ok {fmt : Word → List Byte} {calls : List Call} (hc : CleanCalls fmt calls)
    (hn : calls.length < 2 ^ 32) :
    ∃ text, built fmt calls = .ok text ∧ FrameText Uuid.NIL text (said fmt calls) ∧ NoOverlong text := by
  obtain ⟨works, w1, w2, w3⟩ := perform_work hc.1
  obtain ⟨b, text, b', f1, f2, f3, f4⟩ := work_whole w2 hc.2 (by rw [steps_length]; exact hn)
  refine ⟨text, ?_, f3, f4 w3⟩
  unfold built
  rw [w1, f1, obind, f2, obind]

end Builder
end Ron
