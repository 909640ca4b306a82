import Verif.Lemmas.TextChain
import Verif.Props.TextMerge
/-!
C89: chains are stored as they were received.
-/
namespace Ron.Props
open Ron Spec TextChain

/-! ## C89 — a chain is stored as it was received -/

/-- `Next` is called this number of times. -/
def advance : Nat → Cursor → Out Cursor
  | 0, c => .ok c
  | n + 1, c => c.next.bind fun r => advance n r.1

/-- The record made of the chain that begins with the op number `k` of the frame. -/
def Recorded (hash : Cursor → Digest → Digest → Digest) (text : List Byte) (k : Nat) (s : Walk)
    (r : Status × List Byte × Walk × Cursor) : Prop :=
  ∃ n c, advance (k + 1) (Cursor.init text) = .ok c ∧ chainRecord hash n s c = .ok (some r)

/-- A frame is read, its op number `pre.length` begins a chain: the record made of it reads as the ops of the chain. -/
def C89_claim : Prop := ∀ (hash : Cursor → Digest → Digest → Digest) (text : List Byte) (pre post : List OpView)
  (x : OpView) (chain rest : List OpView) (s : Walk), Contents text (pre ++ x :: post) .endOfFrame →
  x.id.version = Uuid.vTIME → ChainFrom x.id post chain rest → s.m.id = x.id →
  (x.id.origin = s.base.origin → Uuid.le s.tip x.id = true) →
  ∃ data s' c', Recorded hash text pre.length s (Status.OK, data, s', c') ∧ Contents data (x :: chain) .endOfFrame

theorem advance_trail : ∀ {m0 m : List Cursor} {c c0 : Cursor} {st : Cursor.NextStatus},
    Chains.Trail c0 (m0 ++ c :: m) st → advance (m0.length + 1) c0 = .ok c
  | [], m, c, c0, st, h => by
    cases h with
    | more h1 h2 => rw [List.length_nil, advance, h1, Op.obind, advance]
  | a :: m0, m, c, c0, st, h => by
    cases h with
    | more h1 h2 =>
      rw [List.length_cons, advance, h1, Op.obind]
      exact advance_trail h2

/-- C89: the record of a chain reads as the chain, if its values are such that can be copied, and its runs begin with
plain characters. (Missing from the claim: the frames of the violations.) The metadata is that of the last op, and the
cursor is at the first op after the chain. -/
theorem C89_partial (hash : Cursor → Digest → Digest → Digest) (text : List Byte) (l pre post : List (Nat × OpView))
    (x : Nat × OpView) (chain rest : List OpView) (s : Walk) (hi : Copyable (text, l)) (hl : l = pre ++ x :: post)
    (hn : l.length < 2 ^ 31) (hx : x.2.id.version = Uuid.vTIME) (hc : ChainFrom x.2.id (post.map Prod.snd) chain rest)
    (hr : PlainRuns (x.2 :: chain)) (hm : s.m.id = x.2.id)
    (ht : x.2.id.origin = s.base.origin → Uuid.le s.tip x.2.id = true) :
    ∃ data s' c', Recorded hash text pre.length s (Status.OK, data, s', c') ∧
      FrameText Uuid.NIL data (saidBy ((x.2 :: chain).map Step.op)) ∧ NoOverlong data ∧
      (data.length < 2 ^ 30 → Contents data (x.2 :: chain) .endOfFrame) ∧
      s'.m.id = lastId x.2.id chain ∧ s'.m.object = s.m.object ∧ s'.m.rdt = s.m.rdt ∧
      (rest = [] → c'.cs = 0) ∧ ∀ o, rest.head? = some o → viewOp c' = .ok o := by
  obtain ⟨m0, c, m, t1, t2, t3, t4, t5⟩ := reach hi.size hi.text hl
  have hv : ∀ y ∈ x :: post, ∀ v ∈ y.2.vals, CopyOk v := fun y hy => hi.vals y (by
    show y ∈ l
    rw [hl]; exact List.mem_append_right _ hy)
  obtain ⟨N, works, s', c', w1, w0, w2, w3⟩ := walk_ok hash hi.size hi.short hc t4 t5 rfl
    (fun y hy => hv y (List.mem_cons_of_mem _ hy)) hm hx ht
  have hf := fits_cursor hi.size hi.short t3.1 (hv x (by simp))
  have hlen : ((x.2 :: chain).map Step.op).length < 2 ^ 32 := by
    have := chain_length hc
    rw [hl] at hn
    simp only [List.length_map, List.length_append, List.length_cons] at this hn ⊢
    omega
  obtain ⟨b, data, b', f1, f2, f3, f4⟩ := Builder.work_whole (.cons hf w1) (record_clean hx (from_linked hc) hr) hlen
  obtain ⟨b1, g1, g2⟩ := work_cons f1
  refine ⟨data, s', c', ⟨N, c, ?_, ?_⟩, f3, f4 ?_, fun hd => ?_, w3⟩
  · rw [← t2]; exact advance_trail t1
  · unfold chainRecord saveChainlet
    rw [work_cursor g1, Op.obind, w2 b1 b g2 N (Nat.le_refl _), Op.obind]
    simp only
    rw [if_pos (by decide), f2, Op.obind]
  · intro w hw
    rcases List.mem_cons.1 hw with rfl | hw
    · exact Builder.cursor_whole hi.short (t := x.1) (o := x.2) t3.1
    · exact w0 w hw
  · have := (C20_frames_partial data hd _ f3).1
    rwa [← List.map_cons, saidBy_ops] at this

/-- C89: reading the text of a chain does what the loop on ops does (that the properties of received chains are stated
of): the same status, state of the commit and metadata; the record reads as the ops that the loop on ops put in its
builder. -/
theorem C89_ops_partial (hs : Hashing) (hash : Cursor → Digest → Digest → Digest) (text : List Byte)
    (l pre post : List (Nat × OpView)) (x : Nat × OpView) (g : Nat × OpView → AOp) (s : Walk) (S S' : Commit.Chainlet)
    (z : Status) (ops : List AOp) (hi : Copyable (text, l)) (hl : l = pre ++ x :: post) (hn : l.length < 2 ^ 31)
    (hg1 : ∀ y, (g y).id = y.2.id) (hg2 : ∀ y, (g y).ref = y.2.ref)
    (hg3 : ∀ c y, TextParser.Holds text c y → hash c = hs.op (g y)) (hx : x.2.id.version = Uuid.vTIME)
    (hr : ∀ p ∈ l, ∀ o ∈ l, folds p.2.id p.2.vals o.2 = true → copyHeadOk p.2.vals = true)
    (hm : s.m.id = x.2.id) (hlk : Like S s)
    (h : Commit.chainletLoop hs Status.ENDOFFRAME S (post.map g) = some (z, S', ops)) :
    ∃ data s' c' taken rest, Recorded hash text pre.length s (z, data, s', c') ∧ Like S' s' ∧
      S'.to = (taken.map g).foldl ABuilder.append S.to ∧ ops = rest.map g ∧
      (z.ok = true → NoOverlong data ∧ (data.length < 2 ^ 30 → Contents data ((x :: taken).map Prod.snd) .endOfFrame)) ∧
      (z.ok = false → data = []) ∧
      (rest = [] → c'.cs = 0) ∧ ∀ o, rest.head? = some o → viewOp c' = .ok o.2 := by
  obtain ⟨m0, c, m, t1, t2, t3, t4, t5⟩ := reach hi.size hi.text hl
  have hv : ∀ y ∈ x :: post, ∀ v ∈ y.2.vals, CopyOk v := fun y hy => hi.vals y (by
    show y ∈ l
    rw [hl]; exact List.mem_append_right _ hy)
  obtain ⟨N, works, s', c', taken, rest, w1, ⟨w0, w4, w5⟩, w2, w3, w6, w7, w8⟩ := walk_refines _ hash hi.size hi.short g hg1
    hg2 hg3 t4 t5 (fun y hy => hv y (List.mem_cons_of_mem _ hy)) hlk h
  have hf := fits_cursor hi.size hi.short t3.1 (hv x (by simp))
  have hin : ∀ y ∈ x :: taken, y ∈ l := by
    intro y hy
    rw [hl]
    refine List.mem_append_right _ ?_
    rcases List.mem_cons.1 hy with rfl | hy
    · simp
    · exact List.mem_cons_of_mem _ (w4.2 y hy)
  have hp : PlainRuns (x.2 :: taken.map Prod.snd) := by
    rw [← List.map_cons (f := Prod.snd)]
    refine plainRuns_of fun p hp o ho => ?_
    obtain ⟨p', hp', rfl⟩ := List.mem_map.1 hp
    obtain ⟨o', ho', rfl⟩ := List.mem_map.1 ho
    exact hr p' (hin p' hp') o' (hin o' ho')
  have hlen : ((x.2 :: taken.map Prod.snd).map Step.op).length < 2 ^ 32 := by
    have := w4.1
    rw [hl] at hn
    simp only [List.length_map, List.length_append, List.length_cons] at this hn ⊢
    omega
  rw [hm] at w5
  have w1' : Same2 (Builder.Fits copyHeadOk) works ((taken.map Prod.snd).map Step.op) := by
    rw [List.map_map]; exact w1
  obtain ⟨b, data, b', f1, f2, f3, f4⟩ := Builder.work_whole (.cons hf w1') (record_clean hx w5 hp) hlen
  obtain ⟨b1, g1, g2⟩ := work_cons f1
  have hw : ∀ w ∈ Builder.Work.op (Builder.copyValue c) c.src :: works, Builder.WholeWork w := by
    intro w hw
    rcases List.mem_cons.1 hw with rfl | hw
    · exact Builder.cursor_whole hi.short (t := x.1) (o := x.2) t3.1
    · exact w0 w hw
  have hrec : Recorded hash text pre.length s (z, if z.ok = true then data else [], s', c') := by
    refine ⟨N, c, ?_, ?_⟩
    · rw [← t2]; exact advance_trail t1
    · unfold chainRecord saveChainlet
      rw [work_cursor g1, Op.obind, w2 b1 b g2 N (Nat.le_refl _), Op.obind]
      simp only
      split
      · rw [f2, Op.obind]
      · rfl
  refine ⟨_, s', c', taken, rest, hrec, w3, w6, w7, fun hz => ?_, fun hz => ?_, w8⟩
  · rw [if_pos hz]
    refine ⟨f4 hw, fun hd => ?_⟩
    have := (C20_frames_partial data hd _ f3).1
    have e : Step.op x.2 :: List.map Step.op (List.map Prod.snd taken) = ((x :: taken).map Prod.snd).map Step.op := rfl
    rwa [e, saidBy_ops] at this
  · rw [if_neg (by rw [hz]; decide)]

theorem recorded_unique {hash : Cursor → Digest → Digest → Digest} {text : List Byte} {k : Nat} {s : Walk}
    {r r' : Status × List Byte × Walk × Cursor} (h : Recorded hash text k s r) (h' : Recorded hash text k s r') :
    r = r' := by
  obtain ⟨n, c, h1, h2⟩ := h
  obtain ⟨n', c', h1', h2'⟩ := h'
  rw [h1] at h1'
  injection h1' with e
  subst e
  have a := record_mono hash h2 n'
  have b := record_mono hash h2' n
  rw [Nat.add_comm n' n, a] at b
  injection b with b
  injection b

/-- The record of the chain that the frame begins with, and what it reads as. -/
def record0 (text : List Byte) (s : Walk) : Out (Option (Status × List Byte × Walk × Cursor)) :=
  (advance 1 (Cursor.init text)).bind fun c => chainRecord (fun _ _ _ => []) 20 s c
def walk0 (id : Uuid) : Walk := ⟨{ OpMeta.nil with id := id }, Uuid.NIL, Uuid.NIL, Uuid.NIL⟩

def next0 (p : Uuid) (o : OpView) : Bool :=
  decide (o.id.version = Uuid.vTIME) && decide (o.id.origin = p.origin) && Uuid.lt p o.id && decide (o.ref = p)
def chained0 : Uuid → List OpView → Bool
  | _, [] => true
  | p, o :: l => next0 p o && chained0 o.id l

theorem chained0_from : ∀ {p : Uuid} {l : List OpView}, chained0 p l = true → ChainFrom p l l []
  | p, [], _ => .done p
  | p, o :: l, h => by
    unfold chained0 next0 at h
    simp only [Bool.and_eq_true, decide_eq_true_eq] at h
    exact .next h.1.1.1.1 h.1.1.1.2 h.1.1.2 h.1.2 (chained0_from h.2)

/-- The frame is one chain, and its record reads as something else. -/
def misstored (text : List Byte) : Bool :=
  match readOps 20 text with
  | .ok (some (x :: l, .endOfFrame)) =>
    decide (x.id.version = Uuid.vTIME) && chained0 x.id l && decide (x.id.origin ≠ 0#64) &&
    match record0 text (walk0 x.id) with
    | .ok (some (_, data, _, _)) =>
      match readOps 20 data with
      | .ok (some (l', st)) => decide ((l', st) ≠ (x :: l, .endOfFrame))
      | _ => false
    | _ => false
  | _ => false

theorem misstores {text : List Byte} (h : misstored text = true) : ¬ C89_claim := by
  intro hc
  unfold misstored at h
  split at h
  · rename_i x l h1
    simp only [Bool.and_eq_true, decide_eq_true_eq] at h
    obtain ⟨⟨⟨h2, h3⟩, h4⟩, h⟩ := h
    obtain ⟨data, s', c', r1, r2⟩ := hc (fun _ _ _ => []) text [] l x l [] (walk0 x.id) (contents_of 20 h1) h2
      (chained0_from h3) rfl (fun e => absurd e h4)
    split at h
    · rename_i st data' s1 c1 h5
      unfold record0 at h5
      obtain ⟨c2, h6, h7⟩ := Cursor.bind_ok h5
      have e := recorded_unique ⟨20, c2, h6, h7⟩ r1
      injection e with _ e
      injection e with e _
      subst e
      split at h
      · rename_i l' st' h8
        obtain ⟨e1, e2⟩ := Chains.contents_unique (contents_of 20 h8) r2
        rw [e1, e2] at h
        simp at h
      · simp at h
    · simp at h
  · simp at h

/-- C89 is violated: an array, a line feed and two letters put in one after another; the record says `n`, a backspace
and `c`. -/
theorem C89_violated : ¬ C89_claim :=
  misstores (text := lit "@1+A :rga, '\\n', 'b', 'c';\n") (by decide +kernel)

/-- C89 is violated: a float that is written as one is stored as something else. -/
theorem C89_float_violated : ¬ C89_claim :=
  misstores (text := lit "@1+A :lww, 'x' ^1e5;\n") (by decide +kernel)

/-- A chain of an object, and an op of somebody else after it. -/
def calls89 : List Call := [.op (tid 5 1) lwwName [], .op (tid 7 1) (tid 5 1) [.uuid (denote 0 (lit "abc") 0 []), .int 1],
  .op (tid 9 1) (tid 7 1) [.str (lit "it's")], .op (tid 9 3) (tid 5 1) [.int 2], .endChunk 0]

-- The hypotheses of `C89_partial` and of `C89_ops_partial`, for the chain that begins with the first op.
example : ∃ pre x post chain rest, Copyable (frame84 calls89) ∧ (frame84 calls89).2 = pre ++ x :: post ∧
    x.2.id.version = Uuid.vTIME ∧ ChainFrom x.2.id (post.map Prod.snd) chain rest ∧ PlainRuns (x.2 :: chain) ∧
    (walk0 x.2.id).m.id = x.2.id ∧ chain.length = 2 ∧ rest.length = 1 := by
  have hc : Copyable (frame84 calls89) := copyable_lit (by decide +kernel)
  match e : (frame84 calls89).2 with
  | [x, a, b, d] =>
    have k : (match (frame84 calls89).2 with
      | [x, a, b, d] => decide (x.2.id.version = Uuid.vTIME) && chained0 x.2.id [a.2, b.2] && !decide (d.2.ref = b.2.id) &&
          !decide (d.2.id = COMMENT) &&
          decide (¬ folds x.2.id x.2.vals a.2 = true) && decide (¬ folds a.2.id a.2.vals b.2 = true)
      | _ => false) = true := by decide +kernel
    rw [e] at k
    simp only [Bool.and_eq_true, decide_eq_true_eq, chained0, next0, Bool.not_eq_true', decide_eq_false_iff_not,
      and_true] at k
    obtain ⟨⟨⟨⟨⟨k1, ⟨⟨⟨k2, k3⟩, k4⟩, k5⟩, ⟨⟨k6, k7⟩, k8⟩, k9⟩, k10⟩, k11⟩, k12⟩, k13⟩ := k
    exact ⟨[], x, [a, b, d], [a.2, b.2], [d.2], hc, rfl, k1, .next k2 k3 k4 k5 (.next k6 k7 k8 k9 (.other k11 k10)),
      ⟨fun h => absurd h k12, fun h => absurd h k13, trivial⟩, rfl, rfl, rfl⟩
  | [] | [_] | [_, _] | [_, _, _] | _ :: _ :: _ :: _ :: _ :: _ =>
    have k : (frame84 calls89).2.length = 4 := by decide +kernel
    rw [e] at k; simp at k

end Ron.Props
