import Verif.Props.TextObjects
import Verif.Props.TextLog
import Verif.Model.TextQuery
import Verif.Spec.TextQuery
/-!
C114: queries of objects are answered with the states of the objects.
-/
namespace Ron.Props
open Ron Spec Commit TextReplica TextParser

/-- What comes of a frame of queries when the loops may run long enough. -/
def AnswersText (mx : MaxReducer) (A : List Entry) (text : List Byte) (r : Status × List Byte) : Prop :=
  ∃ N, ∀ n, N ≤ n → ask mx n (A.map Entry.bytes) text = .ok (some r)

/-- The object is a register, a set or a yarn, or an array of no more than three chains. -/
def Simple (H : List Chain) (c : Chain) : Prop :=
  IdForm (uuid2form c.rdt) ∨
    uuid2form c.rdt = Form.RGA ∧ (H.filter fun d => decide (d.object = c.object)).length ≤ 3

/-- The state of the object can be written (`C113`). -/
def Written (A : List Entry) (c : Chain) : Prop :=
  IdForm (uuid2form c.rdt) ∧ Mixes A (Key.ofUuids c.object c.rdt) ∨
    uuid2form c.rdt = Form.RGA ∧ Mixable (opsAt A (Key.ofUuids c.object c.rdt)) ∧
      (opsAt A (Key.ofUuids c.object c.rdt)).length < 2 ^ 31

/-- C114: a store of texts is asked for objects it has and the states of which can be written. The response is read as the
states of the objects, in the order they were asked for. -/
def C114_claim : Prop := ∀ (R : Reading) (mx : MaxReducer) (H : List Chain) (note : Uuid → List Nat) (A : List Entry)
  (cs : List Chain) (text : List Byte), Lineage H → TellsAs true R H note A → Short mx (A.map Entry.bytes) →
  (∀ c ∈ cs, c ∈ H ∧ Simple H c ∧ Written A c) → QueryText text (cs.map fun c => (c.object, c.rdt)) →
  ∃ reply parts, AnswersText mx A text (Status.OK, reply) ∧ Same2 (fun p c => IsState H c (p.map R.op)) parts cs ∧
    (reply.length < 2 ^ 30 → Contents reply parts.flatten .endOfFrame)

/-- The ops of the objects. -/
def opsAsked (A : List Entry) (cs : List Chain) : List OpView := cs.flatMap fun c => opsAt A (Key.ofUuids c.object c.rdt)

/-- The state of an object the store has. -/
theorem object_state {R : Reading} {mx : MaxReducer} {H : List Chain} {note : Uuid → List Nat} {A : List Entry} {c : Chain}
    (L : Lineage H) (hT : TellsAs true R H note A) (hs : Short mx (A.map Entry.bytes)) (hc : c ∈ H) (h1 : Simple H c)
    (h2 : Written A c) : ∃ text l, ReadsText mx A (Key.ofUuids c.object c.rdt) text ∧ Copyable (text, l) ∧
      (∀ x ∈ l, x.2 ∈ opsAt A (Key.ofUuids c.object c.rdt)) ∧ l.length ≤ (opsAt A (Key.ofUuids c.object c.rdt)).length ∧
      IsState H c ((l.map Prod.snd).map R.op) := by
  have hlen : ∀ out : List OpView, (saidBy (mergedSteps out)).length = out.length := fun out => by
    have := congrArg List.length (TextMerge.saidBy_merged out)
    rwa [List.length_map] at this
  have hmem : ∀ (out : List OpView), ∀ x ∈ saidBy (mergedSteps out), x.2 ∈ out := fun out x hx => by
    have : x.2 ∈ (saidBy (mergedSteps out)).map Prod.snd := List.mem_map_of_mem hx
    rwa [TextMerge.saidBy_merged] at this
  rcases h2 with ⟨hf, hm⟩ | ⟨hf, hm, hl⟩
  · obtain ⟨text, out, g1, g2, g3, g4, g5, g6⟩ := state_text R mx H note A c L
      (by obtain ⟨s, hS, K⟩ := hT; exact ⟨true, s, hS, K⟩) hs hc hf hm
    refine ⟨text, _, g1, g2, fun x hx => g3 _ (hmem _ x hx), by rw [hlen]; exact g4, fun e => ?_, fun _ => ?_⟩
    · rw [e] at hf
      rcases hf with h | h | h <;> exact absurd h (by decide)
    · rw [TextMerge.saidBy_merged]
      exact ⟨g5, g6⟩
  · have h3 : (H.filter fun d => decide (d.object = c.object)).length ≤ 3 := by
      rcases h1 with h | h
      · rw [hf] at h
        rcases h with h | h | h <;> exact absurd h (by decide)
      · exact h.2
    obtain ⟨text, out, g1, g2, g3, g4, g5, g6⟩ := array_text R mx H note A c L hT hs hc hf h3 hm hl
    refine ⟨text, _, g1, g2, fun x hx => g3 _ (hmem _ x hx), by rw [hlen]; omega, fun _ => ?_, fun e => absurd hf e⟩
    rw [TextMerge.saidBy_merged]
    exact ⟨g5, g6⟩

/-- A frame that is put into the response. -/
theorem appendFrame_ok {i : List Byte × List (Nat × OpView)} (hi : Copyable i) :
    ∃ ws N0, Same2 (Builder.Fits copyHeadOk) ws (copySteps i.2) ∧ ∀ b b', Builder.doWork ws b = .ok b' → ∀ n, N0 ≤ n →
      b.appendFrame n i.1 = .ok (some b') := by
  obtain ⟨m, h1, -, -, h2⟩ := TextParser.frame_trail hi.size hi.text (cur := Cursor.init i.1)
    ⟨rfl, rfl, rfl, .inr ⟨rfl, rfl⟩⟩ Cursor.type_nil rfl
  have hat : Same2 TextMerge.At m i.2 := by
    have key : ∀ {m : List Cursor} {l : List (Nat × OpView)}, Same2 (TextParser.Holds i.1) m l →
        (∀ x ∈ l, ∀ v ∈ x.2.vals, CopyOk v) → Same2 TextMerge.At m l := by
      intro m l h
      induction h with
      | nil => intro _; exact .nil
      | cons h _ ih =>
        intro hv
        exact .cons ⟨i.1, hi.size, hi.short, h, hv _ (by simp)⟩ (ih fun y hy => hv y (by simp [hy]))
    exact key h2 hi.vals
  generalize i.2 = l at hat
  cases h1 with
  | stop hn hne =>
    cases hat
    refine ⟨[], 0, .nil, fun b b' hw n _ => ?_⟩
    unfold Builder.appendFrame
    rw [hn, Op.obind]
    simp only [if_neg hne]
    simp only [Builder.doWork] at hw
    injection hw with hw
    rw [hw]
  | @more _ c m _ hn ht =>
    cases hat with
    | @cons _ x _ l hc hm =>
      obtain ⟨ws, N0, g1, g2⟩ := TextMerge.appendAll_ok ⟨x, l, rfl, m, _, ht, hc, hm⟩
      refine ⟨ws, N0, g1, fun b b' hw n hN => ?_⟩
      unfold Builder.appendFrame
      rw [hn, Op.obind]
      simp only [if_true]
      exact g2 b b' hw n hN

/-- The query can be answered: it is a query of an object, and what is read of the store is the frame. -/
def Replies (mx : MaxReducer) (A : List Entry) (q : Nat × OpView) (i : List Byte × List (Nat × OpView)) : Prop :=
  (q.1 = 3 ∧ q.2.id.version = Uuid.vTIME ∧ uuid2form q.2.ref ∈ objectForms) ∧
    ReadsText mx A (Key.ofUuids q.2.id q.2.ref) i.1 ∧ Copyable i

/-- The loop over the queries. -/
theorem answerLoop_ok {mx : MaxReducer} {A : List Entry} {buf : List Byte} :
    ∀ {qs : List (Nat × OpView)} {is : List (List Byte × List (Nat × OpView))} {cur : Cursor} {m : List Cursor} {st}
      , Chains.Trail cur m st → Same2 (Holds buf) m qs → Same2 (Replies mx A) qs is →
    ∃ ws N0, Same2 (Builder.Fits copyHeadOk) ws (copySteps (is.map Prod.snd).flatten) ∧
      ∀ b b', Builder.doWork ws b = .ok b' → ∀ n k, N0 ≤ n → N0 ≤ k → ∃ c s, cur.next = .ok (c, s) ∧
        answerLoop mx n (A.map Entry.bytes) k b c = .ok (some (.done Status.OK b'))
  | _, _, _, _, _, ht, hq, .nil => by
    cases hq
    cases ht with
    | stop hn hne =>
      refine ⟨[], 1, .nil, fun b b' hw n k _ hk => ⟨_, _, hn, ?_⟩⟩
      obtain ⟨j, rfl⟩ : ∃ j, k = j + 1 := ⟨k - 1, by omega⟩
      simp only [Builder.doWork] at hw
      injection hw with hw
      rw [answerLoop, if_pos, hw]
      unfold Cursor.valid
      rw [Builder.next_invalid hn hne]
      decide
  | _, _, _, _, _, ht, hq, .cons hr hrs => by
    cases hq with
    | cons hh hq =>
    cases ht with
    | more hn ht =>
    obtain ⟨ws, N0, g1, g2⟩ := answerLoop_ok ht hq hrs
    obtain ⟨⟨r1, r2, r3⟩, ⟨N1, hr⟩, hi⟩ := hr
    obtain ⟨ws', N2, f1, f2⟩ := appendFrame_ok hi
    refine ⟨ws' ++ ws, N0 + N1 + N2 + 1, ?_, fun b b' hw n k hN hk => ⟨_, _, hn, ?_⟩⟩
    · rw [List.map_cons, List.flatten_cons, TextMerge.copySteps_append]
      exact same2_append f1 g1
    · obtain ⟨b1, w1, w2⟩ := TextMerge.work_append hw
      obtain ⟨j, rfl⟩ : ∃ j, k = j + 1 := ⟨k - 1, by omega⟩
      obtain ⟨c', s', hc', ha⟩ := g2 b1 b' w2 n j (by omega) (by omega)
      rw [answerLoop, if_neg (by unfold Cursor.valid; rw [hh.cs]; decide), TextChain.heading_holds hh]
      simp only
      rw [if_pos ⟨r2, by rw [hh.term]; exact r1, r3⟩]
      unfold TextReplica.queryObject
      rw [hr n (by omega), Op.obind]
      simp only
      rw [if_neg (by decide), f2 b b1 w1 n (by omega), Op.obind]
      simp only
      rw [Op.obind]
      simp only
      rw [if_neg (by decide), hc', Op.obind]
      exact ha

/-- The whole of it, for frames of any states. -/
theorem ask_ok {mx : MaxReducer} {A : List Entry} {text : List Byte} {qs : List (Nat × OpView)}
    {is : List (List Byte × List (Nat × OpView))} (ht : FrameText Uuid.NIL text qs) (hn : text.length < 2 ^ 30)
    (hr : Same2 (Replies mx A) qs is) (hc : CleanFrom copyHeadOk (copySteps (is.map Prod.snd).flatten))
    (hl : (is.map Prod.snd).flatten.length < 2 ^ 31) :
    ∃ reply, AnswersText mx A text (Status.OK, reply) ∧
      (reply.length < 2 ^ 30 → Contents reply ((is.map Prod.snd).flatten.map Prod.snd) .endOfFrame) := by
  obtain ⟨m, h1, -, -, h2⟩ := TextParser.frame_trail hn ht (cur := Cursor.init text)
    ⟨rfl, rfl, rfl, .inr ⟨rfl, rfl⟩⟩ Cursor.type_nil rfl
  obtain ⟨ws, N0, g1, g2⟩ := answerLoop_ok h1 h2 hr
  have hlen := Builder.copySteps_length (is.map Prod.snd).flatten
  obtain ⟨b, reply, b', f1, f2, f3⟩ := Builder.work_ok g1 hc (by omega)
  refine ⟨reply, ⟨N0, fun n hN => ?_⟩, fun hs => ?_⟩
  · obtain ⟨c, s, e1, e2⟩ := g2 _ b f1 n n hN hN
    unfold ask
    rw [e1, Op.obind, e2, Op.obind]
    simp only
    rw [f2, Op.obind]
  · have := (C20_frames_partial reply hs _ f3).1
    rwa [Builder.saidBy_copy] at this

theorem same2_map {α β γ : Type} {P : α → β → Prop} (f : α → γ) : ∀ {l : List α} {cs : List β}, Same2 P l cs →
    ∀ {Q : γ → β → Prop}, (∀ x c, P x c → Q (f x) c) → Same2 Q (l.map f) cs
  | _, _, .nil, _, _ => .nil
  | _, _, .cons h t, _, hQ => .cons (hQ _ _ h) (same2_map f t hQ)

/-- The answer is there for queries of objects of the store: the frames. -/
theorem replies_some {R : Reading} {mx : MaxReducer} {H : List Chain} {note : Uuid → List Nat} {A : List Entry}
    (L : Lineage H) (hT : TellsAs true R H note A) (hs : Short mx (A.map Entry.bytes)) : ∀ {cs : List Chain}
    {l : List (Nat × OpView)}, (∀ c ∈ cs, c ∈ H ∧ Simple H c ∧ Written A c) →
    (l.map fun x => (x.2.id, x.2.ref)) = (cs.map fun c => (c.object, c.rdt)) → (∀ x ∈ l, x.1 = 3) →
    ∃ is, Same2 (Replies mx A) l is ∧
      Same2 (fun i c => IsState H c ((i.2.map Prod.snd).map R.op)) is cs ∧
      (∀ x ∈ (is.map Prod.snd).flatten, x.2 ∈ opsAsked A cs ∧ (x.1 = 1 ∨ x.1 ∈ [0, 2, 3])) ∧
      (is.map Prod.snd).flatten.length ≤ (opsAsked A cs).length
  | [], [], _, _, _ => ⟨[], .nil, .nil, (fun _ h => nomatch h), Nat.le_refl _⟩
  | c :: cs, x :: l, h, e, h3 => by
    rw [List.map_cons, List.map_cons] at e
    injection e with e1 e2
    injection e1 with e3 e4
    obtain ⟨is, g1, g2, g3, g4⟩ := replies_some L hT hs (fun d hd => h d (List.mem_cons_of_mem _ hd)) e2
      fun y hy => h3 y (List.mem_cons_of_mem _ hy)
    obtain ⟨hc, k1, k2⟩ := h c List.mem_cons_self
    obtain ⟨text, l', f1, f2, f3, f4, f5⟩ := object_state L hT hs hc k1 k2
    refine ⟨(text, l') :: is, .cons ⟨⟨h3 x List.mem_cons_self, ?_, ?_⟩, ?_, f2⟩ g1, .cons f5 g2, fun y hy => ?_, ?_⟩
    · rw [e3]
      exact (L.object c hc).1.time
    · rw [e4]
      unfold objectForms
      rcases k1 with (h | h | h) | ⟨h, -⟩ <;> rw [h] <;> decide
    · rw [e3, e4]; exact f1
    · rw [List.map_cons, List.flatten_cons] at hy
      unfold opsAsked
      rw [List.flatMap_cons]
      rcases List.mem_append.1 hy with hy | hy
      · exact ⟨List.mem_append_left _ (f3 y hy), frameText_terms f2.text y hy⟩
      · exact ⟨List.mem_append_right _ (g3 y hy).1, (g3 y hy).2⟩
    · unfold opsAsked at g4 ⊢
      rw [List.map_cons, List.flatten_cons, List.flatMap_cons, List.length_append, List.length_append]
      exact Nat.add_le_add f4 g4
  | [], _ :: _, _, e, _ => nomatch e
  | _ :: _, [], _, e, _ => nomatch e

/-- C114: it is so if no op is folded with another by the builder (`NoRuns`), and the ops of the objects can stand next to
each other. Missing from the claim: the runs of letters of the violation; an object whose first op has the next id after an
op of the object asked for before it; 2^31 ops. -/
theorem C114_partial (R : Reading) (mx : MaxReducer) (H : List Chain) (note : Uuid → List Nat) (A : List Entry)
    (cs : List Chain) (text : List Byte) (L : Lineage H) (hT : TellsAs true R H note A)
    (hs : Short mx (A.map Entry.bytes)) (hcs : ∀ c ∈ cs, c ∈ H ∧ Simple H c ∧ Written A c)
    (hq : QueryText text (cs.map fun c => (c.object, c.rdt))) (hm : Mixable (opsAsked A cs)) (hn : NoRuns (opsAsked A cs))
    (hl : (opsAsked A cs).length < 2 ^ 31) :
    ∃ reply parts, AnswersText mx A text (Status.OK, reply) ∧ Same2 (fun p c => IsState H c (p.map R.op)) parts cs ∧
      (reply.length < 2 ^ 30 → Contents reply parts.flatten .endOfFrame) := by
  obtain ⟨l, h1, h2, h3⟩ := hq.reads
  obtain ⟨is, g1, g2, g3, g4⟩ := replies_some L hT hs hcs h2 h3
  obtain ⟨reply, k1, k2⟩ := ask_ok h1 hq.size g1 (copy_cleanFrom hm hn _ g3) (by omega)
  refine ⟨reply, is.map fun i => i.2.map Prod.snd, k1, same2_map _ g2 fun _ _ h => h, fun hr => ?_⟩
  have := k2 hr
  rw [List.map_flatten, List.map_map] at this
  exact this

/-- The state of an object is the same in two histories of the same events. -/
theorem state_same {H G : List Chain} (L : Lineage H) (L' : Lineage G) (h : SameEvents (eventsOf H) (eventsOf G))
    {c d : Chain} (e : (c.object, c.rdt) = (d.object, d.rdt)) {a b : List AOp} (ha : IsState H c a) (hb : IsState G d b) :
    a.map bare = b.map bare := by
  injection e with e1 e2
  unfold IsState at hb
  rw [← e1, ← e2] at hb
  have hse := L.objects_same L' h c.object
  by_cases hf : uuid2form c.rdt = Form.RGA
  · have same : ∀ o, o ∈ (eventsIn H c.object).map bare ↔ ∃ a ∈ (eventsIn G c.object).map bare, bare a = o := by
      intro o
      constructor
      · intro ho
        obtain ⟨a, ha, rfl⟩ := List.mem_map.1 ho
        obtain ⟨b, hb, e⟩ := (hse a.body).1 ⟨a, ha, rfl⟩
        exact ⟨bare b, List.mem_map_of_mem hb, bare_eq e⟩
      · rintro ⟨a, ha, rfl⟩
        obtain ⟨b, hb, rfl⟩ := List.mem_map.1 ha
        obtain ⟨a, ha, e⟩ := (hse b.body).2 ⟨b, hb, rfl⟩
        exact List.mem_map.2 ⟨a, ha, bare_eq e⟩
    obtain ⟨-, k⟩ := weave_bare (hb.1 hf).1 (ha.1 hf).1.unique same (hb.1 hf).2
    rw [Rdt.weave_unique (ha.1 hf).1 (ha.1 hf).2 k, List.map_map]
    rfl
  · obtain ⟨h1, h2⟩ := ha.2 hf
    obtain ⟨h3, h4⟩ := hb.2 hf
    exact bares_eq (Rdt.sorted_unique _ _ h1 h3 fun b => (h2 b).trans ((hse b).trans (h4 b).symm))

theorem parts_same {R R' : Reading} {H G : List Chain} (L : Lineage H) (L' : Lineage G)
    (h : SameEvents (eventsOf H) (eventsOf G)) : ∀ {ps qs : List (List OpView)} {cs ds : List Chain},
    Same2 (fun p c => IsState H c (p.map R.op)) ps cs → Same2 (fun p c => IsState G c (p.map R'.op)) qs ds →
    (ds.map fun c => (c.object, c.rdt)) = (cs.map fun c => (c.object, c.rdt)) →
    ps.flatten.map R.op = qs.flatten.map R'.op
  | _, _, _, _, .nil, .nil, _ => rfl
  | _, _, _, _, .cons h1 t1, .cons h2 t2, e => by
    rw [List.map_cons, List.map_cons] at e
    injection e with e1 e2
    rw [List.flatten_cons, List.flatten_cons, List.map_append, List.map_append, parts_same L L' h t1 t2 e2]
    have := state_same L L' h e1.symm h1 h2
    rw [List.map_map, List.map_map] at this
    exact congrArg (· ++ _) this
  | _, _, _, _, .nil, .cons _ _, e => nomatch e
  | _, _, _, _, .cons _ _, .nil, e => nomatch e

/-- C114: two stores of texts that have the same events answer a frame of queries alike, whatever the frames were and the
order they came in. -/
theorem C114_same_partial (R R' : Reading) (mx mx' : MaxReducer) (H G : List Chain) (note note' : Uuid → List Nat)
    (A B : List Entry) (L : Lineage H) (hT : TellsAs true R H note A) (L' : Lineage G) (hT' : TellsAs true R' G note' B)
    (h : SameEvents (eventsOf H) (eventsOf G)) (hs : Short mx (A.map Entry.bytes)) (hs' : Short mx' (B.map Entry.bytes))
    (cs ds : List Chain) (text : List Byte) (hcs : ∀ c ∈ cs, c ∈ H ∧ Simple H c ∧ Written A c)
    (hds : ∀ c ∈ ds, c ∈ G ∧ Simple G c ∧ Written B c)
    (e : (ds.map fun c => (c.object, c.rdt)) = (cs.map fun c => (c.object, c.rdt)))
    (hq : QueryText text (cs.map fun c => (c.object, c.rdt))) (hm : Mixable (opsAsked A cs)) (hn : NoRuns (opsAsked A cs))
    (hl : (opsAsked A cs).length < 2 ^ 31) (hm' : Mixable (opsAsked B ds)) (hn' : NoRuns (opsAsked B ds))
    (hl' : (opsAsked B ds).length < 2 ^ 31) :
    ∃ reply reply' ops ops', AnswersText mx A text (Status.OK, reply) ∧ AnswersText mx' B text (Status.OK, reply') ∧
      (reply.length < 2 ^ 30 → Contents reply ops .endOfFrame) ∧
      (reply'.length < 2 ^ 30 → Contents reply' ops' .endOfFrame) ∧ ops.map R.op = ops'.map R'.op := by
  obtain ⟨reply, ps, g1, g2, g3⟩ := C114_partial R mx H note A cs text L hT hs hcs hq hm hn hl
  obtain ⟨reply', qs, k1, k2, k3⟩ := C114_partial R' mx' G note' B ds text L' hT' hs' hds (by rw [e]; exact hq) hm' hn' hl'
  exact ⟨reply, reply', _, _, g1, k1, g3, k3, parts_same L L' h g2 k2 e⟩

/-- C114: an object that the store does not have, or not of this type, has an empty state, and that is the answer. -/
theorem C114_unknown (R : Reading) (mx : MaxReducer) (H : List Chain) (note : Uuid → List Nat) (A : List Entry)
    (text : List Byte) (L : Lineage H) (hT : Tells R H note A) (qs : List (Uuid × Uuid)) (hq : QueryText text qs)
    (hu : ∀ q ∈ qs, Stamp q.1 ∧ StateForm (uuid2form q.2) ∧
      ∀ c ∈ H, c.object = q.1 → uuid2form c.rdt ≠ uuid2form q.2) :
    AnswersText mx A text (Status.OK, []) := by
  obtain ⟨l, h1, rfl, h3⟩ := hq.reads
  obtain ⟨wh, s, hS, K⟩ := hT
  have hnil : Copyable (([] : List Byte), ([] : List (Nat × OpView))) :=
    ⟨.stop (fun _ h => nomatch h), by decide, trivial, (fun _ h => nomatch h)⟩
  have hr : Same2 (Replies mx A) l (l.map fun _ => ([], [])) := by
    have key : ∀ {l : List (Nat × OpView)}, (∀ x ∈ l, Replies mx A x ([], [])) →
        Same2 (Replies mx A) l (l.map fun _ => ([], [])) := by
      intro l
      induction l with
      | nil => intro _; exact .nil
      | cons x l ih => intro h; exact .cons (h x List.mem_cons_self) (ih fun y hy => h y (List.mem_cons_of_mem _ hy))
    refine key fun x hx => ?_
    obtain ⟨u1, u2, u3⟩ := hu _ (List.mem_map_of_mem (f := fun x : Nat × OpView => (x.2.id, x.2.ref)) hx)
    simp only at u1 u2 u3
    have hform : (Key.ofUuids x.2.id x.2.ref).form = uuid2form x.2.ref := form_mk _ _
    obtain ⟨f1, f2, f3, f4⟩ := stateForm_ne u2
    have hst := K.state (Key.ofUuids x.2.id x.2.ref) (by rw [hform]; exact f2) (by rw [hform]; exact f3)
      (by rw [hform]; exact f1)
    have hemp : stored (Key.ofUuids x.2.id x.2.ref) s = [] := by
      cases hst' : stored (Key.ofUuids x.2.id x.2.ref) s with
      | nil => rfl
      | cons f fs =>
        obtain ⟨p1, p2⟩ := hst.part f (by rw [hst']; exact List.mem_cons_self)
        cases f with
        | nil => exact absurd rfl p1
        | cons o f =>
          obtain ⟨c, hc, -⟩ := p2 o List.mem_cons_self
          obtain ⟨hc, e⟩ := List.mem_filter.1 hc
          obtain ⟨e1, e2⟩ := C08_key_injective _ _ _ _ (L.object c hc).1.event u1.event (of_decide_eq_true e)
          exact absurd e2 (u3 c hc e1)
    have hat := says_at hS (Key.ofUuids x.2.id x.2.ref)
    rw [hemp] at hat
    refine ⟨⟨h3 x hx, u1.time, ?_⟩, ⟨0, fun n _ => ?_⟩, hnil⟩
    · unfold objectForms
      rcases u2 with (h | h | h) | h <;> rw [h] <;> decide
    · have : operands (A.map Entry.bytes) (Key.ofUuids x.2.id x.2.ref) = [] := by
        rw [operands_bytes]
        generalize entriesAt A (Key.ofUuids x.2.id x.2.ref) = es at hat
        cases hat
        rfl
      unfold TextReplica.read
      rw [this, if_neg (show Key.ofUuids x.2.id x.2.ref ≠ Key.END from key_ne_end f4)]
  have hflat : ((l.map fun _ => (([] : List Byte), ([] : List (Nat × OpView)))).map Prod.snd).flatten = [] := by
    rw [List.map_map, List.flatten_eq_nil_iff]
    intro y hy
    obtain ⟨_, -, rfl⟩ := List.mem_map.1 hy
    rfl
  obtain ⟨m, t1, -, -, t2⟩ := TextParser.frame_trail hq.size h1 (cur := Cursor.init text)
    ⟨rfl, rfl, rfl, .inr ⟨rfl, rfl⟩⟩ Cursor.type_nil rfl
  obtain ⟨ws, N0, g1, g2⟩ := answerLoop_ok t1 t2 hr
  rw [hflat] at g1
  cases g1
  refine ⟨N0, fun n hN => ?_⟩
  obtain ⟨c, s, e1, e2⟩ := g2 _ _ rfl n n hN hN
  unfold ask
  rw [e1, Op.obind, e2, Op.obind]
  rfl

/-! ### C114 is violated -/

theorem queryObject_mono {mx : MaxReducer} {n : Nat} {s : TStore} {b : Builder} {id ref : Uuid} {r : Status × Builder}
    (h : TextReplica.queryObject mx n s b id ref = .ok (some r)) (j : Nat) : TextReplica.queryObject mx (n + j) s b id ref = .ok (some r) := by
  unfold TextReplica.queryObject at h ⊢
  obtain ⟨x, e, h⟩ := Cursor.bind_ok h
  cases x with
  | none => cases h
  | some x =>
    rw [read_mono e j, Op.obind]
    simp only at h ⊢
    split
    · rename_i hx
      rw [if_pos hx] at h
      exact h
    · rename_i hx
      rw [if_neg hx] at h
      obtain ⟨y, e, h⟩ := Cursor.bind_ok h
      cases y with
      | none => cases h
      | some y =>
        unfold Builder.appendFrame at e ⊢
        obtain ⟨z, ez, e⟩ := Cursor.bind_ok e
        rw [ez, Op.obind]
        split at e
        · rename_i hz
          rw [if_pos hz, Builder.appendAll_mono e j, Op.obind]
          exact h
        · rename_i hz
          rw [if_neg hz, e, Op.obind]
          exact h

theorem answerLoop_mono {mx : MaxReducer} {n : Nat} {s : TStore} {a : Answer} : ∀ {k : Nat} {b : Builder} {c : Cursor},
    answerLoop mx n s k b c = .ok (some a) → ∀ j i, answerLoop mx (n + j) s (k + i) b c = .ok (some a)
  | 0, _, _, h, _, _ => by cases h
  | k + 1, b, c, h, j, i => by
    rw [show k + 1 + i = (k + i) + 1 by omega]
    unfold answerLoop at h ⊢
    split
    · rename_i hv
      rw [if_pos hv] at h
      exact h
    · rename_i hv
      rw [if_neg hv] at h
      split
      · rename_i ho
        rw [ho] at h
        cases h
      · rename_i o ho
        rw [ho] at h
        simp only at h
        split
        · rename_i hc
          rw [if_pos hc] at h
          obtain ⟨x, e, h⟩ := Cursor.bind_ok h
          cases x with
          | none => cases h
          | some x =>
            rw [queryObject_mono e j, Op.obind]
            simp only at h ⊢
            split
            · rename_i hx
              rw [if_pos hx] at h
              exact h
            · rename_i hx
              rw [if_neg hx] at h
              obtain ⟨y, e, h⟩ := Cursor.bind_ok h
              rw [e, Op.obind]
              exact answerLoop_mono h j i
        · rename_i hc
          rw [if_neg hc] at h
          exact h

theorem answersText_of {mx : MaxReducer} {A : List Entry} {text : List Byte} {r : Status × List Byte} (n : Nat)
    (h : ask mx n (A.map Entry.bytes) text = .ok (some r)) : AnswersText mx A text r := by
  refine ⟨n, fun m hm => ?_⟩
  obtain ⟨j, rfl⟩ : ∃ j, m = n + j := ⟨m - n, by omega⟩
  unfold ask at h ⊢
  obtain ⟨x, e, h⟩ := Cursor.bind_ok h
  obtain ⟨y, e2, h⟩ := Cursor.bind_ok h
  rw [e, Op.obind]
  cases y with
  | none => cases h
  | some y =>
    rw [answerLoop_mono e2 j j, Op.obind]
    exact h

theorem answersText_unique {mx : MaxReducer} {A : List Entry} {text : List Byte} {r r' : Status × List Byte}
    (h : AnswersText mx A text r) (h' : AnswersText mx A text r') : r = r' := by
  obtain ⟨N, h⟩ := h
  obtain ⟨N', h'⟩ := h'
  have := h (max N N') (by omega)
  rw [h' _ (by omega)] at this
  cases this
  rfl

/-- A yarn, and an array with the text `a(`, one letter an op. -/
def bad114 : List (AOp × List AOp) :=
  [(op2 (tA 1) (formUuid Form.YARN), []), (op2 (tA 2) (formUuid Form.RGA), []),
   (op2 (tA 4) (tA 2) [.str [97]], [op2 (tA 5) (tA 4) [.str [40]]])]

/-- A frame of queries. -/
def ask114 (qs : List (Uuid × Uuid)) : List Call := qs.flatMap fun q => [.op q.1 q.2 [], .endChunk 3]

theorem query_lit {qs : List (Uuid × Uuid)} (h : (copyable84 (ask114 qs) &&
    decide (((frame84 (ask114 qs)).2.map fun x => (x.2.id, x.2.ref)) = qs) &&
    (frame84 (ask114 qs)).2.all fun x => decide (x.1 = 3)) = true) : QueryText (frame84 (ask114 qs)).1 qs := by
  rw [Bool.and_eq_true, Bool.and_eq_true] at h
  have := copyable_lit h.1.1
  exact ⟨⟨_, this.text, of_decide_eq_true h.1.2, fun x hx => of_decide_eq_true (List.all_eq_true.1 h.2 x hx)⟩, this.size⟩

/-- The query is answered, and the response is short and is not a text that can be read to its end. -/
def wrong114 (l : List (AOp × List AOp)) (q : List Byte) : Bool :=
  match ask noMax 20 ((texts (fold111 newStore Uuid.NIL l)).map Entry.bytes) q with
  | .ok (some (_, t)) => decide (t.length < 2 ^ 30) &&
    match readOps 20 t with
    | .ok (some (_, e)) => decide (e ≠ .endOfFrame)
    | _ => false
  | _ => false

/-- C114 is violated: the state of the array is a text with a run of letters, and it is read (`C113`). In the response
every letter ends a chunk, and the second one is written as if it were within quotes still. -/
theorem C114_violated : ¬ C114_claim := by
  intro hc
  obtain ⟨H, note, L, hT, e⟩ := tellsAs_lit bad114 (by
    refine fed111_proper fun x hx => ?_
    simp only [bad114, List.mem_cons, List.not_mem_nil, or_false] at hx
    unfold Stamp
    rcases hx with rfl | rfl | rfl <;> (try unfold ChainedTo) <;> (try unfold ChainedTo) <;> unfold op2 <;> decide +kernel)
    (by decide +kernel) (by decide +kernel)
  obtain ⟨c, h1, h2, h3⟩ := made_lit L e (x := (op2 (tA 2) (formUuid Form.RGA), [])) (by simp [bad114]) (by decide +kernel)
  have hl : H.length = 3 := by
    have := congrArg List.length e
    rwa [List.length_map, List.length_map] at this
  obtain ⟨reply, parts, g1, -, g2⟩ := hc ascii noMax H note _ [c] (frame84 (ask114 [(tA 2, formUuid Form.RGA)])).1 L hT
    (short_lit 20 (by decide +kernel)) (by
      intro d hd
      rw [List.mem_singleton] at hd
      subst hd
      refine ⟨h1, .inr ⟨by rw [h3]; decide +kernel, ?_⟩, .inr ⟨by rw [h3]; decide +kernel, ?_⟩⟩
      · rw [← hl]; exact List.length_filter_le _ _
      · rw [h2, h3]; exact ⟨by decide +kernel, by decide +kernel⟩)
    (by rw [List.map_cons, List.map_nil, h2, h3]; exact query_lit (by decide +kernel))
  have k : wrong114 bad114 (frame84 (ask114 [(tA 2, formUuid Form.RGA)])).1 = true := by decide +kernel
  unfold wrong114 at k
  split at k
  · rename_i st t ht
    rw [Bool.and_eq_true] at k
    obtain ⟨k0, k⟩ := k
    have hu := answersText_unique g1 (answersText_of 20 ht)
    injection hu with _ hu
    subst hu
    split at k
    · rename_i ops' en ho
      exact of_decide_eq_true k (Chains.contents_unique (g2 (of_decide_eq_true k0)) (contents_of 20 ho)).2.symm
    · cases k
  · cases k

/-! ### The hypotheses hold -/

/-- A yarn, a register and an array. -/
def all114 : List (AOp × List AOp) :=
  [(op2 (tA 1) (formUuid Form.YARN), []),
   (op2 (tA 2) (formUuid Form.LWW), [op2 (tA 3) (tA 2) [.uuid (formUuid Form.RGA), .int 7]]),
   (op2 (tA 12) (formUuid Form.RGA), [op2 (tA 14) (tA 12) [.str [97, 98]]]), (op2 (tA 16) (tA 14) [.str [99, 100]], [])]

/-- The same events in other chains. -/
def all114' : List (AOp × List AOp) :=
  [(op2 (tA 1) (formUuid Form.YARN), []), (op2 (tA 2) (formUuid Form.LWW), []),
   (op2 (tA 3) (tA 2) [.uuid (formUuid Form.RGA), .int 7], []),
   (op2 (tA 12) (formUuid Form.RGA), [op2 (tA 14) (tA 12) [.str [97, 98]], op2 (tA 16) (tA 14) [.str [99, 100]]])]

theorem all114_proper : ∀ c ∈ all114, Spec.Proper c.1 c.2 := by
  refine fed111_proper fun x hx => ?_
  simp only [all114, List.mem_cons, List.not_mem_nil, or_false] at hx
  unfold Stamp
  rcases hx with rfl | rfl | rfl | rfl <;> (try unfold ChainedTo) <;> (try unfold ChainedTo) <;> unfold op2 <;> decide +kernel

theorem all114'_proper : ∀ c ∈ all114', Spec.Proper c.1 c.2 := by
  refine fed111_proper fun x hx => ?_
  simp only [all114', List.mem_cons, List.not_mem_nil, or_false] at hx
  unfold Stamp
  rcases hx with rfl | rfl | rfl | rfl <;> (try unfold ChainedTo) <;> (try unfold ChainedTo) <;> (try unfold ChainedTo) <;>
    unfold op2 <;> decide +kernel

def qs114 : List (Uuid × Uuid) := [(tA 12, formUuid Form.RGA), (tA 2, formUuid Form.LWW)]

theorem asked_lit {l : List (AOp × List AOp)} {H : List Chain} (L : Lineage H)
    (e : H.map Chain.ops = l.map fun c => c.1 :: c.2) (hl : l.length ≤ 4) {r w y : AOp × List AOp} (hr : r ∈ l) (hw : w ∈ l)
    (hy : y ∈ l) (hn : r.1.id = tA 12 ∧ r.1.ref = formUuid Form.RGA ∧ w.1.id = tA 2 ∧ w.1.ref = formUuid Form.LWW ∧
      y.1.id = tA 1 ∧ y.1.ref = formUuid Form.YARN)
    (hx : Mixes (texts (fold111 newStore Uuid.NIL l)) (Key.ofUuids (tA 2) (formUuid Form.LWW)))
    (hm : Mixable (opsAt (texts (fold111 newStore Uuid.NIL l)) (Key.ofUuids (tA 12) (formUuid Form.RGA))))
    (hk : (opsAt (texts (fold111 newStore Uuid.NIL l)) (Key.ofUuids (tA 12) (formUuid Form.RGA))).length < 2 ^ 31) :
    ∃ cs : List Chain, (cs.map fun c => (c.object, c.rdt)) = qs114 ∧
      (∀ c ∈ cs, c ∈ H ∧ Simple H c ∧ Written (texts (fold111 newStore Uuid.NIL l)) c) ∧
      opsAsked (texts (fold111 newStore Uuid.NIL l)) cs =
        qs114.flatMap fun q => opsAt (texts (fold111 newStore Uuid.NIL l)) (Key.ofUuids q.1 q.2) := by
  obtain ⟨n1, n2, n3, n4, n5, n6⟩ := hn
  obtain ⟨c, c1, c2, c3⟩ := made_lit L e hr (by rw [n2]; decide +kernel)
  obtain ⟨d, d1, d2, d3⟩ := made_lit L e hw (by rw [n4]; decide +kernel)
  obtain ⟨z, z1, z2, z3⟩ := made_lit L e hy (by rw [n6]; decide +kernel)
  rw [n1] at c2; rw [n2] at c3; rw [n3] at d2; rw [n4] at d3; rw [n5] at z2
  refine ⟨[c, d], by simp [qs114, c2, c3, d2, d3], ?_, by simp [opsAsked, qs114, c2, c3, d2, d3]⟩
  intro x hx'
  simp only [List.mem_cons, List.not_mem_nil, or_false] at hx'
  rcases hx' with rfl | rfl
  · refine ⟨c1, .inr ⟨by rw [c3]; decide +kernel, filter_len e _ ⟨z, z1, by rw [z2, c2]; decide +kernel⟩ (by omega)⟩,
      .inr ⟨by rw [c3]; decide +kernel, ?_⟩⟩
    rw [c2, c3]
    exact ⟨hm, hk⟩
  · refine ⟨d1, .inl (by rw [d3]; unfold IdForm; decide +kernel), .inl ⟨by rw [d3]; unfold IdForm; decide +kernel, ?_⟩⟩
    rw [d2, d3]
    exact hx

instance (l : List OpView) : Decidable (NoRuns l) := by unfold NoRuns; infer_instance

/-- Two stores that got the same events in different chains are asked for the array and the register. -/
example : ∃ H G note note' cs ds, Lineage H ∧ TellsAs true ascii H note (texts (fold111 newStore Uuid.NIL all114)) ∧
    Lineage G ∧ TellsAs true ascii G note' (texts (fold111 newStore Uuid.NIL all114')) ∧
    SameEvents (eventsOf H) (eventsOf G) ∧
    TextReplica.Short noMax ((texts (fold111 newStore Uuid.NIL all114)).map Entry.bytes) ∧
    TextReplica.Short noMax ((texts (fold111 newStore Uuid.NIL all114')).map Entry.bytes) ∧
    (∀ c ∈ cs, c ∈ H ∧ Simple H c ∧ Written (texts (fold111 newStore Uuid.NIL all114)) c) ∧
    (∀ c ∈ ds, c ∈ G ∧ Simple G c ∧ Written (texts (fold111 newStore Uuid.NIL all114')) c) ∧
    (ds.map fun c => (c.object, c.rdt)) = (cs.map fun c => (c.object, c.rdt)) ∧ cs.length = 2 ∧
    QueryText (frame84 (ask114 qs114)).1 (cs.map fun c => (c.object, c.rdt)) ∧
    (Mixable (opsAsked (texts (fold111 newStore Uuid.NIL all114)) cs) ∧
      NoRuns (opsAsked (texts (fold111 newStore Uuid.NIL all114)) cs) ∧
      (opsAsked (texts (fold111 newStore Uuid.NIL all114)) cs).length = 5) ∧
    (Mixable (opsAsked (texts (fold111 newStore Uuid.NIL all114')) ds) ∧
      NoRuns (opsAsked (texts (fold111 newStore Uuid.NIL all114')) ds) ∧
      (opsAsked (texts (fold111 newStore Uuid.NIL all114')) ds).length = 5) := by
  obtain ⟨H, note, L, hT, e⟩ := tellsAs_lit all114 all114_proper (by decide +kernel) (by decide +kernel)
  obtain ⟨G, note', L', hT', e'⟩ := tellsAs_lit all114' all114'_proper (by decide +kernel) (by decide +kernel)
  obtain ⟨cs, g1, g2, g3⟩ := asked_lit L e (by decide) (r := all114[2]) (w := all114[1]) (y := all114[0]) (by decide +kernel)
    (by decide +kernel) (by decide +kernel) (by decide +kernel) ⟨by decide +kernel, by decide +kernel, by decide +kernel⟩
    (by decide +kernel) (by decide +kernel)
  obtain ⟨ds, k1, k2, k3⟩ := asked_lit L' e' (by decide) (r := all114'[3]) (w := all114'[1]) (y := all114'[0])
    (by decide +kernel) (by decide +kernel) (by decide +kernel) (by decide +kernel)
    ⟨by decide +kernel, by decide +kernel, by decide +kernel⟩ (by decide +kernel) (by decide +kernel)
  refine ⟨H, G, note, note', cs, ds, L, hT, L', hT', same_of_bodies ?_, short_lit 20 (by decide +kernel),
    short_lit 20 (by decide +kernel), g2, k2, by rw [g1, k1], ?_, by rw [g1]; exact query_lit (by decide +kernel), ?_, ?_⟩
  · rw [events_lit e, events_lit e']
    decide +kernel
  · have := congrArg List.length g1
    rwa [List.length_map] at this
  · rw [g3]; exact ⟨by decide +kernel, by decide +kernel, by decide +kernel⟩
  · rw [k3]; exact ⟨by decide +kernel, by decide +kernel, by decide +kernel⟩

-- What the answer is.
example : ask noMax 20 ((texts (fold111 newStore Uuid.NIL all114)).map Entry.bytes)
      (lit "@A00000000C+0000000001 :rga?\n@A000000002+0000000001 :lww?\n") =
    .ok (some (Status.OK, lit ("@A00000000C+0000000001 :rga,\n@A00000000E+0000000001 'ab',\n" ++
      "@A00000000G+0000000001 'cd';\n@A000000002+0000000001 :lww,\n rga 7;\n"))) ∧
    (frame84 (ask114 qs114)).1 = lit "@A00000000C+0000000001 :rga?\n@A000000002+0000000001 :lww?\n" := by decide +kernel

/-- The store is asked for a register that nobody has made. -/
example : ∃ H note, Lineage H ∧ Tells ascii H note (texts (fold111 newStore Uuid.NIL all114)) ∧ H.length = 4 ∧
    QueryText (frame84 (ask114 [(tA 7, formUuid Form.LWW)])).1 [(tA 7, formUuid Form.LWW)] ∧
    ∀ q ∈ [(tA 7, formUuid Form.LWW)], Stamp q.1 ∧ StateForm (uuid2form q.2) ∧
      ∀ c ∈ H, c.object = q.1 → uuid2form c.rdt ≠ uuid2form q.2 := by
  obtain ⟨H, note, L, ⟨s, hS, K⟩, e⟩ := tellsAs_lit all114 all114_proper (by decide +kernel) (by decide +kernel)
  refine ⟨H, note, L, ⟨true, s, hS, K⟩, ?_, query_lit (by decide +kernel), fun q hq => ?_⟩
  · have := congrArg List.length e
    rwa [List.length_map, List.length_map] at this
  rw [List.mem_singleton] at hq
  subst hq
  refine ⟨by unfold Stamp; decide +kernel, by unfold StateForm IdForm; decide +kernel, fun c hc h => ?_⟩
  obtain ⟨r, hr, e1⟩ := L.root c hc
  have : r.ops ∈ all114.map fun c => c.1 :: c.2 := by rw [← e]; exact List.mem_map_of_mem hr
  obtain ⟨x, hx, e2⟩ := List.mem_map.1 this
  injection e2 with e2 _
  rw [h, ← e2] at e1
  exact absurd e1 ((by decide +kernel : ∀ x ∈ all114, x.1.id ≠ tA 7) x hx)

end Ron.Props
