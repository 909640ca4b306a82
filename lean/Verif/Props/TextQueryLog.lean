import Verif.Props.TextQuery
import Verif.Model.TextQueryLog
/-!
C115: a query of the log of an object is answered with the part of the state before the event asked for.
-/
namespace Ron.Props
open Ron Spec Commit TextReplica TextParser

/-- What comes of a query of a log when the loops may run long enough. -/
def AnswersLog (mx : MaxReducer) (hash : Cursor → Digest → Digest → Digest) (A : List Entry) (text : List Byte)
    (r : Status × List Byte) : Prop :=
  ∃ N, ∀ n, N ≤ n → askLog mx hash n (A.map Entry.bytes) text = .ok (some r)

/-- The ops are the part of the state of the object that stands before the event, or the whole state if the event is the
object itself. -/
def PartBefore (R : Reading) (H : List Chain) (c : Chain) (id : Uuid) (ops : List OpView) : Prop :=
  ∃ rest : List OpView, IsState H c ((ops ++ rest).map R.op) ∧ (id = c.object → rest = []) ∧
    (id ≠ c.object → (∀ o ∈ ops, o.id ≠ id) ∧ ∃ x more, rest = x :: more ∧ x.id = id)

/-- C115: a store of texts is asked for the log of an event it has, of an object the state of which can be written. The
response is read as the part of the state before the event. -/
def C115_claim : Prop := ∀ (R : Reading) (mx : MaxReducer) (hash : Cursor → Digest → Digest → Digest) (H : List Chain)
  (note : Uuid → List Nat) (A : List Entry) (c : Chain) (id : Uuid) (text : List Byte), Lineage H →
  TellsAs true R H note A → Short mx (A.map Entry.bytes) → c ∈ H → c.Has id → Simple H c → Written A c →
  QueryText text [(id, formUuid Form.LOG)] →
  ∃ reply ops, AnswersLog mx hash A text (Status.OK, reply) ∧ PartBefore R H c id ops ∧
    (reply.length < 2 ^ 30 → Contents reply ops .endOfFrame)

/-- The first of the items with the id. -/
theorem first_split {id : Uuid} : ∀ {l : List (Nat × OpView)}, (∃ x ∈ l, x.2.id = id) →
    ∃ pre x post, l = pre ++ x :: post ∧ x.2.id = id ∧ ∀ y ∈ pre, y.2.id ≠ id
  | [], h => by obtain ⟨_, h, -⟩ := h; cases h
  | a :: l, h => by
    by_cases ha : a.2.id = id
    · exact ⟨[], a, l, rfl, ha, fun _ h => nomatch h⟩
    · obtain ⟨x, hx, e⟩ := h
      rcases List.mem_cons.1 hx with rfl | hx
      · exact absurd e ha
      · obtain ⟨pre, y, post, rfl, g1, g2⟩ := first_split ⟨x, hx, e⟩
        refine ⟨a :: pre, y, post, rfl, g1, fun z hz => ?_⟩
        rcases List.mem_cons.1 hz with rfl | hz
        · exact ha
        · exact g2 z hz

/-- The loop copies the ops before the one with the id and stops at it. -/
theorem copyUntil_ok {id : Uuid} : ∀ {pre : List (Nat × OpView)} {x : Nat × OpView} {post : List (Nat × OpView)} {c : Cursor}
    {m : List Cursor} {st}, Chains.Trail c m st → Same2 TextMerge.At m (pre ++ x :: post) → x.2.id = id →
    (∀ y ∈ pre, y.2.id ≠ id) → ∃ ws, Same2 (Builder.Fits copyHeadOk) ws ((pre.map Prod.snd).map Step.op) ∧
      ∀ b b', Builder.doWork ws b = .ok b' → ∀ n, pre.length + 1 ≤ n →
        ∃ c', copyUntil id n b c = .ok (some (b', c')) ∧ c'.id = some id
  | [], x, post, c, m, st, ht, ha, hx, _ => by
    cases ha with
    | cons ha _ =>
    cases ht with
    | more hn _ =>
    refine ⟨[], .nil, fun b b' hw n hN => ⟨_, ?_, by rw [ha.id, hx]⟩⟩
    obtain ⟨j, rfl⟩ : ∃ j, n = j + 1 := ⟨n - 1, by omega⟩
    simp only [Builder.doWork] at hw
    injection hw with hw
    rw [copyUntil, hn, Op.obind]
    simp only
    rw [if_neg (by simp), ha.id]
    simp only
    rw [if_pos hx, hw]
  | y :: pre, x, post, c, m, st, ht, ha, hx, hp => by
    cases ha with
    | cons ha has =>
    cases ht with
    | more hn ht =>
    obtain ⟨ws, g1, g2⟩ := copyUntil_ok ht has hx fun z hz => hp z (List.mem_cons_of_mem _ hz)
    refine ⟨_ :: ws, .cons (TextMerge.at_fits ha) g1, fun b b' hw n hN => ?_⟩
    obtain ⟨j, rfl⟩ : ∃ j, n = j + 1 := ⟨n - 1, by omega⟩
    obtain ⟨b1, w1, w2⟩ := TextMerge.work_cons hw
    obtain ⟨c', k1, k2⟩ := g2 b1 b' w2 j (by simpa using hN)
    refine ⟨c', ?_, k2⟩
    rw [copyUntil, hn, Op.obind]
    simp only
    rw [if_neg (by simp), ha.id]
    simp only
    rw [if_neg (hp y List.mem_cons_self), w1, Op.obind, k1]

theorem cleanSteps_prefix {hok : List View → Bool} : ∀ {a b : List Step} {p : Uuid} {v : List View} {closed mid : Bool},
    CleanSteps hok p v closed mid (a ++ b) → CleanSteps hok p v closed mid a
  | [], _, _, _, _, _, _ => by unfold CleanSteps; trivial
  | .endChunk t :: a, b, p, v, closed, mid, h => by
    rw [List.cons_append] at h
    unfold CleanSteps at h ⊢
    exact ⟨h.1, cleanSteps_prefix h.2⟩
  | .op o :: a, b, p, v, closed, mid, h => by
    rw [List.cons_append] at h
    unfold CleanSteps at h ⊢
    exact ⟨h.1, h.2.1, cleanSteps_prefix h.2.2⟩

/-- The ops of a text that was copied, and the cursors at them. -/
theorem copyable_trail {i : List Byte × List (Nat × OpView)} (hi : Copyable i) :
    ∃ m, Chains.Trail (Cursor.init i.1) m .endOfFrame ∧ Same2 TextMerge.At m i.2 := by
  obtain ⟨m, h1, -, -, h2⟩ := TextParser.frame_trail hi.size hi.text (cur := Cursor.init i.1)
    ⟨rfl, rfl, rfl, .inr ⟨rfl, rfl⟩⟩ Cursor.type_nil rfl
  have key : ∀ {m : List Cursor} {l : List (Nat × OpView)}, Same2 (TextParser.Holds i.1) m l →
      (∀ x ∈ l, ∀ v ∈ x.2.vals, CopyOk v) → Same2 TextMerge.At m l := by
    intro m l h
    induction h with
    | nil => intro _; exact .nil
    | cons h _ ih =>
      intro hv
      exact .cons ⟨i.1, hi.size, hi.short, h, hv _ (by simp)⟩ (ih fun y hy => hv y (by simp [hy]))
  exact ⟨m, h1, key h2 hi.vals⟩

/-- A frame of one query. -/
theorem askLog_one {mx : MaxReducer} {hash : Cursor → Digest → Digest → Digest} {n : Nat} {s : TStore} {text : List Byte}
    {id : Uuid} (hq : QueryText text [(id, formUuid Form.LOG)]) (ht : id.version = Uuid.vTIME) {st : Status} {resp : Builder}
    {t : List Byte × Builder} (h : TextReplica.queryObjectLog mx hash n s Builder.init id = .ok (some (st, resp)))
    (hr : resp.release = .ok t) : askLog mx hash n s text = .ok (some (st, t.1)) := by
  obtain ⟨l, h1, h2, h3⟩ := hq.reads
  obtain ⟨m, t1, -, -, t2⟩ := TextParser.frame_trail hq.size h1 (cur := Cursor.init text)
    ⟨rfl, rfl, rfl, .inr ⟨rfl, rfl⟩⟩ Cursor.type_nil rfl
  cases t2 with
  | nil => cases h2
  | @cons _ x _ _ hh t2 =>
    rw [List.map_cons] at h2
    injection h2 with e1 e2
    injection e1 with e3 e4
    cases t2 with
    | cons _ _ => cases e2
    | nil =>
    cases t1 with
    | more hn t1 =>
    cases t1 with
    | stop hn' hne =>
    unfold askLog
    rw [hn, Op.obind]
    simp only
    rw [TextChain.heading_holds hh]
    simp only
    rw [if_pos ⟨by rw [e3]; exact ht, by rw [hh.term]; exact h3 x List.mem_cons_self, by rw [e4]; decide +kernel⟩, hn',
      Op.obind]
    simp only
    rw [if_neg (by unfold Cursor.valid; rw [Builder.next_invalid hn' hne]; decide), e3, h, Op.obind]
    simp only
    rw [hr, Op.obind]

/-- The event is in the state. -/
theorem state_has {R : Reading} {H : List Chain} {c : Chain} {id : Uuid} (hc : c ∈ H) (hi : c.Has id)
    {l : List OpView} (h : IsState H c (l.map R.op)) : ∃ o ∈ l, o.id = id := by
  obtain ⟨o, ho, e⟩ := hi
  have hm : o ∈ eventsIn H c.object := by
    unfold eventsIn
    exact List.mem_flatMap.2 ⟨c, List.mem_filter.2 ⟨hc, decide_eq_true rfl⟩, ho⟩
  by_cases hf : uuid2form c.rdt = Form.RGA
  · have := (h.1 hf).2.1.mem_iff.2 (List.mem_map_of_mem (f := bare) hm)
    obtain ⟨v, hv, e2⟩ := List.mem_map.1 this
    exact ⟨v, hv, (congrArg AOp.id e2).trans e⟩
  · obtain ⟨v, hv, e2⟩ := ((h.2 hf).2 o.body).2 ⟨o, hm, rfl⟩
    obtain ⟨w, hw, rfl⟩ := List.mem_map.1 hv
    exact ⟨w, hw, (congrArg Prod.fst e2).trans e⟩

/-- C115: it is so if what is merged can be read back (`Unfolded`) and, when asked for the object itself, no op is folded
with another by the builder (`NoRuns`). Missing from the claim: the runs of letters of the violation, and 2^31 ops. -/
theorem C115_partial (R : Reading) (mx : MaxReducer) (hash : Cursor → Digest → Digest → Digest) (H : List Chain)
    (note : Uuid → List Nat) (A : List Entry) (c : Chain) (id : Uuid) (text : List Byte) (L : Lineage H)
    (hT : TellsAs true R H note A) (hs : Short mx (A.map Entry.bytes)) (hc : c ∈ H) (hi : c.Has id) (h1 : Simple H c)
    (h2 : Written A c) (hq : QueryText text [(id, formUuid Form.LOG)]) (hu : Unfolded A)
    (hm : Mixable (opsAt A (Key.ofUuids c.object c.rdt)))
    (hn : id = c.object → NoRuns (opsAt A (Key.ofUuids c.object c.rdt))) :
    ∃ reply ops, AnswersLog mx hash A text (Status.OK, reply) ∧ PartBefore R H c id ops ∧
      (reply.length < 2 ^ 30 → Contents reply ops .endOfFrame) := by
  obtain ⟨frame, l, ⟨N1, f1⟩, f2, f3, f4, f5⟩ := object_state L hT hs hc h1 h2
  have hlen := hu.few (Key.ofUuids c.object c.rdt)
  have hstamp : Stamp id := L.known ⟨c, hc, hi⟩
  obtain ⟨st, M, ⟨N2, hfind⟩, k1, -, k3⟩ := C111_found_partial R mx hash H note A id L
    (by obtain ⟨s, hS, K⟩ := hT; exact ⟨true, s, hS, K⟩) hu hs hstamp
  obtain ⟨-, m2, m3⟩ := k3 c hc hi
  have hok := k1.2 ⟨c, hc, hi⟩
  by_cases ho : id = c.object
  · obtain ⟨ws, N0, g1, g2⟩ := appendFrame_ok f2
    have hl := Builder.copySteps_length l
    obtain ⟨b, reply, b', w1, w2, w3⟩ := Builder.work_ok g1
      (copy_cleanFrom hm (hn ho) _ fun x hx => ⟨f3 x hx, frameText_terms f2.text x hx⟩) (by show (copySteps l).length < _; omega)
    refine ⟨reply, l.map Prod.snd, ⟨N0 + N1 + N2, fun n hN => askLog_one hq hstamp.time (t := (reply, b')) (resp := b) ?_ w2⟩,
      ⟨[], by rw [List.append_nil]; exact f5, fun _ => rfl, fun h => absurd ho h⟩, fun hr => ?_⟩
    · unfold TextReplica.queryObjectLog
      rw [hfind n (by omega), Op.obind]
      simp only
      rw [if_neg (by rw [hok]; decide), m2, m3, f1 n (by omega), Op.obind]
      simp only
      rw [if_neg (by decide), if_pos ho, g2 _ b w1 n (by omega), Op.obind]
    · have := (C20_frames_partial reply hr _ w3).1
      rwa [Builder.saidBy_copy] at this
  · obtain ⟨o, ho1, ho2⟩ := state_has hc hi f5
    obtain ⟨y, hy, rfl⟩ := List.mem_map.1 ho1
    obtain ⟨pre, x, post, rfl, p1, p2⟩ := first_split ⟨y, hy, ho2⟩
    obtain ⟨m, t1, t2⟩ := copyable_trail f2
    obtain ⟨ws, g1, g2⟩ := copyUntil_ok t1 t2 p1 p2
    rw [List.length_append, List.length_cons] at f4
    obtain ⟨b, reply, b', w1, w2, w3⟩ := Builder.work_ok g1
      (cleanSteps_prefix (b := [.endChunk 0]) (TextMerge.mixable_clean hm fun o ho => by
        obtain ⟨z, hz, rfl⟩ := List.mem_map.1 ho
        exact f3 z (List.mem_append_left _ hz))) (by rw [List.length_map, List.length_map]; omega)
    refine ⟨reply, pre.map Prod.snd, ⟨N1 + N2 + pre.length + 1, fun n hN =>
      askLog_one hq hstamp.time (t := (reply, b')) (resp := b) ?_ w2⟩,
      ⟨x.2 :: post.map Prod.snd, ?_, fun h => absurd h ho, fun _ => ⟨fun z hz => ?_, x.2, _, rfl, p1⟩⟩, fun hr => ?_⟩
    · obtain ⟨c', e1, e2⟩ := g2 _ b w1 n (by omega)
      unfold TextReplica.queryObjectLog
      rw [hfind n (by omega), Op.obind]
      simp only
      rw [if_neg (by rw [hok]; decide), m2, m3, f1 n (by omega), Op.obind]
      simp only
      rw [if_neg (by decide), if_neg ho, e1, Op.obind]
      simp only
      rw [e2]
      simp only
      rfl
    · rw [List.map_append, List.map_cons] at f5
      exact f5
    · obtain ⟨w, hw, rfl⟩ := List.mem_map.1 hz
      exact p2 w hw
    · have := (C20_frames_partial reply hr _ w3).1
      rwa [TextChain.saidBy_ops] at this

/-- What stands before the first item with the id is the same in equal lists. -/
theorem before_unique {i : Uuid} : ∀ {a a' : List AOp} {x x' : AOp} {b b' : List AOp}, a ++ x :: b = a' ++ x' :: b' →
    x.id = i → x'.id = i → (∀ y ∈ a, y.id ≠ i) → (∀ y ∈ a', y.id ≠ i) → a = a'
  | [], [], _, _, _, _, _, _, _, _, _ => rfl
  | [], _ :: _, _, _, _, _, e, h, _, _, h' => by
    injection e with e _
    exact absurd (e ▸ h) (h' _ List.mem_cons_self)
  | _ :: _, [], _, _, _, _, e, _, h, h', _ => by
    injection e with e _
    exact absurd (e ▸ h) (h' _ List.mem_cons_self)
  | _ :: _, _ :: _, _, _, _, _, e, h1, h2, h3, h4 => by
    injection e with e1 e2
    rw [e1, before_unique e2 h1 h2 (fun y hy => h3 y (List.mem_cons_of_mem _ hy)) fun y hy => h4 y (List.mem_cons_of_mem _ hy)]

/-- The part before an event is the same in two histories of the same events. -/
theorem part_same {R R' : Reading} {H G : List Chain} (L : Lineage H) (L' : Lineage G)
    (h : SameEvents (eventsOf H) (eventsOf G)) {c d : Chain} (e1 : c.object = d.object) (e2 : c.rdt = d.rdt) {id : Uuid}
    {ops ops' : List OpView} (hp : PartBefore R H c id ops) (hp' : PartBefore R' G d id ops') :
    ops.map R.op = ops'.map R'.op := by
  obtain ⟨r, a1, a2, a3⟩ := hp
  obtain ⟨r', b1, b2, b3⟩ := hp'
  have hs := state_same L L' h (by rw [e1, e2]) a1 b1
  rw [List.map_map, List.map_map] at hs
  replace hs : (ops ++ r).map R.op = (ops' ++ r').map R'.op := hs
  by_cases ho : id = c.object
  · rw [a2 ho, b2 (ho.trans e1), List.append_nil, List.append_nil] at hs
    exact hs
  · obtain ⟨g1, x, m, rfl, g2⟩ := a3 ho
    obtain ⟨k1, x', m', rfl, k2⟩ := b3 fun e => ho (e.trans e1.symm)
    rw [List.map_append, List.map_append, List.map_cons, List.map_cons] at hs
    refine before_unique hs g2 k2 (fun y hy => ?_) fun y hy => ?_
    · obtain ⟨z, hz, rfl⟩ := List.mem_map.1 hy
      exact g1 z hz
    · obtain ⟨z, hz, rfl⟩ := List.mem_map.1 hy
      exact k1 z hz

/-- C115: two stores of texts that have the same events answer a query of a log alike, whatever the frames were and the
order they came in. -/
theorem C115_same_partial (R R' : Reading) (mx mx' : MaxReducer) (hash hash' : Cursor → Digest → Digest → Digest)
    (H G : List Chain) (note note' : Uuid → List Nat) (A B : List Entry) (L : Lineage H) (hT : TellsAs true R H note A)
    (L' : Lineage G) (hT' : TellsAs true R' G note' B) (h : SameEvents (eventsOf H) (eventsOf G))
    (hs : Short mx (A.map Entry.bytes)) (hs' : Short mx' (B.map Entry.bytes)) (c d : Chain) (id : Uuid) (text : List Byte)
    (hc : c ∈ H) (hi : c.Has id) (h1 : Simple H c) (h2 : Written A c) (hd : d ∈ G) (hi' : d.Has id) (h1' : Simple G d)
    (h2' : Written B d) (hq : QueryText text [(id, formUuid Form.LOG)]) (hu : Unfolded A) (hu' : Unfolded B)
    (hm : Mixable (opsAt A (Key.ofUuids c.object c.rdt))) (hm' : Mixable (opsAt B (Key.ofUuids d.object d.rdt)))
    (hn : id = c.object → NoRuns (opsAt A (Key.ofUuids c.object c.rdt)))
    (hn' : id = d.object → NoRuns (opsAt B (Key.ofUuids d.object d.rdt))) :
    ∃ reply reply' ops ops', AnswersLog mx hash A text (Status.OK, reply) ∧
      AnswersLog mx' hash' B text (Status.OK, reply') ∧ (reply.length < 2 ^ 30 → Contents reply ops .endOfFrame) ∧
      (reply'.length < 2 ^ 30 → Contents reply' ops' .endOfFrame) ∧ ops.map R.op = ops'.map R'.op := by
  obtain ⟨reply, ops, g1, g2, g3⟩ := C115_partial R mx hash H note A c id text L hT hs hc hi h1 h2 hq hu hm hn
  obtain ⟨reply', ops', k1, k2, k3⟩ := C115_partial R' mx' hash' G note' B d id text L' hT' hs' hd hi' h1' h2' hq hu' hm' hn'
  obtain ⟨e1, e2⟩ := Lineage.agree L L' h _ id (Nat.lt_succ_self _) c hc d hd hi hi'
  exact ⟨reply, reply', ops, ops', g1, k1, g3, k3, part_same L L' h e1 e2 g2 k2⟩

/-- C115: the log of an event the store does not have is not found, and the response is empty. -/
theorem C115_unknown_partial (R : Reading) (mx : MaxReducer) (hash : Cursor → Digest → Digest → Digest) (H : List Chain)
    (note : Uuid → List Nat) (A : List Entry) (id : Uuid) (text : List Byte) (L : Lineage H) (hT : Tells R H note A)
    (hs : Short mx (A.map Entry.bytes)) (hi : Stamp id) (hk : ¬ Spec.Known H id) (hq : QueryText text [(id, formUuid Form.LOG)])
    (hu : Unfolded A) : AnswersLog mx hash A text (Status.NOT_FOUND, []) := by
  obtain ⟨st, M, ⟨N, hfind⟩, k1, k2, -⟩ := C111_found_partial R mx hash H note A id L hT hu hs hi
  have hst : st.ok = false := by
    cases e : st.ok
    · rfl
    · exact absurd (k1.1 e) hk
  rw [k2 hst] at hfind
  refine ⟨N, fun n hN => askLog_one (t := ([], _)) (resp := Builder.init) hq hi.time ?_ rfl⟩
  unfold TextReplica.queryObjectLog
  rw [hfind n hN, Op.obind]
  rfl

/-! ### C115 is violated -/

theorem copyUntil_mono {id : Uuid} : ∀ {n : Nat} {b : Builder} {c : Cursor} {r : Builder × Cursor},
    copyUntil id n b c = .ok (some r) → ∀ j, copyUntil id (n + j) b c = .ok (some r)
  | 0, _, _, _, h, _ => by cases h
  | n + 1, b, c, r, h, j => by
    rw [show n + 1 + j = (n + j) + 1 by omega]
    unfold copyUntil at h ⊢
    obtain ⟨x, e, h⟩ := Cursor.bind_ok h
    rw [e, Op.obind]
    split
    · rename_i hx
      rw [if_pos hx] at h
      exact h
    · rename_i hx
      rw [if_neg hx] at h
      split
      · rename_i hi
        rw [hi] at h
        cases h
      · rename_i i hi
        rw [hi] at h
        simp only at h
        split
        · rename_i hii
          rw [if_pos hii] at h
          exact h
        · rename_i hii
          rw [if_neg hii] at h
          obtain ⟨y, e, h⟩ := Cursor.bind_ok h
          rw [e, Op.obind]
          exact copyUntil_mono h j

theorem queryObjectLog_mono {mx : MaxReducer} {hash : Cursor → Digest → Digest → Digest} {n : Nat} {s : TStore} {b : Builder}
    {id : Uuid} {r : Status × Builder} (h : TextReplica.queryObjectLog mx hash n s b id = .ok (some r)) (j : Nat) :
    TextReplica.queryObjectLog mx hash (n + j) s b id = .ok (some r) := by
  unfold TextReplica.queryObjectLog at h ⊢
  obtain ⟨x, e, h⟩ := Cursor.bind_ok h
  cases x with
  | none => cases h
  | some x =>
    rw [findOpMeta_mono e j, Op.obind]
    simp only at h ⊢
    split
    · rename_i hx
      rw [if_pos hx] at h
      exact h
    · rename_i hx
      rw [if_neg hx] at h
      obtain ⟨y, e, h⟩ := Cursor.bind_ok h
      cases y with
      | none => cases h
      | some y =>
        rw [read_mono e j, Op.obind]
        simp only at h ⊢
        split
        · rename_i hy
          rw [if_pos hy] at h
          exact h
        · rename_i hy
          rw [if_neg hy] at h
          split
          · rename_i hi
            rw [if_pos hi] at h
            obtain ⟨z, e, h⟩ := Cursor.bind_ok h
            cases z with
            | none => cases h
            | some z =>
              unfold Builder.appendFrame at e ⊢
              obtain ⟨w, ew, e⟩ := Cursor.bind_ok e
              rw [ew, Op.obind]
              split at e
              · rename_i hz
                rw [if_pos hz, Builder.appendAll_mono e j, Op.obind]
                exact h
              · rename_i hz
                rw [if_neg hz, e, Op.obind]
                exact h
          · rename_i hi
            rw [if_neg hi] at h
            obtain ⟨z, e, h⟩ := Cursor.bind_ok h
            cases z with
            | none => cases h
            | some z =>
              rw [copyUntil_mono e j, Op.obind]
              exact h

theorem answersLog_of {mx : MaxReducer} {hash : Cursor → Digest → Digest → Digest} {A : List Entry} {text : List Byte}
    {r : Status × List Byte} (n : Nat) (h : askLog mx hash n (A.map Entry.bytes) text = .ok (some r)) :
    AnswersLog mx hash A text r := by
  refine ⟨n, fun m hm => ?_⟩
  obtain ⟨j, rfl⟩ : ∃ j, m = n + j := ⟨m - n, by omega⟩
  unfold askLog at h ⊢
  obtain ⟨x, e, h⟩ := Cursor.bind_ok h
  rw [e, Op.obind]
  split
  · rename_i ho
    rw [ho] at h
    cases h
  · rename_i o ho
    rw [ho] at h
    simp only at h
    split
    · rename_i hc
      rw [if_pos hc] at h
      obtain ⟨y, e, h⟩ := Cursor.bind_ok h
      rw [e, Op.obind]
      split
      · rename_i hv
        rw [if_pos hv] at h
        cases h
      · rename_i hv
        rw [if_neg hv] at h
        obtain ⟨z, e, h⟩ := Cursor.bind_ok h
        cases z with
        | none => cases h
        | some z =>
          rw [queryObjectLog_mono e j, Op.obind]
          exact h
    · rename_i hc
      rw [if_neg hc] at h
      cases h

theorem answersLog_unique {mx : MaxReducer} {hash : Cursor → Digest → Digest → Digest} {A : List Entry} {text : List Byte}
    {r r' : Status × List Byte} (h : AnswersLog mx hash A text r) (h' : AnswersLog mx hash A text r') : r = r' := by
  obtain ⟨N, h⟩ := h
  obtain ⟨N', h'⟩ := h'
  have := h (max N N') (by omega)
  rw [h' _ (by omega)] at this
  cases this
  rfl

/-- A yarn, and an array with the text `a(b`, one letter an op, the last in a chain of its own. -/
def bad115 : List (AOp × List AOp) :=
  [(op2 (tA 1) (formUuid Form.YARN), []),
   (op2 (tA 2) (formUuid Form.RGA), [op2 (tA 4) (tA 2) [.str [97]], op2 (tA 5) (tA 4) [.str [40]]]),
   (op2 (tA 7) (tA 5) [.str [98]], [])]

/-- The chain that made an object, with the ops of it. -/
theorem made_has {l : List (AOp × List AOp)} {H : List Chain} (L : Lineage H)
    (e : H.map Chain.ops = l.map fun c => c.1 :: c.2) {x : AOp × List AOp} (hx : x ∈ l)
    (hn : x.1.ref.version = Uuid.vNAME) : ∃ c ∈ H, c.object = x.1.id ∧ c.rdt = x.1.ref ∧ ∀ o ∈ x.1 :: x.2, c.Has o.id := by
  have : x.1 :: x.2 ∈ H.map Chain.ops := by rw [e]; exact List.mem_map_of_mem hx
  obtain ⟨c, hc, hce⟩ := List.mem_map.1 this
  rcases L.cause c hc x.1 (by rw [hce]; exact List.mem_cons_self) with ⟨-, h1, h2⟩ | ⟨h1, -⟩
  · exact ⟨c, hc, h1, h2, fun o ho => ⟨o, by rw [hce]; exact ho, rfl⟩⟩
  · rw [hn] at h1
    exact absurd h1 (by decide)

/-- C115 is violated: the letters end a chunk each in the log that is merged for looking the event up, so that the second
one is not found there, although it is in the history and in the state. -/
theorem C115_violated : ¬ C115_claim := by
  intro hc
  obtain ⟨H, note, L, hT, e⟩ := tellsAs_lit bad115 (by
    refine fed111_proper fun x hx => ?_
    simp only [bad115, List.mem_cons, List.not_mem_nil, or_false] at hx
    unfold Stamp
    rcases hx with rfl | rfl | rfl <;> (try unfold ChainedTo) <;> (try unfold ChainedTo) <;> (try unfold ChainedTo) <;>
      unfold op2 <;> decide +kernel)
    (by decide +kernel) (by decide +kernel)
  obtain ⟨c, h1, h2, h3, h4⟩ := made_has L e (x := bad115[1]) (by decide +kernel) (by decide +kernel)
  have hl : H.length = 3 := by
    have := congrArg List.length e
    rwa [List.length_map, List.length_map] at this
  obtain ⟨reply, ops, g1, -⟩ := hc ascii noMax (fun _ _ _ => []) H note _ c (tA 5)
    (frame84 (ask114 [(tA 5, formUuid Form.LOG)])).1 L hT (short_lit 20 (by decide +kernel)) h1
    (h4 (op2 (tA 5) (tA 4) [.str [40]]) (by decide +kernel))
    (.inr ⟨by rw [h3]; decide +kernel, by rw [← hl]; exact List.length_filter_le _ _⟩)
    (.inr ⟨by rw [h3]; decide +kernel, by rw [h2, h3]; decide +kernel, by rw [h2, h3]; decide +kernel⟩)
    (query_lit (by decide +kernel))
  have k : (match askLog noMax (fun _ _ _ => []) 20 ((texts (fold111 newStore Uuid.NIL bad115)).map Entry.bytes)
      (frame84 (ask114 [(tA 5, formUuid Form.LOG)])).1 with
      | .ok (some r) => !r.1.ok | _ => false) = true := by decide +kernel
  split at k
  · rename_i r hr
    have := answersLog_unique g1 (answersLog_of 20 hr)
    rw [← this] at k
    exact absurd k (by show ¬ (!Status.OK.ok) = true; decide)
  · cases k

/-! ### The hypotheses hold -/

/-- The array, asked for an op of it and for itself. -/
example : ∃ H note c, Lineage H ∧ TellsAs true ascii H note (texts (fold111 newStore Uuid.NIL all114)) ∧
    TextReplica.Short noMax ((texts (fold111 newStore Uuid.NIL all114)).map Entry.bytes) ∧ c ∈ H ∧ c.Has (tA 14) ∧
    c.Has (tA 12) ∧ c.object = tA 12 ∧ Simple H c ∧ Written (texts (fold111 newStore Uuid.NIL all114)) c ∧
    QueryText (frame84 (ask114 [(tA 14, formUuid Form.LOG)])).1 [(tA 14, formUuid Form.LOG)] ∧
    QueryText (frame84 (ask114 [(tA 12, formUuid Form.LOG)])).1 [(tA 12, formUuid Form.LOG)] ∧
    Unfolded (texts (fold111 newStore Uuid.NIL all114)) ∧
    Mixable (opsAt (texts (fold111 newStore Uuid.NIL all114)) (Key.ofUuids c.object c.rdt)) ∧
    NoRuns (opsAt (texts (fold111 newStore Uuid.NIL all114)) (Key.ofUuids c.object c.rdt)) := by
  obtain ⟨H, note, L, hT, e⟩ := tellsAs_lit all114 all114_proper (by decide +kernel) (by decide +kernel)
  obtain ⟨c, h1, h2, h3, h4⟩ := made_has L e (x := all114[2]) (by decide +kernel) (by decide +kernel)
  obtain ⟨z, z1, z2, -⟩ := made_has L e (x := all114[0]) (by decide +kernel) (by decide +kernel)
  refine ⟨H, note, c, L, hT, short_lit 20 (by decide +kernel), h1,
    h4 (op2 (tA 14) (tA 12) [.str [97, 98]]) (by decide +kernel), h4 (op2 (tA 12) (formUuid Form.RGA)) (by decide +kernel),
    h2, .inr ⟨by rw [h3]; decide +kernel, filter_len e _ ⟨z, z1, by rw [z2, h2]; decide +kernel⟩ (by decide)⟩,
    .inr ⟨by rw [h3]; decide +kernel, by rw [h2, h3]; decide +kernel, by rw [h2, h3]; decide +kernel⟩,
    query_lit (by decide +kernel), query_lit (by decide +kernel), legible_lit (by decide +kernel) (by decide +kernel),
    by rw [h2, h3]; decide +kernel, by rw [h2, h3]; decide +kernel⟩

/-- The same events in other chains (`all114'`): both stores are asked for the log of the op `ab`. -/
example : ∃ H G note note' c d, Lineage H ∧ TellsAs true ascii H note (texts (fold111 newStore Uuid.NIL all114)) ∧
    Lineage G ∧ TellsAs true ascii G note' (texts (fold111 newStore Uuid.NIL all114')) ∧
    SameEvents (eventsOf H) (eventsOf G) ∧ c ∈ H ∧ c.Has (tA 14) ∧ Simple H c ∧
    Written (texts (fold111 newStore Uuid.NIL all114)) c ∧ d ∈ G ∧ d.Has (tA 14) ∧ Simple G d ∧
    Written (texts (fold111 newStore Uuid.NIL all114')) d ∧ tA 14 ≠ c.object ∧ tA 14 ≠ d.object ∧
    TextReplica.Short noMax ((texts (fold111 newStore Uuid.NIL all114)).map Entry.bytes) ∧
    TextReplica.Short noMax ((texts (fold111 newStore Uuid.NIL all114')).map Entry.bytes) ∧
    Unfolded (texts (fold111 newStore Uuid.NIL all114)) ∧ Unfolded (texts (fold111 newStore Uuid.NIL all114')) ∧
    Mixable (opsAt (texts (fold111 newStore Uuid.NIL all114)) (Key.ofUuids c.object c.rdt)) ∧
    Mixable (opsAt (texts (fold111 newStore Uuid.NIL all114')) (Key.ofUuids d.object d.rdt)) := by
  obtain ⟨H, note, L, hT, e⟩ := tellsAs_lit all114 all114_proper (by decide +kernel) (by decide +kernel)
  obtain ⟨G, note', L', hT', e'⟩ := tellsAs_lit all114' all114'_proper (by decide +kernel) (by decide +kernel)
  obtain ⟨c, h1, h2, h3, h4⟩ := made_has L e (x := all114[2]) (by decide +kernel) (by decide +kernel)
  obtain ⟨z, z1, z2, -⟩ := made_has L e (x := all114[0]) (by decide +kernel) (by decide +kernel)
  obtain ⟨d, k1, k2, k3, k4⟩ := made_has L' e' (x := all114'[3]) (by decide +kernel) (by decide +kernel)
  obtain ⟨w, w1, w2, -⟩ := made_has L' e' (x := all114'[0]) (by decide +kernel) (by decide +kernel)
  refine ⟨H, G, note, note', c, d, L, hT, L', hT', same_of_bodies ?_, h1,
    h4 (op2 (tA 14) (tA 12) [.str [97, 98]]) (by decide +kernel),
    .inr ⟨by rw [h3]; decide +kernel, filter_len e _ ⟨z, z1, by rw [z2, h2]; decide +kernel⟩ (by decide)⟩,
    .inr ⟨by rw [h3]; decide +kernel, by rw [h2, h3]; decide +kernel, by rw [h2, h3]; decide +kernel⟩, k1,
    k4 (op2 (tA 14) (tA 12) [.str [97, 98]]) (by decide +kernel),
    .inr ⟨by rw [k3]; decide +kernel, filter_len e' _ ⟨w, w1, by rw [w2, k2]; decide +kernel⟩ (by decide)⟩,
    .inr ⟨by rw [k3]; decide +kernel, by rw [k2, k3]; decide +kernel, by rw [k2, k3]; decide +kernel⟩,
    by rw [h2]; decide +kernel, by rw [k2]; decide +kernel, short_lit 20 (by decide +kernel), short_lit 20 (by decide +kernel),
    legible_lit (by decide +kernel) (by decide +kernel), legible_lit (by decide +kernel) (by decide +kernel),
    by rw [h2, h3]; decide +kernel, by rw [k2, k3]; decide +kernel⟩
  rw [events_lit e, events_lit e']
  decide +kernel

-- What the answers are.
example : askLog noMax (fun _ _ _ => []) 20 ((texts (fold111 newStore Uuid.NIL all114)).map Entry.bytes)
      (lit "@A00000000G+0000000001 :log?\n") =
    .ok (some (Status.OK, lit "@A00000000C+0000000001 :rga,\n@A00000000E+0000000001 'ab';\n")) ∧
    askLog noMax (fun _ _ _ => []) 20 ((texts (fold111 newStore Uuid.NIL all114)).map Entry.bytes)
      (lit "@A000000007+0000000001 :log?\n") = .ok (some (Status.NOT_FOUND, [])) := by decide +kernel

/-- An event that is not in the history. -/
example : ∃ H note, Lineage H ∧ Tells ascii H note (texts (fold111 newStore Uuid.NIL lww111)) ∧
    TextReplica.Short noMax ((texts (fold111 newStore Uuid.NIL lww111)).map Entry.bytes) ∧ Stamp (tA 6) ∧
    ¬ Spec.Known H (tA 6) ∧ Spec.Known H (tA 5) ∧
    QueryText (frame84 (ask114 [(tA 6, formUuid Form.LOG)])).1 [(tA 6, formUuid Form.LOG)] ∧
    Unfolded (texts (fold111 newStore Uuid.NIL lww111)) := by
  obtain ⟨H, note, L, hT, hK⟩ := tells_lit lww111 (by
    refine fed111_proper fun x hx => ?_
    simp only [lww111, List.mem_cons, List.not_mem_nil, or_false] at hx
    unfold Stamp
    rcases hx with rfl | rfl | rfl <;> (try unfold ChainedTo) <;> (try unfold ChainedTo) <;> unfold op2 <;> decide +kernel)
    (by decide +kernel) (by decide +kernel)
  exact ⟨H, note, L, hT, short_lit 20 (by decide +kernel), by unfold Stamp; decide +kernel,
    fun h => absurd ((hK _).1 h) (by decide +kernel), (hK _).2 (by decide +kernel), query_lit (by decide +kernel),
    legible_lit (by decide +kernel) (by decide +kernel)⟩

end Ron.Props
