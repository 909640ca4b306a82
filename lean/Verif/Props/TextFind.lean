import Verif.Lemmas.TextFind
import Verif.Props.TextChain
/-!
C108: records of metadata are read back. C109: an event is found in the text of a log.
-/
namespace Ron.Props
open Ron Spec Commit TextFind

/-! ## C108 — the metadata of an event is read back -/

/-- The record made of the metadata of an event is read as the record of that event: the same id, object and type. -/
def C108_claim : Prop := ∀ (note : List Byte) (m : OpMeta), Plain62 m.id → Plain62 m.object → Plain62 m.rdt →
  (∀ b ∈ note, 32 < b.toNat ∧ b.toNat < 127 ∧ b.toNat ≠ 39 ∧ b.toNat ≠ 92) → note.length < 100 →
  m.id.version = Uuid.vTIME →
  ∃ record m', saveMeta note m = .ok record ∧ headOf m.id record = .ok (Status.OK, m') ∧
    m'.id = m.id ∧ m'.object = m.object ∧ m'.rdt = m.rdt

/-- The claim does not hold for an object of the id `1e+5`: it is written as it is, and read as a float and a
UUID after it. -/
theorem C108_violated : ¬ C108_claim := by
  intro h
  obtain ⟨record, m', h1, h2, -⟩ := h (lit "abc") ⟨tid 5 1, lwwName, denote 0 (lit "1e") 2 (lit "5"), [], 0#64, 0#64⟩
    (by unfold Plain62; decide +kernel) (by unfold Plain62; decide +kernel) (by unfold Plain62; decide +kernel)
    (by decide +kernel) (by decide +kernel) (by decide +kernel)
  have e : saveMeta (lit "abc") ⟨tid 5 1, lwwName, denote 0 (lit "1e") 2 (lit "5"), [], 0#64, 0#64⟩ =
      .ok (lit "@0000000005+0000000001 :meta 1e+5 lww 'abc';\n") := by decide +kernel
  rw [e] at h1
  injection h1 with h1
  rw [← h1] at h2
  have e2 : (headOf (tid 5 1) (lit "@0000000005+0000000001 :meta 1e+5 lww 'abc';\n")).bind (fun r => .ok r.1) =
      .ok Status.BADSYNTAX := by decide +kernel
  rw [show headOf _ _ = _ from h2] at e2
  injection e2 with e2
  exact absurd e2 (by show Status.OK ≠ Status.BADSYNTAX; decide)

theorem ascii_str : ∀ {note : List Byte}, (∀ b ∈ note, 32 < b.toNat ∧ b.toNat < 127 ∧ b.toNat ≠ 39 ∧ b.toNat ≠ 92) →
    note = (note.map UInt8.toNat).flatMap utf8append ∧ ∀ c ∈ note.map UInt8.toNat, CpOk c
  | [], _ => ⟨rfl, fun _ h => nomatch h⟩
  | b :: l, h => by
    have hb := h b List.mem_cons_self
    obtain ⟨h1, h2⟩ := ascii_str fun x hx => h x (List.mem_cons_of_mem _ hx)
    refine ⟨?_, fun c hc => ?_⟩
    · rw [List.map_cons, List.flatMap_cons, ← h1]
      unfold utf8append
      rw [if_pos (by omega)]
      show b :: l = [_] ++ l
      rw [List.singleton_append]
      congr 1
      unfold toChar
      rw [Nat.mod_eq_of_lt b.toNat_lt]
      exact (UInt8.ofNat_toNat).symm
    · rw [List.map_cons] at hc
      rcases List.mem_cons.1 hc with rfl | hc
      · unfold CpOk; omega
      · exact h2 c hc

/-- The text of a record of metadata. -/
theorem saveMeta_text {note : List Byte} {m : OpMeta} (h1 : Plain62 m.id) (h2 : Plain62 m.object) (h3 : Plain62 m.rdt)
    (hn : ∀ b ∈ note, 32 < b.toNat ∧ b.toNat < 127 ∧ b.toNat ≠ 39 ∧ b.toNat ≠ 92) (hl : note.length < 100)
    (ht : m.id.version = Uuid.vTIME) (f1 : ¬ FloatText m.object.str) (f2 : ¬ FloatText m.rdt.str) :
    ∃ record t, saveMeta note m = .ok record ∧ NoOverlong record ∧
      FrameText Uuid.NIL record [(t, ⟨m.id, formUuid Form.META, [.uuid m.object, .uuid m.rdt, .text note]⟩)] := by
  have hc : CleanCalls (fun _ => []) [.op m.id (formUuid Form.META) [.uuid m.object, .uuid m.rdt, .str note]] := by
    refine ⟨fun id ref args h => ?_, ⟨fun e => ?_, fun e => ?_, trivial⟩⟩
    · have := List.mem_singleton.1 h
      injection this with e1 e2 e3
      subst e1 e2 e3
      refine ⟨h1, by unfold Plain62; decide +kernel, fun a ha => ?_, ?_⟩
      · simp only [List.mem_cons, List.not_mem_nil, or_false] at ha
        rcases ha with rfl | rfl | rfl
        · exact ⟨h2, f1⟩
        · exact ⟨h3, f2⟩
        · exact ⟨_, ascii_str hn⟩
      · show note.length + 0 < 2 ^ 30
        omega
    · rw [show m.id = Uuid.NIL.inc from e] at ht
      exact absurd ht (by decide +kernel)
    · unfold folds at e
      rw [show alike _ _ = false from rfl, Bool.and_false] at e
      cases e
  obtain ⟨record, e1, e2, e3⟩ := Builder.built_ok hc (by show 1 < 2 ^ 32; decide)
  refine ⟨record, _, ?_, e3, e2⟩
  rw [← e1]
  unfold built saveMeta
  rw [perform]
  cases Op.mk' m.id (formUuid Form.META) [.uuid m.object, .uuid m.rdt, .str note] with
  | ok o =>
    simp only [Out.bind]
    cases Builder.init.appendOp (fun _ => []) o <;> rfl
  | abort => rfl
  | ub => rfl

/-- C108: the metadata of an event of an object whose id, and that of its type, is not written like a float is read
back. (Missing from the claim: the objects of the violation.) -/
theorem C108_partial (note : List Byte) (m : OpMeta) (h1 : Plain62 m.id) (h2 : Plain62 m.object) (h3 : Plain62 m.rdt)
    (hn : ∀ b ∈ note, 32 < b.toNat ∧ b.toNat < 127 ∧ b.toNat ≠ 39 ∧ b.toNat ≠ 92) (hl : note.length < 100)
    (ht : m.id.version = Uuid.vTIME) (f1 : ¬ FloatText m.object.str) (f2 : ¬ FloatText m.rdt.str) :
    ∃ record, saveMeta note m = .ok record ∧ (record.length < 2 ^ 30 →
      Contents record [⟨m.id, formUuid Form.META, [.uuid m.object, .uuid m.rdt, .text note]⟩] .endOfFrame ∧
      headOf m.id record = .ok (Status.OK, ⟨m.id, m.rdt, m.object, OpMeta.nil.hash, NEVER, m.id.value⟩)) := by
  obtain ⟨record, t, e1, -, e2⟩ := saveMeta_text h1 h2 h3 hn hl ht f1 f2
  refine ⟨record, e1, fun hr => ?_⟩
  have hh := (C20_frames_partial record hr _ e2).1
  refine ⟨hh, ?_⟩
  rw [head_view hh, if_neg]
  · rfl
  · rintro (h | h)
    · exact h rfl
    · exact h rfl

/-- C108: with a record that was misread no event of the yarn is found, so no chain can go on from it. -/
theorem C108_lost (hash : Cursor → Digest → Digest → Digest) (n : Nat) (record : List Byte) (r : OpView)
    (ops : List OpView) (st : Cursor.NextStatus) (log : Uuid → Status × List Byte) (id : Uuid)
    (hc : Contents record (r :: ops) st) (ho : r.id.origin = id.origin) (hr : r.ref = formUuid Form.META)
    (hv : ∀ obj rdt vs, r.vals ≠ .uuid obj :: .uuid rdt :: vs) :
    ∃ m, TextFind.findOpMeta hash n record log id = .ok (some (Status.BADSYNTAX, m)) := by
  have hh : ∃ m, headOf id record = .ok (Status.BADSYNTAX, m) := by
    rw [head_view hc, if_neg]
    · match e : r.vals with
      | [] => exact ⟨_, rfl⟩
      | [.uuid u] => exact ⟨_, rfl⟩
      | .uuid u :: .uuid v :: vs => exact absurd e (hv u v vs)
      | .uuid u :: .int v :: vs => exact ⟨_, rfl⟩
      | .uuid u :: .float v :: vs => exact ⟨_, rfl⟩
      | .uuid u :: .text v :: vs => exact ⟨_, rfl⟩
      | .int u :: vs => exact ⟨_, rfl⟩
      | .float u :: vs => exact ⟨_, rfl⟩
      | .text u :: vs => exact ⟨_, rfl⟩
    · rintro (h | h)
      · exact h ho
      · exact h hr
  obtain ⟨m, hh⟩ := hh
  refine ⟨m, ?_⟩
  unfold TextFind.findOpMeta
  rw [hh, Op.obind, if_pos (by show ¬ Status.BADSYNTAX.ok = true; decide)]

/-- The record of the violation meets this. -/
example : Contents (lit "@0000000005+0000000001 :meta 1e+5 lww 'abc';\n")
    [⟨tid 5 1, formUuid Form.META, [.float (lit "1e+5"), .uuid (denote 0 (lit "1e") 2 (lit "5")), .uuid lwwName,
      .text (lit "abc")]⟩] .endOfFrame :=
  contents_of 20 (by decide +kernel)

/-- The ids of an object and its type that are not written like floats. -/
example : ¬ FloatText (denote 0 (lit "D2") 2 (lit "A")).str ∧ ¬ FloatText lwwName.str := by
  rw [show (denote 0 (lit "D2") 2 (lit "A")).str = lit "D2+A" by decide +kernel, show lwwName.str = lit "lww" by decide +kernel]
  exact ⟨fun h => absurd (floatText_head h) (by unfold IsDigit; decide), fun h => absurd (floatText_head h) (by unfold IsDigit; decide)⟩

/-- A record of the metadata of an event of an object `1D2+A`. -/
example : (saveMeta (lit "abc") ⟨denote 0 (lit "1D4") 2 (lit "B"), lwwName, denote 0 (lit "1D2") 2 (lit "A"), [], 0#64, 0#64⟩).bind
    (headOf (denote 0 (lit "1D4") 2 (lit "B"))) =
    .ok (Status.OK, ⟨denote 0 (lit "1D4") 2 (lit "B"), lwwName, denote 0 (lit "1D2") 2 (lit "A"), OpMeta.nil.hash, NEVER,
      (denote 0 (lit "1D4") 2 (lit "B")).value⟩) := by decide +kernel

/-! ## C109 — an event is found in the text of the log -/

/-- What `FindOpMeta` says of the event `id` in a log, once it has the metadata of the head of its chain. -/
def Finds (hash : Cursor → Digest → Digest → Digest) (log : List Byte) (m : OpMeta) (id : Uuid) (r : Status × OpMeta) : Prop :=
  ∃ N, ∀ n, N ≤ n → findInLog hash n m id log = .ok (some r)

/-- C109: a log reads as ops, among which is the head `h`; `run` are those of its yarn that go on from it, each
referring to the one before. An event is found if it is in the run. The end of a yarn is found if all the ops of the
yarn after `h` are in the run, and it is the last of them. Nothing else is found. What is found has the object, the type
and the chain of the head, and the event before it in the run is the previous one. -/
theorem C109_find (hash : Cursor → Digest → Digest → Digest) (log : List Byte) (pre post run : List OpView) (h : OpView)
    (st : Cursor.NextStatus) (m : OpMeta) (id : Uuid) (hc : Contents log (pre ++ h :: post) st)
    (hp : ∀ o ∈ pre, o.id ≠ h.id) (hm : m.id = h.id) (ho : id.origin = h.id.origin)
    (hrun : run = onFrom h.id (ofYarn id.origin post)) (hr : Rising h.id run) :
    ∃ s m', Finds hash log m id (s, m') ∧ m'.rdt = m.rdt ∧ m'.object = m.object ∧ m'.chain = m.chain ∧
      ((∃ o ∈ run, o.id = id) → s = Status.OK ∧ m'.id = id ∧ valueBefore id h.id run = some m'.prev) ∧
      ((¬ ∃ o ∈ run, o.id = id) → m'.id = endId h.id run ∧
        (s = Status.OK ↔ id.value = NEVER ∧ run = ofYarn id.origin post) ∧
        (s = Status.NOT_FOUND ↔ ¬ (id.value = NEVER ∧ run = ofYarn id.origin post))) := by
  subst hrun
  obtain ⟨s, M', e, e1, e2, e3, e4⟩ := walk_spec (hs := ⟨fun _ _ _ => [], fun _ => [], fun _ => []⟩) (id := id)
    (ops := post) (M := m) (by rw [hm]; exact ho) (by rw [hm]; exact hr)
  rw [hm] at e4
  have hd : ∀ (l : List OpView), (∀ o ∈ l, o.id ≠ h.id) →
      ((l ++ h :: post).map shape).dropWhile (fun o => decide (o.id ≠ m.id)) = (h :: post).map shape := by
    intro l
    induction l with
    | nil =>
      intro _
      rw [List.nil_append, List.map_cons, List.dropWhile_cons_of_neg (by simp [shape, hm])]
    | cons a l ih =>
      intro ha
      rw [List.cons_append, List.map_cons, List.dropWhile_cons_of_pos]
      · exact ih fun o ho => ha o (List.mem_cons_of_mem _ ho)
      · simp only [shape, hm]
        exact decide_eq_true (ha a List.mem_cons_self)
  have el : opsLookup ⟨fun _ _ _ => [], fun _ => [], fun _ => []⟩ m id ((pre ++ h :: post).map shape) = some (s, M') := by
    unfold opsLookup
    rw [hd pre hp]
    exact e
  obtain ⟨N, m', g1, g2⟩ := find_ops hash hc (m := m) ⟨rfl, rfl, rfl, rfl, rfl⟩ el
  refine ⟨s, m', ⟨N, g2⟩, g1.2.1.trans e1, g1.2.2.1.trans e2, g1.2.2.2.2.trans e3, fun hf => ?_, fun hf => ?_⟩
  · rcases e4 with ⟨-, a, b, c⟩ | ⟨a, -⟩
    · exact ⟨a, g1.1.trans b, by rw [g1.2.2.2.1]; exact c⟩
    · exact absurd hf a
  · rcases e4 with ⟨a, -⟩ | ⟨-, a, b⟩
    · exact absurd a hf
    · refine ⟨g1.1.trans a, ?_⟩
      rcases b with ⟨b1, b2, b3⟩ | ⟨b1, b2⟩
      · exact ⟨⟨fun _ => ⟨b1, b2⟩, fun _ => b3⟩, ⟨fun h => by rw [b3] at h; exact absurd h (by decide), fun h => absurd ⟨b1, b2⟩ h⟩⟩
      · exact ⟨⟨fun h => by rw [b2] at h; exact absurd h (by decide), fun h => absurd h b1⟩, ⟨fun _ => b1, fun _ => b2⟩⟩

/-- C109: nothing is found in a log that does not have the head of the chain. -/
theorem C109_headless (hash : Cursor → Digest → Digest → Digest) (log : List Byte) (ops : List OpView)
    (st : Cursor.NextStatus) (m : OpMeta) (id : Uuid) (hc : Contents log ops st) (hp : ∀ o ∈ ops, o.id ≠ m.id) :
    ∃ m', Finds hash log m id (Status.NOT_FOUND, m') := by
  have hd : ∀ (l : List OpView), (∀ o ∈ l, o.id ≠ m.id) →
      (l.map shape).dropWhile (fun o => decide (o.id ≠ m.id)) = [] := by
    intro l
    induction l with
    | nil => intro _; rfl
    | cons a l ih =>
      intro ha
      rw [List.map_cons, List.dropWhile_cons_of_pos]
      · exact ih fun o ho => ha o (List.mem_cons_of_mem _ ho)
      · exact decide_eq_true (ha a List.mem_cons_self)
  have el : opsLookup ⟨fun _ _ _ => [], fun _ => [], fun _ => []⟩ m id (ops.map shape) = some (Status.NOT_FOUND, m) := by
    unfold opsLookup
    rw [hd ops hp]
  obtain ⟨N, m', -, g2⟩ := find_ops hash hc (m := m) ⟨rfl, rfl, rfl, rfl, rfl⟩ el
  exact ⟨m', N, g2⟩

/-- C109: `FindOpMeta` with the record of metadata of an event and the log of its object as text finds what the same
code finds in the ops that they say. -/
theorem C109_ops (hs : Hashing) (hash : Cursor → Digest → Digest → Digest) (record log : List Byte) (r : OpView)
    (ops : List OpView) (st : Cursor.NextStatus) (obj rdt id : Uuid) (vs : List View)
    (hrec : Contents record [r] .endOfFrame) (hv : r.ref = formUuid Form.META ∧ r.vals = .uuid obj :: .uuid rdt :: vs)
    (hlog : Contents log ops st) (ho : r.id.origin = id.origin) (s : Status) (M : OpMeta)
    (e : (if r.id = id then some (Status.OK, ⟨r.id, rdt, obj, OpMeta.nil.hash, NEVER, r.id.value⟩) else
      opsLookup hs ⟨r.id, rdt, obj, OpMeta.nil.hash, NEVER, r.id.value⟩ id (ops.map shape)) = some (s, M)) :
    ∃ m, SameMeta m M ∧ ∃ N, ∀ n, N ≤ n →
      findOpMeta hash n record (fun _ => (Status.OK, log)) id = .ok (some (s, m)) := by
  have hh : headOf id record = .ok (Status.OK, ⟨r.id, rdt, obj, OpMeta.nil.hash, NEVER, r.id.value⟩) := by
    rw [head_view hrec, if_neg, hv.2]
    · rfl
    · rintro (h | h)
      · exact h ho
      · exact h hv.1
  by_cases hi : r.id = id
  · rw [if_pos hi] at e
    injection e with e
    injection e with e e'
    subst e e'
    refine ⟨_, ⟨rfl, rfl, rfl, rfl, rfl⟩, 0, fun n _ => ?_⟩
    unfold TextFind.findOpMeta
    rw [hh, Op.obind, if_neg (by show ¬ ¬ Status.OK.ok = true; decide), if_pos hi]
  · rw [if_neg hi] at e
    obtain ⟨N, m, g1, g2⟩ := find_ops hash hlog (m := ⟨r.id, rdt, obj, OpMeta.nil.hash, NEVER, r.id.value⟩)
      ⟨rfl, rfl, rfl, rfl, rfl⟩ e
    refine ⟨m, g1, N, fun n hn => ?_⟩
    unfold TextFind.findOpMeta
    rw [hh, Op.obind, if_neg (by show ¬ ¬ Status.OK.ok = true; decide), if_neg hi, if_neg (by show ¬ ¬ Status.OK.ok = true; decide)]
    exact g2 n hn

/-- A log of two yarns: the event `1D6+B` is found after `1D4+B`, the end of the yarn `B` is `1D6+B`; there is no
event `1D5+B`. -/
def log109 : List Byte := lit "@1D2+A :lww; @1D4+B :1D2+A 'a' 1; @1D5+A :1D2+A 'b' 2; @1D6+B :1D4+B 'c' 3;"

example : Contents log109
    ([⟨denote 0 (lit "1D2") 2 (lit "A"), lwwName, []⟩] ++
      ⟨denote 0 (lit "1D4") 2 (lit "B"), denote 0 (lit "1D2") 2 (lit "A"), [.text (lit "a"), .int 1]⟩ ::
      [⟨denote 0 (lit "1D5") 2 (lit "A"), denote 0 (lit "1D2") 2 (lit "A"), [.text (lit "b"), .int 2]⟩,
       ⟨denote 0 (lit "1D6") 2 (lit "B"), denote 0 (lit "1D4") 2 (lit "B"), [.text (lit "c"), .int 3]⟩]) .endOfFrame ∧
    Rising (denote 0 (lit "1D4") 2 (lit "B")) (onFrom (denote 0 (lit "1D4") 2 (lit "B"))
      (ofYarn (denote 0 (lit "1D4") 2 (lit "B")).origin
      [⟨denote 0 (lit "1D5") 2 (lit "A"), denote 0 (lit "1D2") 2 (lit "A"), [.text (lit "b"), .int 2]⟩,
       ⟨denote 0 (lit "1D6") 2 (lit "B"), denote 0 (lit "1D4") 2 (lit "B"), [.text (lit "c"), .int 3]⟩])) := by
  refine ⟨contents_of 20 (by decide +kernel), ?_⟩
  rw [show onFrom (denote 0 (lit "1D4") 2 (lit "B")) (ofYarn (denote 0 (lit "1D4") 2 (lit "B")).origin
      [⟨denote 0 (lit "1D5") 2 (lit "A"), denote 0 (lit "1D2") 2 (lit "A"), [.text (lit "b"), .int 2]⟩,
       ⟨denote 0 (lit "1D6") 2 (lit "B"), denote 0 (lit "1D4") 2 (lit "B"), [.text (lit "c"), .int 3]⟩]) =
      [⟨denote 0 (lit "1D6") 2 (lit "B"), denote 0 (lit "1D4") 2 (lit "B"), [.text (lit "c"), .int 3]⟩] by decide +kernel]
  exact ⟨by decide +kernel, trivial⟩

def head109 : OpMeta := ⟨denote 0 (lit "1D4") 2 (lit "B"), lwwName, denote 0 (lit "1D2") 2 (lit "A"), [], NEVER,
  (denote 0 (lit "1D4") 2 (lit "B")).value⟩

def found109 (id : Uuid) : Out (Option (Status × Uuid)) :=
  (findInLog (fun _ _ _ => []) 9 head109 id log109).bind fun r => .ok (r.map fun r => (r.1, r.2.id))

example : found109 (denote 0 (lit "1D6") 2 (lit "B")) = .ok (some (Status.OK, denote 0 (lit "1D6") 2 (lit "B"))) := by
  decide +kernel

example : found109 ⟨NEVER, (denote 0 (lit "1D6") 2 (lit "B")).origin⟩ =
    .ok (some (Status.OK, denote 0 (lit "1D6") 2 (lit "B"))) := by decide +kernel

example : found109 (denote 0 (lit "1D5") 2 (lit "B")) = .ok (some (Status.NOT_FOUND, denote 0 (lit "1D6") 2 (lit "B"))) := by
  decide +kernel

end Ron.Props
