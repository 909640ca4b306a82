import Verif.Props.Query
import Verif.Model.Txt
/-!
C99: a text that was written is the text of the object.
-/
namespace Ron.Props
open Ron.Spec Ron.Commit Ron.Host

/-- The text of an object in a store, as the mapper shows it. -/
def textIn (mg : Reducer) (s : OpenStore) (id : Uuid) : Option (Rga.SOut (List Byte)) :=
  (Engine.read mg s.data (Key.mk' id Form.RGA)).map fun r =>
    Rga.txtRead (fun _ => 0) (r.2.map fun o => ⟨o, true⟩)

/-- A write of a text to an object: the id of its derivative, the form of texts and a string. -/
def textWrite (id : Uuid) (text : List Nat) : ACur :=
  ⟨[op2 id.derived (formUuid Form.TXT) [.str text] .header], Status.ENDOFFRAME, true⟩

/-- C99: after a text was written to an object and the write was answered with OK, it is the text of the
object. -/
def C99_claim : Prop := ∀ (v : Rdt.View) (hs : Hashing) (wall : Word) (h : Host) (yarn : Word) (id : Uuid)
  (text : List Nat) (h' : Host) (s' : OpenStore), Lived (Rdt.mergeCursors v) hs Careful h →
  id.version = Uuid.vTIME → (∀ c ∈ text, 0 < c ∧ c < 0xD800) →
  h.receive (Rdt.mergeCursors v) hs wall yarn (textWrite id text) = some (Status.OK, h') →
  h'.find (branchId yarn) = some s' →
  textIn (Rdt.mergeCursors v) s' id = some (.ok (text.flatMap utf8append))

/-- The text "Hi". -/
def hostHi : Host := act host2 (frameA [op2 (evA 2000) (formUuid Form.RGA),
  op2 (evA 2001) (evA 2000) [.str [72]], op2 (evA 2002) (evA 2001) [.str [105]]])

theorem livedHi : Lived mg6 tHash Careful hostHi :=
  lived_act lived2 (by
    intro s hs
    left
    have : (host2.find (branchId yA)).map (fun s => decide (s.tip = Uuid.NIL)) = some false := by decide +kernel
    rw [hs] at this
    simpa using this) (by decide +kernel)

/-- C99 is violated: "Ho" is written over "Hi", the answer is OK and the text is "Hi". The two texts the mapper
compares are empty both. -/
theorem C99_violated : ¬ C99_claim := by
  intro hc
  have k : (match hostHi.receive mg6 tHash 3000#64 yA (textWrite (evA 2000) [72, 111]) with
    | some (st, h') => decide (st = Status.OK) && (match h'.find (branchId yA) with
      | some s' => decide (textIn mg6 s' (evA 2000) = some (.ok [72, 105]))
      | none => false)
    | none => false) = true := by decide +kernel
  split at k
  · rename_i st h' e
    rw [Bool.and_eq_true, decide_eq_true_eq] at k
    obtain ⟨rfl, k⟩ := k
    split at k
    · rename_i s' e'
      rw [decide_eq_true_eq] at k
      have := hc tView tHash 3000#64 hostHi yA (evA 2000) [72, 111] h' s' livedHi (by decide) (by decide) e e'
      rw [show textIn (Rdt.mergeCursors tView) s' (evA 2000) = some (.ok [72, 105]) from k] at this
      revert this
      decide
    · cases k
  · cases k

/-! ### What is changed -/

theorem read_idle {env : Env} {c c' : Commit} {k : Key} {f : Frame} {st : Status} (hm : c.mem = [])
    (h : c.read env k [] = some (st, f, c')) : c' = c := by
  have hr : c.mem.read env.mg k [] = some (Status.OK, [], []) := by rw [hm]; rfl
  have e : { c with mem := [] } = c := by rw [← hm]
  unfold Commit.read at h
  obtain ⟨a, ha, h⟩ := bind_some h
  split at h
  · cases h; rfl
  · rw [hr] at h
    simp only [Option.bind_some] at h
    rw [if_neg (by decide)] at h
    split at h
    · cases h; exact e
    · rw [if_pos trivial] at h
      cases h; exact e

theorem findOpMeta_idle {env : Env} {c c' : Commit} {id : Uuid} {m : OpMeta} {st : Status} (hm : c.mem = [])
    (h : c.findOpMeta env id = some (st, m, c')) : c' = c := by
  unfold findOpMeta at h
  obtain ⟨a, ha, h⟩ := bind_some h
  split at h
  · cases h; rfl
  · split at h
    · cases h; rfl
    · obtain ⟨l, hl, h⟩ := bind_some h
      have hx := read_idle (st := l.1) (f := l.2.1) (c' := l.2.2) hm hl
      split at h
      · cases h; exact hx
      · split at h
        · cases h; exact hx
        · obtain ⟨r, hr, h⟩ := map_some h
          cases h; exact hx

/-- Nothing is to be written but the tip. -/
def Idle (c c' : Commit) : Prop := c'.main = c.main ∧ c'.mem = [] ∧ c'.base = c.base

theorem Idle.same {c : Commit} (hm : c.mem = []) : Idle c c := ⟨rfl, hm, rfl⟩

theorem Idle.of {c c' : Commit} (e : c' = c) (hm : c.mem = []) : Idle c c' := by
  rw [e]; exact Idle.same hm

theorem Idle.trans {a b c : Commit} (h : Idle a b) (k : Idle b c) : Idle a c :=
  ⟨k.1.trans h.1, k.2.1, k.2.2.trans h.2.2⟩

theorem next_ops (cur : ACur) : ∀ o ∈ cur.next.2.ops, o ∈ cur.ops := by
  intro o ho
  unfold ACur.next at ho
  split at ho
  · exact ho
  · split at ho
    · exact ho
    · simp at ho
    · rename_i e; rw [e]; simp at ho ⊢; exact Or.inr ho

theorem txtWrite_idle {env : Env} {c c' : Commit} {cur cur' : ACur} {st : Status} (hm : c.mem = [])
    (h : c.txtWrite env cur = some (st, c', cur')) : Idle c c' ∧ ∀ o ∈ cur'.ops, o ∈ cur.ops := by
  unfold txtWrite at h
  split at h
  · cases h
  · rename_i o os e
    split at h
    · obtain ⟨r, hr, h⟩ := bind_some h
      have hx := read_idle (st := r.1) (f := r.2.1) (c' := r.2.2) hm hr
      split at h
      · cases h; exact ⟨Idle.of hx hm, fun _ h => h⟩
      · split at h
        · cases h
        · cases h; exact ⟨Idle.of hx hm, fun _ h => h⟩
        · simp only [writeNewEvents_eq, Option.map_some] at h
          cases h
          rw [hx]
          refine ⟨⟨rfl, hm, rfl⟩, fun p hp => ?_⟩
          rw [e]
          exact List.mem_cons_of_mem _ hp
    · cases h; exact ⟨Idle.same hm, fun _ h => h⟩

theorem receiveQuery_idle {env : Env} {c c' : Commit} {cur cur' : ACur} {st : Status} (hm : c.mem = [])
    (h : c.receiveQuery env cur = some (st, c', cur')) : Idle c c' ∧ ∀ o ∈ cur'.ops, o ∈ cur.ops := by
  refine ⟨?_, (receiveQuery_keeps h).2⟩
  unfold receiveQuery at h
  split at h
  · cases h
  · rename_i o os e
    simp only at h
    split at h
    · unfold queryObject at h
      obtain ⟨r, hr, h⟩ := map_some h
      have hx := read_idle (st := r.1) (f := r.2.1) (c' := r.2.2) hm hr
      split at h <;> (cases h; exact Idle.of hx hm)
    · split at h
      · unfold queryObjectLog at h
        simp only at h
        obtain ⟨m, h1, h⟩ := bind_some h
        have hx := findOpMeta_idle (st := m.1) (m := m.2.1) (c' := m.2.2) hm h1
        split at h
        · cases h; exact Idle.of hx hm
        · obtain ⟨r, hr, h⟩ := bind_some h
          have hy : r.2.2 = c := by
            have := read_idle (st := r.1) (f := r.2.1) (c' := r.2.2) (by rw [hx]; exact hm) hr
            rw [this, hx]
          split at h
          · cases h; exact Idle.of hy hm
          · split at h
            · cases h; exact Idle.of hy hm
            · split at h
              · cases h
              · split at h <;> (cases h; exact Idle.of hy hm)
      · cases h; exact Idle.same hm

/-- An op for a mapper, or a query. -/
def ForMappers (o : AOp) : Prop := o.id.version = Uuid.vDERIVED ∨ o.term = .query ∧ o.id ≠ NAME_UUID

theorem dispatch_idle {env : Env} {c c' : Commit} {cur cur' : ACur} {st : Status} (hm : c.mem = [])
    (hq : ∀ o ∈ cur.ops, ForMappers o) (h : c.dispatch env cur = some (st, c', cur')) :
    Idle c c' ∧ ∀ o ∈ cur'.ops, o ∈ cur.ops := by
  unfold dispatch at h
  split at h
  · cases h
  · rename_i o os e
    have q := hq o (by rw [e]; simp)
    split at h
    · rename_i hv
      rcases q with q | ⟨q, -⟩
      · rw [q] at hv; exact absurd hv (by decide)
      · rw [if_pos q] at h
        exact receiveQuery_idle hm h
    · split at h
      · split at h
        · unfold receiveMapQuery at h
          rw [e] at h
          simp only at h
          split at h
          · obtain ⟨r, hr, h⟩ := map_some h
            have hx := read_idle (st := r.1) (f := r.2.1) (c' := r.2.2) hm hr
            split at h
            · cases h; exact ⟨Idle.of hx hm, fun _ h => h⟩
            · cases h; exact ⟨Idle.of hx hm, next_ops _⟩
          · cases h; exact ⟨Idle.same hm, fun _ h => h⟩
        · unfold receiveMapWrites at h
          rw [e] at h
          simp only at h
          split at h
          · exact txtWrite_idle hm h
          · cases h; exact ⟨Idle.same hm, fun _ h => h⟩
      · rename_i hv
        split at h
        · split at h
          · cases h; exact ⟨Idle.same hm, next_ops _⟩
          · split at h
            · rename_i hn
              rcases q with q | ⟨-, q⟩
              · exact absurd q hv
              · exact absurd hn q
            · cases h; exact ⟨Idle.same hm, fun _ h => h⟩
        · cases h; exact ⟨Idle.same hm, fun _ h => h⟩

theorem loop_idle {env : Env} : ∀ (n : Nat) {c c' : Commit} {cur : ACur} {st : Status}, c.mem = [] →
    (∀ o ∈ cur.ops, ForMappers o) → c.receiveLoop env n cur = some (st, c') → Idle c c' := by
  intro n
  induction n with
  | zero => intro c c' cur st _ _ h; cases h
  | succ n ih =>
    intro c c' cur st hm hq h
    unfold receiveLoop at h
    split at h
    · cases h; exact Idle.same hm
    · obtain ⟨r, hr, h⟩ := bind_some h
      obtain ⟨k1, k2⟩ := dispatch_idle (st := r.1) (c' := r.2.1) (cur' := r.2.2) hm hq hr
      split at h
      · cases h; exact k1
      · split at h
        · exact k1.trans (ih k1.2.1 (fun o ho => hq o (k2 o ho)) h)
        · cases h; exact k1

theorem receive_idle {env : Env} {main main' : MemStore} {tip : Uuid} {now now' : Word} {cur : ACur} {st : Status}
    (hs : MemStore.Sorted main) (hq : ∀ o ∈ cur.ops, ForMappers o)
    (h : Commit.receive env main tip now cur = some (st, main', now')) :
    ∀ k, k ≠ Key.ZERO → stored k main' = stored k main := by
  intro k hk
  unfold Commit.receive at h
  obtain ⟨q, hl, h⟩ := map_some h
  obtain ⟨i1, i2, -⟩ := loop_idle _ (rfl : (Commit.start main tip now).mem = []) hq hl
  have i1 : q.2.main = main := i1
  split at h
  · cases h; rw [i1]
  · simp only at h
    cases h
    rcases save_main q.2 with ⟨-, e | e⟩ | ⟨-, e⟩
    · rw [e, i1]
    · rw [e, i1, i2]
      have := writeAll_operands k (MemStore.insert Key.ZERO [⟨q.2.tip, formUuid Form.ZERO, [], .raw⟩] []) hs
      refine this.trans ?_
      rw [show Engine.operands (MemStore.insert Key.ZERO [⟨q.2.tip, formUuid Form.ZERO, [], .raw⟩] []) k = [] from ?_]
      · exact List.append_nil _
      · unfold Engine.operands MemStore.insert
        simp [Ne.symm hk]
    · rw [e, i1]

/-- C99, what mappers change: ops for mappers and queries, whatever their outcome, change no record of any store
but for the one of the tip, and nothing at all in the other stores. Missing from the claim: the text that was
written, as shown above. -/
theorem C99_kept_partial (mg : Reducer) (hs : Hashing) (wall : Word) (h : Host) (yarn : Word) (cur : ACur)
    (st : Status) (h' : Host) (ho : ∀ s ∈ h.stores, KeyOrder s.data) (hq : ∀ o ∈ cur.ops, ForMappers o)
    (e : h.receive mg hs wall yarn cur = some (st, h')) :
    h'.active = h.active ∧ ∀ id s, h.find id = some s → ∃ d, h'.find id = some { s with data := d } ∧
      (id ≠ branchId yarn → d = s.data) ∧ ∀ k, k ≠ Key.ZERO → stored k d = stored k s.data := by
  unfold Host.receive at e
  split at e
  · cases e; exact ⟨rfl, fun id s hf => ⟨s.data, hf, fun _ => rfl, fun _ _ => rfl⟩⟩
  · split at e
    · cases e; exact ⟨rfl, fun id s hf => ⟨s.data, hf, fun _ => rfl, fun _ _ => rfl⟩⟩
    · rename_i s0 hs0
      obtain ⟨r, hr, e⟩ := map_some e
      have hid : s0.id = branchId yarn := by
        have := List.find?_some hs0
        simpa using this
      have key := receive_idle (st := r.1) (main' := r.2.1) (now' := r.2.2) (ho s0 (List.mem_of_find?_eq_some hs0)) hq hr
      cases e
      refine ⟨rfl, fun id s hf => ?_⟩
      by_cases hi : id = branchId yarn
      · rw [hi, hs0] at hf
        cases hf
        refine ⟨r.2.1, ?_, fun x => absurd hi x, key⟩
        show (h.setData s0.id r.2.1).find id = _
        rw [hi, ← hid, find_setData_same (by rw [hid]; exact hs0)]
      · refine ⟨s.data, ?_, fun _ => rfl, fun _ _ => rfl⟩
        show (h.setData s0.id r.2.1).find id = _
        rw [find_setData (by rw [hid]; exact hi)]
        exact hf

/-- C99, the text after a write: the text it was, of every object in every store. -/
theorem C99_text_partial (mg : Reducer) (hs : Hashing) (wall : Word) (h : Host) (yarn : Word) (id : Uuid)
    (text : List Nat) (st : Status) (h' : Host) (ho : ∀ s ∈ h.stores, KeyOrder s.data)
    (e : h.receive mg hs wall yarn (textWrite id text) = some (st, h'))
    (store : Uuid) (s : OpenStore) (hf : h.find store = some s) (obj : Uuid) :
    ∃ s', h'.find store = some s' ∧ textIn mg s' obj = textIn mg s obj := by
  have hq : ∀ o ∈ (textWrite id text).ops, ForMappers o := by
    intro o ho
    left
    rw [show o = op2 id.derived (formUuid Form.TXT) [.str text] .header from by
      unfold textWrite at ho; simpa using ho]
    show (Uuid.derivedOf id.value id.origin).version = _
    unfold Uuid.derivedOf Uuid.version Word.flags Uuid.vDERIVED
    have : id.origin.payload < 2 ^ 60 := Nat.mod_lt _ (by decide)
    simp only
    rw [BitVec.toNat_ofNat]
    omega
  obtain ⟨-, k⟩ := C99_kept_partial mg hs wall h yarn _ st h' ho hq e
  obtain ⟨d, k1, -, k2⟩ := k store s hf
  refine ⟨_, k1, ?_⟩
  unfold textIn
  have : Engine.read mg d (Key.mk' obj Form.RGA) = Engine.read mg s.data (Key.mk' obj Form.RGA) := by
    have k3 : Engine.operands d (Key.mk' obj Form.RGA) = Engine.operands s.data (Key.mk' obj Form.RGA) :=
      k2 (Key.mk' obj Form.RGA) (by
        intro e
        have := congrArg Key.form e
        rw [form_mk] at this
        revert this
        decide)
    unfold Engine.read
    rw [k3]
  simp only [this]

/-- A text is written and answered with OK, and the stores are in order. -/
example : (∀ s ∈ hostHi.stores, KeyOrder s.data) ∧ (evA 2000).version = Uuid.vTIME ∧
    (hostHi.receive mg6 tHash 3000#64 yA (textWrite (evA 2000) [72, 111])).map Prod.fst = some Status.OK ∧
    (hostHi.find (branchId yA)).isSome ∧ (∀ o ∈ (textWrite (evA 2000) [72, 111]).ops, ForMappers o) := by
  refine ⟨?_, by decide, by decide +kernel, by decide +kernel, ?_⟩
  · intro s hs
    exact livedHi.sound.good s hs |>.sorted
  · intro o ho
    left
    revert o
    decide

end Ron.Props
