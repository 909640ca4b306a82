import Verif.Lemmas.HashStream
import Verif.Props.Replica
import Lean.Elab.Tactic.Basic
/-!
Properties of op hashes: C46, C58.
-/
namespace Ron.Props
open Ron Spec

/-! ## C46 — the hash chain commits to the history -/

/-- If the hash function is collision free on the strings hashed, two events with equal Merkle hashes
have equal ids, references, values and equal full causal histories. -/
theorem C46_commits (H : List Byte → List Byte) (a b : Hist) (ha : a.Ok) (hb : b.Ok)
    (hf : Fine H (a.strings H ++ b.strings H)) (h : a.hash H = b.hash H) : a = b :=
  Hist.hash_inj hf a b ha hb (fun _ hs => List.mem_append_left _ hs) (fun _ hs => List.mem_append_right _ hs) h

/-- Two histories that differ in one character of the op before the last, under a hash function that
is fine on them, and have different hashes. -/
example :
    let H : List Byte → List Byte := fun s => (s.reverse ++ List.replicate 32 1).take 32
    let hist (c : Nat) : Hist := .op (evA 12) (evA 11) [.str 0 2 [97, c]]
      (.op (evA 11) (formUuid Form.RGA) [.int 0 5#64] .none (.form (formUuid Form.RGA))) .none
    (hist 98).Ok ∧ (hist 99).Ok ∧ Fine H ((hist 98).strings H ++ (hist 99).strings H) ∧
      (hist 98).hash H ≠ (hist 99).hash H := by
  refine ⟨?_, ?_, ⟨fun s => ?_, ?_, ?_⟩, ?_⟩
  · simp [Hist.Ok, HAtomOk]
  · simp [Hist.Ok, HAtomOk]
  · simp
  · decide +kernel
  · decide +kernel
  · decide +kernel

/-- An op of a frame as it is hashed. -/
def plain : AVal → HAtom
  | .uuid u => .uuid u
  | .int i => .int 0 (BitVec.ofInt 64 i)
  | .float w => .float 0 w
  | .str cps => .str 0 cps.length cps

/-- The hash functions of the code, with `H` for the hash function. -/
def hashing (H : List Byte → List Byte) (text : Digest → List Nat) : Hashing :=
  ⟨fun o p r => H (opBytes o.id o.ref (o.vals.map plain) p r), fun u => H (atomBytes u), text⟩

/-- `OpMeta` keeps the hash of the history: the first op of an object, and every next op. -/
theorem C46_steps (H : List Byte → List Byte) (text : Digest → List Nat) (o : AOp) (m r m' : OpMeta) (p q : Hist)
    (hm : m.hash = p.hash H) :
    (OpMeta.root (hashing H text) o m = some m' →
      m'.hash = (Hist.op o.id o.ref (o.vals.map plain) p (.form o.ref)).hash H) ∧
    (r.hash = q.hash H → OpMeta.next (hashing H text) m o r = some m' →
      m'.hash = (Hist.op o.id o.ref (o.vals.map plain) p q).hash H) := by
  constructor
  · intro h
    unfold OpMeta.root at h
    split at h
    · cases h; simp only [Hist.hash, hashing]; rw [hm]
    · cases h
  · intro hr h
    unfold OpMeta.next at h
    split at h
    · cases h; simp only [Hist.hash, hashing]; rw [hm, hr]
    · cases h

/-- Stores built up by receiving frames under given hash functions. -/
inductive Built (mg : Reducer) (hs : Hashing) : MemStore → Prop where
  | none : Built mg hs st0
  | more {s s' : MemStore} {env : Env} {tip : Uuid} {now now' : Word} {cur : ACur} {st : Status} :
    Built mg hs s → env.mg = mg → env.hs = hs → Commit.receive env s tip now cur = some (st, s', now') →
    Built mg hs s'

/-- In a replica, for a good hash function: if two replicas have the same metadata of an event, hash
included, they have the same history of its yarn before it. -/
def C46_replica_claim : Prop := ∃ hs : Hashing, ∀ (mg : Reducer) (s t : MemStore) (e : Uuid) (f : Frame),
  Built mg hs s → Built mg hs t → (Key.mk' e Form.META, f) ∈ s → (Key.mk' e Form.META, f) ∈ t →
  ∀ b : Body, b.1.origin = e.origin → Uuid.lt b.1 e = true → (Logged s b ↔ Logged t b)

def hEnv (hs : Hashing) : Env := ⟨Rdt.mergeCursors tView, hs, 1000#64, yA⟩
def hrcv (hs : Hashing) (s : MemStore) (ops : List AOp) : Option (Status × MemStore × Word) :=
  Commit.receive (hEnv hs) s Uuid.NIL 0#64 ⟨ops, Status.ENDOFFRAME, true⟩

/-- Equality by evaluation, checked by the kernel only. -/
elab "krfl" : tactic => do
  let g ← Lean.Elab.Tactic.getMainGoal
  let t ← Lean.instantiateMVars (← g.getType)
  match t.eq? with
  | some (α, a, _) => g.assign (Lean.mkApp2 (Lean.mkConst ``Eq.refl [← Lean.Meta.getLevel α]) α a)
  | none => throwError "not an equality"

/-- The metadata of the first op of an object or yarn, when what is before it was not hashed. -/
def metaRec (hs : Hashing) (o : AOp) : Frame :=
  [op2 o.id (formUuid Form.META) [.uuid o.id, .uuid o.ref,
    .str (hs.text (hs.op o (List.replicate 32 0) (hs.form o.ref)))]]
/-- The first op of a yarn is taken for its own predecessor, `db/replica.cc:383,413`. -/
def yarnRec (hs : Hashing) (o : AOp) : Frame :=
  [op2 o.id (formUuid Form.META) [.uuid o.id, .uuid o.ref,
    .str (hs.text (hs.op o (hs.op o (List.replicate 32 0) (hs.form o.ref)) (hs.form o.ref)))]]
def hYarn : AOp := op2 (evA 10) (formUuid Form.YARN)
def hOne : AOp := op2 (evA 11) (formUuid Form.LWW)
def hTwo : AOp := op2 (evA 20) (formUuid Form.LWW)
def zRec (u : Uuid) : Key × Frame := (Key.ZERO, [op2 u (formUuid Form.ZERO)])

/-- A yarn; an object in it; another object in it; both objects. -/
def h1 (hs : Hashing) : MemStore := [zRec Uuid.NIL, zRec (evA 10), (Key.mk' (evA 10) Form.YARN, [hYarn]),
  (Key.mk' (evA 10) Form.LOG, [hYarn]), (Key.mk' (evA 10) Form.META, yarnRec hs hYarn)]
def h2 (hs : Hashing) : MemStore := [zRec Uuid.NIL, zRec (evA 10), zRec (evA 11),
  (Key.mk' (evA 10) Form.YARN, [hYarn]), (Key.mk' (evA 10) Form.LOG, [hYarn]), (Key.mk' (evA 11) Form.LOG, [hOne]),
  (Key.mk' (evA 10) Form.META, yarnRec hs hYarn), (Key.mk' (evA 11) Form.META, metaRec hs hOne),
  (Key.mk' (evA 11) Form.LWW, [hOne])]
def h3 (hs : Hashing) : MemStore := [zRec Uuid.NIL, zRec (evA 10), zRec (evA 20),
  (Key.mk' (evA 10) Form.YARN, [hYarn]), (Key.mk' (evA 10) Form.LOG, [hYarn]), (Key.mk' (evA 20) Form.LOG, [hTwo]),
  (Key.mk' (evA 10) Form.META, yarnRec hs hYarn), (Key.mk' (evA 20) Form.META, metaRec hs hTwo),
  (Key.mk' (evA 20) Form.LWW, [hTwo])]
def h4 (hs : Hashing) : MemStore := [zRec Uuid.NIL, zRec (evA 10), zRec (evA 11), zRec (evA 20),
  (Key.mk' (evA 10) Form.YARN, [hYarn]), (Key.mk' (evA 10) Form.LOG, [hYarn]), (Key.mk' (evA 11) Form.LOG, [hOne]),
  (Key.mk' (evA 20) Form.LOG, [hTwo]), (Key.mk' (evA 10) Form.META, yarnRec hs hYarn),
  (Key.mk' (evA 11) Form.META, metaRec hs hOne), (Key.mk' (evA 20) Form.META, metaRec hs hTwo),
  (Key.mk' (evA 11) Form.LWW, [hOne]), (Key.mk' (evA 20) Form.LWW, [hTwo])]

theorem h1_eq (hs : Hashing) : hrcv hs st0 [hYarn] = some (Status.OK, h1 hs, 10#64) := by krfl
theorem h2_eq (hs : Hashing) : hrcv hs (h1 hs) [hOne] = some (Status.OK, h2 hs, 11#64) := by krfl
theorem h3_eq (hs : Hashing) : hrcv hs (h1 hs) [hTwo] = some (Status.OK, h3 hs, 20#64) := by krfl
theorem h4_eq (hs : Hashing) : hrcv hs (h2 hs) [hTwo] = some (Status.OK, h4 hs, 20#64) := by krfl

/-- It fails, for any hash function: `OpMeta::Load` does not restore the hash, so the hash of the
first op of a chain says nothing of what was before. -/
theorem C46_replica_violated : ¬ C46_replica_claim := by
  rintro ⟨hs, h⟩
  have b1 : Built (hEnv hs).mg hs (h1 hs) := .more .none rfl rfl (h1_eq hs)
  have b3 : Built (hEnv hs).mg hs (h3 hs) := .more b1 rfl rfl (h3_eq hs)
  have b4 : Built (hEnv hs).mg hs (h4 hs) := .more (.more b1 rfl rfl (h2_eq hs)) rfl rfl (h4_eq hs)
  have := h _ _ _ (evA 20) (metaRec hs hTwo) b3 b4 (by simp [h3]) (by simp [h4]) hOne.body rfl (by decide)
  have hl : Logged (h4 hs) hOne.body :=
    ⟨(Key.mk' (evA 11) Form.LOG, [hOne]), by simp [h4], by decide, hOne, by simp, rfl⟩
  obtain ⟨r, hr, hf, o, ho, e⟩ := this.2 hl
  have key : ∀ r ∈ h3 hs, r.1.form = Form.LOG → r.2 = [hYarn] ∨ r.2 = [hTwo] := by
    intro r hr hf
    simp only [h3, List.mem_cons, List.not_mem_nil, or_false] at hr
    rcases hr with rfl | rfl | rfl | rfl | rfl | rfl | rfl | rfl | rfl
    · exact absurd hf (by decide)
    · exact absurd hf (by decide)
    · exact absurd hf (by decide)
    · exact Or.inl rfl
    · exact Or.inl rfl
    · exact Or.inr rfl
    · exact absurd (show (Key.mk' (evA 10) Form.META).form = Form.LOG from hf) (by decide)
    · exact absurd (show (Key.mk' (evA 20) Form.META).form = Form.LOG from hf) (by decide)
    · exact Or.inr rfl
  rcases key r hr hf with e2 | e2 <;> rw [e2, List.mem_singleton] at ho <;> subst ho <;>
    exact absurd e (by decide)

/-! ## C58 — the hash of an op and the way it is written -/

/-- The id, the reference and the values of the op a cursor is at. -/
def opValues (flt : List Byte → Word) (c : Cursor) : Out (Uuid × Uuid × List HVal) :=
  match c.op with
  | id :: ref :: vals => (Cursor.hashAtoms flt c.buf vals).bind fun hs => .ok (id, ref, hs.map hval)
  | _ => .abort

/-- Ops with the same id, reference and values are hashed the same way. -/
def C58_claim : Prop := ∀ (flt : List Byte → Word) (c d : Cursor) (p r : List Byte) (v : Uuid × Uuid × List HVal),
  opValues flt c = .ok v → opValues flt d = .ok v → c.hashable flt p r = d.hashable flt p r

/-- The cursor after `n + 1` steps. -/
def at_ (n : Nat) (c : Cursor) : Cursor :=
  match c.next with
  | .ok (c', _) => match n with
    | 0 => c'
    | n + 1 => at_ n c'
  | _ => c

/-- Three ops in one span, and the first of them as an op of its own. -/
def spreadText : List Byte := [64, 49, 50, 43, 65, 58, 49, 49, 43, 65, 40, 39, 97, 98, 99, 39, 41, 59]
def plainText : List Byte := [64, 49, 50, 43, 65, 58, 49, 49, 43, 65, 39, 97, 39, 59]

/-- It fails: a character of a span is hashed as a code point, and as a string of one character
when it is written on its own. -/
theorem C58_violated : ¬ C58_claim := by
  intro h
  have := h (fun _ => 0#64) (at_ 0 (Cursor.init spreadText)) (at_ 0 (Cursor.init plainText)) [] []
    (⟨0x0042000000000000#64, 0x2280000000000000#64⟩, ⟨0x0041000000000000#64, 0x2280000000000000#64⟩, [.text [97]])
    (by decide +kernel) (by decide +kernel)
  revert this
  decide +kernel

/-- An atom out of a frame shorter than 2^28 bytes, a string with the right count. -/
def LowAtom : HAtom → Prop
  | .uuid _ => True
  | .int hi _ => hi = 0
  | .float hi _ => hi = 0
  | .str hi n cps => hi = 0 ∧ n = cps.length
  | .chr _ => True

/-- A character of a span. -/
def spreadChar : HAtom → Bool
  | .chr _ => true
  | _ => false

/-- It holds in frames that are not huge for ops that have characters of spans in the same places.
Missing from the claim: huge frames; a character of a span against a string of one character. -/
theorem C58_notation_partial (flt : List Byte → Word) (c d : Cursor) (p r : List Byte)
    (v : Uuid × Uuid × List HVal) (hc : opValues flt c = .ok v) (hd : opValues flt d = .ok v)
    (pc : ∀ hs, Cursor.hashAtoms flt c.buf (c.op.drop 2) = .ok hs → ∀ a ∈ hs, LowAtom a)
    (pd : ∀ hs, Cursor.hashAtoms flt d.buf (d.op.drop 2) = .ok hs → ∀ a ∈ hs, LowAtom a)
    (hk : ∀ a b, Cursor.hashAtoms flt c.buf (c.op.drop 2) = .ok a →
      Cursor.hashAtoms flt d.buf (d.op.drop 2) = .ok b → a.map spreadChar = b.map spreadChar) :
    ∃ s, c.hashable flt p r = .ok s ∧ d.hashable flt p r = .ok s := by
  have key : ∀ (e : Cursor), opValues flt e = .ok v → ∃ hs,
      Cursor.hashAtoms flt e.buf (e.op.drop 2) = .ok hs ∧ hs.map hval = v.2.2 ∧
      e.hashable flt p r = .ok (opBytes v.1 v.2.1 hs p r) := by
    intro e he
    unfold opValues at he
    unfold Cursor.hashable
    match e.op, he with
    | [], he => cases he
    | [_], he => cases he
    | i :: j :: vals, he =>
      simp only [List.drop_succ_cons, List.drop_zero] at he ⊢
      match hh : Cursor.hashAtoms flt e.buf vals, he with
      | .ok hs, he =>
        have he : Out.ok (i, j, hs.map hval) = Out.ok v := he
        injection he with he
        subst he
        exact ⟨hs, rfl, rfl, rfl⟩
      | .abort, he => cases he
      | .ub, he => cases he
  obtain ⟨a, a1, a2, a3⟩ := key c hc
  obtain ⟨b, b1, b2, b3⟩ := key d hd
  have ha := pc a a1
  have hb := pd b b1
  have hk := hk a b a1 b1
  have e : a = b := by
    have h := a2.trans b2.symm
    clear a1 a2 a3 b1 b2 b3 pc pd
    induction a generalizing b with
    | nil => cases b with
      | nil => rfl
      | cons => cases h
    | cons x a ih => cases b with
      | nil => cases h
      | cons y b =>
        rw [List.map_cons, List.map_cons] at h hk
        injection h with h1 h2
        injection hk with hk1 hk2
        rw [ih b (fun z hz => ha z (List.mem_cons_of_mem _ hz)) (fun z hz => hb z (List.mem_cons_of_mem _ hz)) hk2 h2]
        congr 1
        have hx := ha x List.mem_cons_self
        have hy := hb y List.mem_cons_self
        clear ih ha hb h2 hk2
        cases x <;> cases y <;> simp_all [hval, LowAtom, spreadChar]
  exact ⟨_, a3, by rw [b3, e]⟩

/-- The op `@12+A :11+A 'ab' 5;` written twice. -/
def longText : List Byte := [64, 49, 50, 43, 65, 58, 49, 49, 43, 65, 39, 97, 98, 39, 32, 53, 59]
def spacedText : List Byte := [64, 49, 50, 43, 65, 32, 58, 49, 49, 43, 65, 32, 39, 97, 98, 39, 32, 53, 32, 59]
example : opValues (fun _ => 0#64) (at_ 0 (Cursor.init longText)) =
    opValues (fun _ => 0#64) (at_ 0 (Cursor.init spacedText)) ∧
  Cursor.hashAtoms (fun _ => 0#64) longText ((at_ 0 (Cursor.init longText)).op.drop 2) =
    .ok [.str 0 2 [97, 98], .int 0 5#64] ∧
  Cursor.hashAtoms (fun _ => 0#64) spacedText ((at_ 0 (Cursor.init spacedText)).op.drop 2) =
    .ok [.str 0 2 [97, 98], .int 0 5#64] := by decide +kernel

/-- The second character of a span, and the first character of another one. -/
def tailText : List Byte := [64, 49, 50, 48, 48, 48, 48, 48, 48, 48, 49, 43, 65, 58, 49, 50, 43, 65, 40, 39, 98, 39, 41, 59]
example : opValues (fun _ => 0#64) (at_ 1 (Cursor.init spreadText)) =
    opValues (fun _ => 0#64) (at_ 0 (Cursor.init tailText)) ∧
  Cursor.hashAtoms (fun _ => 0#64) spreadText ((at_ 1 (Cursor.init spreadText)).op.drop 2) = .ok [.chr 98] ∧
  Cursor.hashAtoms (fun _ => 0#64) tailText ((at_ 0 (Cursor.init tailText)).op.drop 2) = .ok [.chr 98] := by
  decide +kernel

end Ron.Props
