import Verif.Lemmas.TextReplica
/-!
C111: a store of texts finds the events of the history it was made of.
-/
namespace Ron.Props
open Ron Spec Commit

/-- What is found when the loops may run long enough. -/
def Found (mx : TextReplica.MaxReducer) (hash : Cursor → Digest → Digest → Digest) (A : List Entry) (id : Uuid)
    (r : Status × OpMeta) : Prop :=
  ∃ N, ∀ n, N ≤ n → TextReplica.findOpMeta mx hash n (A.map Entry.bytes) id = .ok (some r)

/-- C111: the records are texts, each of which says what a store of the history holds. An event is found if and only if
it is in the history, with the object and the type of its chain. -/
def C111_claim : Prop := ∀ (R : Reading) (mx : TextReplica.MaxReducer) (hash : Cursor → Digest → Digest → Digest)
  (H : List Chain) (note : Uuid → List Nat) (A : List Entry) (id : Uuid),
  Lineage H → Tells R H note A → TextReplica.Short mx (A.map Entry.bytes) → Stamp id →
  ∃ st m, Found mx hash A id (st, m) ∧ (st.ok = true ↔ Known H id) ∧ (st.ok = false → st = Status.NOT_FOUND) ∧
    ∀ c ∈ H, c.Has id → m.id = id ∧ m.object = c.object ∧ m.rdt = c.rdt

/-! ### Texts of a store, for concrete stores -/

/-- Strings of ASCII. -/
def ascii : Reading := ⟨fun _ => 0#64, fun t => t.map UInt8.toNat⟩

def argOf : AVal → Arg
  | .uuid u => .uuid u
  | .int i => .int i
  | .float w => .float w
  | .str cs => .str (cs.map UInt8.ofNat)

def callsOf (f : Frame) : List Call := (f.map fun o => .op o.id o.ref (o.vals.map argOf)) ++ [.endChunk 0]

def texts (s : MemStore) : List Entry := s.map fun r => (r.1, frame84 (callsOf r.2))

theorem says_lit : ∀ {s : MemStore}, (s.all fun r => copyable84 (callsOf r.2) &&
    decide (r.2.map AOp.body = (frame84 (callsOf r.2)).2.map fun x => (ascii.op x.2).body)) = true → Says ascii (texts s) s
  | [], _ => .nil
  | r :: s, h => by
    rw [List.all_cons, Bool.and_eq_true, Bool.and_eq_true] at h
    exact .cons ⟨rfl, copyable_lit h.1.1, of_decide_eq_true h.1.2⟩ (says_lit h.2)

theorem read_mono {mx : TextReplica.MaxReducer} {n : Nat} {s : TextReplica.TStore} {k : Key} {r : Status × List Byte}
    (h : TextReplica.read mx n s k = .ok (some r)) (j : Nat) : TextReplica.read mx (n + j) s k = .ok (some r) := by
  unfold TextReplica.read at h ⊢
  split
  · rename_i e
    rw [if_pos e] at h
    exact h
  · rename_i e
    rw [if_neg e] at h
    split
    · rename_i e
      rw [e] at h
      exact h
    · rename_i fs hne
      split at h
      · rename_i e
        exact absurd e hne
      · obtain ⟨cs, e1, h⟩ := Cursor.bind_ok h
        obtain ⟨x, e2, h⟩ := Cursor.bind_ok h
        cases x with
        | none => cases h
        | some x =>
          rw [e1, Op.obind, TextReplica.cursors_mono e2 j, Op.obind]
          exact h

theorem short_lit {mx : TextReplica.MaxReducer} {A : List Entry} (n : Nat) (h : ∀ a ∈ A, (match TextReplica.read mx n (A.map Entry.bytes) a.1 with
    | .ok (some r) => decide (r.2.length < 2 ^ 30) | _ => false) = true) : TextReplica.Short mx (A.map Entry.bytes) := by
  intro m k text e
  by_cases hk : ∃ a ∈ A, a.1 = k
  · obtain ⟨a, ha, rfl⟩ := hk
    have := h a ha
    split at this
    · rename_i r hr
      have h1 := read_mono hr m
      have h2 := read_mono e n
      rw [Nat.add_comm, h1] at h2
      cases h2
      exact of_decide_eq_true this
    · cases this
  · unfold TextReplica.read at e
    split at e
    · cases e; decide
    · have : TextReplica.operands (A.map Entry.bytes) k = [] := by
        rw [TextReplica.operands_bytes]
        unfold entriesAt
        rw [List.map_map, List.map_eq_nil_iff, List.filter_eq_nil_iff]
        intro a ha e
        exact hk ⟨a, ha, of_decide_eq_true e⟩
      rw [this] at e
      cases e
      decide

theorem legible_lit {A : List Entry} (h : ∀ a ∈ A, (a.1.form = Form.LOG ∨ a.1.form = Form.YARN → Mixable (opsAt A a.1)) ∧
      (a.1.form = Form.LOG → ∀ p ∈ opsAt A a.1, ∀ o ∈ opsAt A a.1, folds p.id p.vals o = false) ∧
      (a.1.form = Form.YARN → OneOpPerId (entriesAt A a.1)) ∧ (opsAt A a.1).length < 2 ^ 31)
    (ht : ∀ o ∈ opsAt A Key.ZERO, o.id ≠ Uuid.NIL.inc) : Unfolded A := by
  have hn : ∀ k, (∃ a ∈ A, a.1 = k) ∨ entriesAt A k = [] := by
    intro k
    by_cases hk : ∃ a ∈ A, a.1 = k
    · exact .inl hk
    · right
      unfold entriesAt
      rw [List.map_eq_nil_iff, List.filter_eq_nil_iff]
      intro a ha e
      exact hk ⟨a, ha, of_decide_eq_true e⟩
  have ho : ∀ {k}, entriesAt A k = [] → opsAt A k = [] := by
    intro k e
    unfold opsAt
    rw [e]
    rfl
  refine ⟨fun k hk => ?_, fun k hk => ?_, fun k hk => ?_, fun k => ?_, ht⟩ <;> rcases hn k with ⟨a, ha, rfl⟩ | e
  · exact (h a ha).1 hk
  · rw [ho e]
    exact ⟨fun _ h => (nomatch h), fun _ h => (nomatch h)⟩
  · exact (h a ha).2.1 hk
  · rw [ho e]
    exact fun _ h => (nomatch h)
  · exact (h a ha).2.2.1 hk
  · rw [e]
    exact fun _ h => (nomatch h)
  · exact (h a ha).2.2.2
  · rw [ho e]
    decide

theorem seekHead_mono {head : Uuid} : ∀ {n : Nat} {c c' : Cursor}, TextFind.seekHead head n c = .ok (some c') →
    ∀ j, TextFind.seekHead head (n + j) c = .ok (some c')
  | 0, _, _, h, _ => by cases h
  | n + 1, c, c', h, j => by
    rw [Nat.add_right_comm, TextFind.seekHead]
    rw [TextFind.seekHead] at h
    split
    · rename_i hv
      rw [if_pos hv] at h
      cases hi : c.id with
      | none => rw [hi] at h; cases h
      | some i =>
        rw [hi] at h
        simp only at h ⊢
        split
        · rename_i hne
          rw [if_pos hne] at h
          obtain ⟨r, e, h⟩ := Cursor.bind_ok h
          rw [e, Op.obind]
          exact seekHead_mono h j
        · rename_i hne
          rw [if_neg hne] at h
          exact h
    · rename_i hv
      rw [if_neg hv] at h
      exact h

theorem walkLog_mono {hash : Cursor → Digest → Digest → Digest} {id : Uuid} : ∀ {n : Nat} {m : OpMeta} {c : Cursor}
    {r : Status × OpMeta}, TextFind.walkLog hash id n m c = .ok (some r) → ∀ j, TextFind.walkLog hash id (n + j) m c = .ok (some r)
  | 0, _, _, _, h, _ => by cases h
  | n + 1, m, c, r, h, j => by
    rw [Nat.add_right_comm, TextFind.walkLog]
    rw [TextFind.walkLog] at h
    obtain ⟨x, e, h⟩ := Cursor.bind_ok h
    rw [e, Op.obind]
    split
    · rename_i hv
      rw [if_pos hv] at h
      exact h
    · rename_i hv
      rw [if_neg hv] at h
      cases hi : TextChain.heading x.1 with
      | none => rw [hi] at h; cases h
      | some o =>
        rw [hi] at h
        simp only at h ⊢
        split
        · rename_i hne
          rw [if_pos hne] at h
          exact walkLog_mono h j
        · rename_i hne
          rw [if_neg hne] at h
          split
          · rename_i hr
            rw [if_pos hr] at h
            exact h
          · rename_i hr
            rw [if_neg hr] at h
            obtain ⟨m', e', h⟩ := Cursor.bind_ok h
            rw [e', Op.obind]
            split
            · rename_i hq
              rw [if_pos hq] at h
              exact h
            · rename_i hq
              rw [if_neg hq] at h
              exact walkLog_mono h j

theorem findInLog_mono {hash : Cursor → Digest → Digest → Digest} {id : Uuid} {n : Nat} {m : OpMeta} {log : List Byte}
    {r : Status × OpMeta} (h : TextFind.findInLog hash n m id log = .ok (some r)) (j : Nat) :
    TextFind.findInLog hash (n + j) m id log = .ok (some r) := by
  unfold TextFind.findInLog at h ⊢
  obtain ⟨x, e, h⟩ := Cursor.bind_ok h
  obtain ⟨c, e2, h⟩ := Cursor.bind_ok h
  cases c with
  | none => cases h
  | some c =>
    rw [e, Op.obind, seekHead_mono e2 j, Op.obind]
    simp only at h ⊢
    split
    · rename_i hv
      rw [if_pos hv] at h
      exact walkLog_mono h j
    · rename_i hv
      rw [if_neg hv] at h
      exact h

/-- What is found is found when the loops may run longer. -/
theorem findOpMeta_mono {mx : TextReplica.MaxReducer} {hash : Cursor → Digest → Digest → Digest} {n : Nat}
    {s : TextReplica.TStore} {id : Uuid} {r : Status × OpMeta} (h : TextReplica.findOpMeta mx hash n s id = .ok (some r))
    (j : Nat) : TextReplica.findOpMeta mx hash (n + j) s id = .ok (some r) := by
  have hs : ∀ {k : Key} {x}, TextReplica.seekPrev mx n s k = .ok (some x) → TextReplica.seekPrev mx (n + j) s k = .ok (some x) := by
    intro k x h
    unfold TextReplica.seekPrev at h ⊢
    split
    · rename_i e
      rw [e] at h
      exact h
    · rename_i e
      rw [e] at h
      exact read_mono h j
  unfold TextReplica.findOpMeta at h ⊢
  obtain ⟨x, e, h⟩ := Cursor.bind_ok h
  cases x with
  | none => cases h
  | some x =>
    rw [hs e, Op.obind]
    simp only at h ⊢
    split
    · rename_i hq
      rw [if_pos hq] at h
      exact h
    · rename_i hq
      rw [if_neg hq] at h
      obtain ⟨y, e, h⟩ := Cursor.bind_ok h
      rw [e, Op.obind]
      split
      · rename_i hq
        rw [if_pos hq] at h
        exact h
      · rename_i hq
        rw [if_neg hq] at h
        split
        · rename_i hq
          rw [if_pos hq] at h
          exact h
        · rename_i hq
          rw [if_neg hq] at h
          obtain ⟨l, e, h⟩ := Cursor.bind_ok h
          cases l with
          | none => cases h
          | some l =>
            rw [read_mono e j, Op.obind]
            simp only at h ⊢
            split
            · rename_i hq
              rw [if_pos hq] at h
              exact h
            · rename_i hq
              rw [if_neg hq] at h
              exact findInLog_mono h j

theorem found_of {mx : TextReplica.MaxReducer} {hash : Cursor → Digest → Digest → Digest} {A : List Entry} {id : Uuid}
    {r : Status × OpMeta} (n : Nat) (h : TextReplica.findOpMeta mx hash n (A.map Entry.bytes) id = .ok (some r)) :
    Found mx hash A id r := by
  refine ⟨n, fun m hm => ?_⟩
  obtain ⟨j, rfl⟩ : ∃ j, m = n + j := ⟨m - n, by omega⟩
  exact findOpMeta_mono h j

theorem found_unique {mx : TextReplica.MaxReducer} {hash : Cursor → Digest → Digest → Digest} {A : List Entry} {id : Uuid}
    {r r' : Status × OpMeta} (h : Found mx hash A id r) (h' : Found mx hash A id r') : r = r' := by
  obtain ⟨N, h⟩ := h
  obtain ⟨N', h'⟩ := h'
  have := h (max N N') (by omega)
  rw [h' _ (by omega)] at this
  cases this
  rfl

/-! ### an event that nobody made -/

def tA (n : Nat) : Uuid := tid (10 * 2 ^ 54 + n) 1

/-- A yarn, an array, the letter `a` and after it `;`. -/
def fed111 : List (AOp × List AOp) :=
  [(op2 (tA 1) (formUuid Form.YARN), []), (op2 (tA 2) (formUuid Form.RGA), []), (op2 (tA 3) (tA 2) [.str [97]], []),
   (op2 (tA 4) (tA 3) [.str [59]], [])]

def fold111 (s : MemStore) (tip : Uuid) : List (AOp × List AOp) → MemStore
  | [] => s
  | c :: l => fold111 (after (rcv s tip (c.1 :: c.2))) (lastOf c.1.id c.2) l

def good111 (s : MemStore) (tip : Uuid) : List (AOp × List AOp) → Bool
  | [] => true
  | c :: l => (rcv s tip (c.1 :: c.2)).isSome && (statusOf (rcv s tip (c.1 :: c.2))).ok &&
      good111 (after (rcv s tip (c.1 :: c.2))) (lastOf c.1.id c.2) l

theorem fed111_run : ∀ (l : List (AOp × List AOp)) {s : MemStore} {tip : Uuid} {acc : List (List AOp)}, Fed tView s acc →
    (tip = Uuid.NIL ∨ ∃ f ∈ acc, ∃ x ∈ f, x.id = tip) → (∀ c ∈ l, Spec.Proper c.1 c.2) → good111 s tip l = true →
    Fed tView (fold111 s tip l) (acc ++ l.map fun c => c.1 :: c.2)
  | [], s, tip, acc, h, _, _, _ => by rw [List.map_nil, List.append_nil]; exact h
  | c :: l, s, tip, acc, h, ht, hp, hg => by
    rw [good111, Bool.and_eq_true, Bool.and_eq_true] at hg
    have := fed_run h (hp c List.mem_cons_self) ht hg.1.1
    rw [if_pos hg.1.2] at this
    rw [List.map_cons, fold111, show acc ++ (c.1 :: c.2) :: l.map (fun c => c.1 :: c.2) =
      (acc ++ [c.1 :: c.2]) ++ l.map (fun c => c.1 :: c.2) by simp]
    refine fed111_run l this ?_ (fun x hx => hp x (List.mem_cons_of_mem _ hx)) hg.2
    obtain ⟨y, hy, e⟩ := lastOf_mem c.1 c.2
    exact .inr ⟨c.1 :: c.2, by simp, y, hy, e⟩

/-- The history that a store of concrete chains holds. -/
theorem tells_lit (l : List (AOp × List AOp)) (hp : ∀ c ∈ l, Spec.Proper c.1 c.2) (hg : good111 newStore Uuid.NIL l = true)
    (hs : ((fold111 newStore Uuid.NIL l).all fun r => copyable84 (callsOf r.2) &&
      decide (r.2.map AOp.body = (frame84 (callsOf r.2)).2.map fun x => (ascii.op x.2).body)) = true) :
    ∃ H note, Lineage H ∧ Tells ascii H note (texts (fold111 newStore Uuid.NIL l)) ∧
      ∀ i, Known H i ↔ ∃ c ∈ l, ∃ x ∈ c.1 :: c.2, x.id = i := by
  obtain ⟨H, note, e, L, K⟩ := C101_history _ _ _ (fed111_run l Fed.new (.inl rfl) hp hg)
  refine ⟨H, note, L, ⟨true, _, says_lit hs, K⟩, fun i => ?_⟩
  constructor
  · rintro ⟨c, hc, x, hx, rfl⟩
    have : c.ops ∈ H.map Chain.ops := List.mem_map_of_mem hc
    rw [e, List.nil_append] at this
    obtain ⟨d, hd, hde⟩ := List.mem_map.1 this
    exact ⟨d, hd, x, by rw [hde]; exact hx, rfl⟩
  · rintro ⟨d, hd, x, hx, rfl⟩
    have : (d.1 :: d.2) ∈ l.map fun c => c.1 :: c.2 := List.mem_map_of_mem hd
    rw [List.nil_append] at e
    rw [← e] at this
    obtain ⟨c, hc, hce⟩ := List.mem_map.1 this
    exact ⟨c, hc, x, by rw [hce]; exact hx, rfl⟩

theorem fed111_proper {l : List (AOp × List AOp)} (h : ∀ c ∈ l, c.1.term ≠ .query ∧ Stamp c.1.id ∧ c.1.id.origin.payload ≠ 0 ∧
    ChainedTo c.1.id c.2 ∧ Stamp (lastOf c.1.id c.2) ∧ (c.1.ref.version = Uuid.vTIME → Stamp c.1.ref) ∧
    (c.1.ref.version = Uuid.vNAME → uuid2form c.1.ref = Form.ZERO ∨ uuid2form c.1.ref ∈ types)) :
    ∀ c ∈ l, Spec.Proper c.1 c.2 := fun c hc => by
  obtain ⟨h1, h2, h3, h4, h5, h6, h7⟩ := h c hc
  exact ⟨h1, h2, h3, h4, h5, h6, h7⟩

theorem yes111 : ∀ x ∈ fed111, Spec.Proper x.1 x.2 := by
  refine fed111_proper fun x hx => ?_
  simp only [fed111, List.mem_cons, List.not_mem_nil, or_false] at hx
  unfold Stamp
  rcases hx with rfl | rfl | rfl | rfl <;> unfold ChainedTo <;> unfold op2 <;> decide +kernel

/-- C111 is violated: the letters are `a` and `;`. The next event after them is found although it is not in the
history. -/
theorem C111_violated : ¬ C111_claim := by
  intro hc
  obtain ⟨H, note, L, hT, hK⟩ := tells_lit fed111 yes111 (by decide +kernel) (by decide +kernel)
  obtain ⟨st, m, h1, h2, -⟩ := hc ascii noMax (fun _ _ _ => []) H note _ (tA 5) L hT
    (short_lit 20 (by decide +kernel)) (by unfold Stamp; decide +kernel)
  have e : (match TextReplica.findOpMeta noMax (fun _ _ _ => []) 20
      ((texts (fold111 newStore Uuid.NIL fed111)).map Entry.bytes) (tA 5) with
      | .ok (some r) => r.1.ok | _ => false) = true := by decide +kernel
  split at e
  · rename_i r hr
    have := found_unique h1 (found_of 20 hr)
    rw [← this] at e
    obtain ⟨c, hc, x, hx, hi⟩ := (hK _).1 (h2.1 e)
    simp only [fed111, List.mem_cons, List.not_mem_nil, or_false] at hc
    rcases hc with rfl | rfl | rfl | rfl <;> simp only [List.mem_cons, List.not_mem_nil, or_false] at hx <;> subst hx <;>
      revert hi <;> unfold op2 <;> decide +kernel
  · cases e

/-! ### when it is so -/

def env111 : Env := ⟨Rdt.mergeCursors tView, TextReplica.flat, 0#64, 0#64⟩

/-- C111: if what is merged can be read back (`Unfolded`: letters that follow each other are not in different records of
a log), an event is found if and only if it is in the history, with the object and the type of its chain. -/
theorem C111_found_partial (R : Reading) (mx : TextReplica.MaxReducer) (hash : Cursor → Digest → Digest → Digest)
    (H : List Chain) (note : Uuid → List Nat) (A : List Entry) (id : Uuid) (L : Lineage H) (hT : Tells R H note A)
    (hl : Unfolded A) (hs : TextReplica.Short mx (A.map Entry.bytes)) (hi : Stamp id) :
    ∃ st m, Found mx hash A id (st, m) ∧ (st.ok = true ↔ Known H id) ∧ (st.ok = false → st = Status.NOT_FOUND) ∧
      ∀ c ∈ H, c.Has id → m.id = id ∧ m.object = c.object ∧ m.rdt = c.rdt := by
  obtain ⟨wh, s, hS, K⟩ := hT
  obtain ⟨st, M, e, h1, h2, h3⟩ := C101_found tView H note s L K env111 rfl Uuid.NIL 0#64 id hi
  obtain ⟨N, m, hm, hN⟩ := TextReplica.find_sim hash hS hl L.sound K hs (env := env111) rfl rfl e
  refine ⟨st, m, ⟨N, hN⟩, h1, h2, fun c hc hh => ?_⟩
  obtain ⟨g1, g2, g3⟩ := h3 c hc hh
  exact ⟨hm.1.trans g1, hm.2.2.1.trans g2, hm.2.1.trans g3⟩

/-- The tip of a yarn is its greatest event; a yarn without events is not found. -/
theorem C111_tip_partial (R : Reading) (mx : TextReplica.MaxReducer) (hash : Cursor → Digest → Digest → Digest)
    (H : List Chain) (note : Uuid → List Nat) (A : List Entry) (y : Word) (L : Lineage H) (hT : Tells R H note A)
    (hl : Unfolded A) (hs : TextReplica.Short mx (A.map Entry.bytes)) (hy : y.toNat / 2 ^ 60 = 2) :
    ∃ st m, (∃ N, ∀ n, N ≤ n → TextReplica.findYarnTipMeta mx hash n (A.map Entry.bytes) y = .ok (some (st, m))) ∧
      (st.ok = true ↔ ∃ i, Known H i ∧ i.origin = y) ∧ (st.ok = false → st = Status.NOT_FOUND) ∧
      (st.ok = true → Known H m.id ∧ m.id.origin = y ∧
        ∀ j, Known H j → j.origin = y → j = m.id ∨ Uuid.lt j m.id = true) := by
  obtain ⟨wh, s, hS, K⟩ := hT
  obtain ⟨st, M, e, h1, h2, h3⟩ := C101_tip tView H note s L K env111 rfl Uuid.NIL 0#64 y hy
  obtain ⟨N, m, hm, hN⟩ := TextReplica.find_sim hash hS hl L.sound K hs (env := env111) rfl rfl
    (show Commit.findOpMeta env111 (start s Uuid.NIL 0#64) ⟨NEVER, y⟩ = _ from e)
  refine ⟨st, m, ⟨N, hN⟩, h1, h2, fun hok => ?_⟩
  rw [hm.1]
  exact h3 hok

/-- The log of an object reads as the chains of the object, in the order they were accepted. -/
theorem C111_log_partial (R : Reading) (mx : TextReplica.MaxReducer) (H : List Chain) (note : Uuid → List Nat)
    (A : List Entry) (L : Lineage H) (hT : Tells R H note A) (hl : Unfolded A)
    (hs : TextReplica.Short mx (A.map Entry.bytes)) (c : Chain) (hc : c ∈ H) :
    ∃ text ops, (∃ N, ∀ n, N ≤ n →
        TextReplica.read mx n (A.map Entry.bytes) (Key.mk' c.object Form.LOG) = .ok (some (Status.OK, text))) ∧
      Contents text ops .endOfFrame ∧ ops.map (fun o => (R.op o).body) = (logOf H c.object).map AOp.body := by
  obtain ⟨wh, s, hS, K⟩ := hT
  have hne : entriesAt A (Key.mk' c.object Form.LOG) ≠ [] := by
    intro h0
    obtain ⟨f, hf⟩ := log_mem K.toRetains hc
    have := TextReplica.says_at hS (Key.mk' c.object Form.LOG)
    rw [h0] at this
    have h2 := mem_stored.2 hf
    generalize stored (Key.mk' c.object Form.LOG) s = fs at this h2
    cases this
    cases h2
  obtain ⟨text, h1, h2⟩ := TextReplica.log_text (mx := mx) hS hl hs (k := Key.mk' c.object Form.LOG) (form_mk _ _) hne
  refine ⟨text, _, h1, h2, ?_⟩
  have h3 := TextReplica.says_ops (TextReplica.says_at hS (Key.mk' c.object Form.LOG))
  rw [K.log _ (form_mk _ _)] at h3
  unfold opsAt
  rw [h3]
  unfold logOf
  congr 2
  apply List.filter_congr
  intro d hd
  rw [decide_eq_decide]
  refine ⟨fun e => ?_, fun e => by rw [e]⟩
  exact (C08_key_injective _ _ _ _ (L.object d hd).1.event (L.object c hc).1.event e).1

instance (l : List OpView) : Decidable (Mixable l) := by unfold Mixable; infer_instance
instance (l : List (List Byte × List (Nat × OpView))) : Decidable (OneOpPerId l) := by unfold OneOpPerId; infer_instance

/-- A yarn, a register and two chains of it: the hypotheses hold, and an event is found that is in the middle of a
chain. -/
def lww111 : List (AOp × List AOp) :=
  [(op2 (tA 1) (formUuid Form.YARN), []),
   (op2 (tA 2) (formUuid Form.LWW), [op2 (tA 3) (tA 2) [.uuid (formUuid Form.RGA), .int 7]]),
   (op2 (tA 5) (tA 3) [.uuid (formUuid Form.LWW), .str [97, 98]], [op2 (tA 8) (tA 5) [.uuid (formUuid Form.LWW), .int 5]])]

example : ∃ H note, Lineage H ∧ Tells ascii H note (texts (fold111 newStore Uuid.NIL lww111)) ∧
    Unfolded (texts (fold111 newStore Uuid.NIL lww111)) ∧
    TextReplica.Short noMax ((texts (fold111 newStore Uuid.NIL lww111)).map Entry.bytes) ∧
    Stamp (tA 8) ∧ Known H (tA 8) ∧ Stamp (tA 6) ∧ ¬ Known H (tA 6) := by
  obtain ⟨H, note, L, hT, hK⟩ := tells_lit lww111 (by
    refine fed111_proper fun x hx => ?_
    simp only [lww111, List.mem_cons, List.not_mem_nil, or_false] at hx
    unfold Stamp
    rcases hx with rfl | rfl | rfl <;> (try unfold ChainedTo) <;> (try unfold ChainedTo) <;> unfold op2 <;> decide +kernel)
    (by decide +kernel) (by decide +kernel)
  refine ⟨H, note, L, hT, legible_lit (by decide +kernel) (by decide +kernel),
    short_lit 20 (by decide +kernel), by unfold Stamp; decide +kernel, (hK _).2 (by decide +kernel),
    by unfold Stamp; decide +kernel, fun h => absurd ((hK _).1 h) (by decide +kernel)⟩

end Ron.Props
