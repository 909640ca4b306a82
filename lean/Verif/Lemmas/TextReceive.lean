import Verif.Model.TextReceive
import Verif.Props.TextReplica
/-!
A chain that comes as text.
-/
namespace Ron.TextReplica
open Ron Spec Commit TextFind TextChain

variable {R : Reading} {A : List Entry} {s : MemStore} {H : List Chain} {wh : Bool} {note : Uuid → List Nat} {w : World}

theorem lt_not {a b : Uuid} (h : Uuid.lt a b = true) : Uuid.lt b a = false := by
  revert h
  unfold Uuid.lt
  simp only [Bool.or_eq_true, decide_eq_true_eq, Bool.and_eq_true, Bool.or_eq_false_iff, decide_eq_false_iff_not,
    Bool.and_eq_false_iff, ← BitVec.toNat_inj]
  omega

theorem lt_not_lt {a b c : Uuid} (h : Uuid.lt a b = true) (h' : Uuid.lt c b = false) : Uuid.lt c a = false := by
  revert h h'
  unfold Uuid.lt
  simp only [Bool.or_eq_true, decide_eq_true_eq, Bool.and_eq_true, Bool.or_eq_false_iff, decide_eq_false_iff_not,
    Bool.and_eq_false_iff, ← BitVec.toNat_inj]
  omega

/-! ### Is it taken -/

/-- The tip of a yarn is found in the texts, with its object. -/
theorem tip_text (L : Lineage H) (hS : Says R A s) (K : Carries wh H note s) (hl : Unfolded A)
    (hs : Short w.mx (A.map Entry.bytes)) {y : Word} (hy : y.toNat / 2 ^ 60 = 2) :
    (∀ i, Spec.Known H i → i.origin ≠ y) ∧
      (∃ N m, ∀ n, N ≤ n → findYarnTipMeta w.mx w.hash n (A.map Entry.bytes) y = .ok (some (Status.NOT_FOUND, m))) ∨
    ∃ t, ∃ e ∈ H, e.Has t.id ∧ t.id.origin = y ∧ t.object = e.object ∧ t.rdt = e.rdt ∧
      (∀ j, Spec.Known H j → j.origin = y → j.value.toNat ≤ t.id.value.toNat) ∧
      ∃ N, ∀ n, N ≤ n → findYarnTipMeta w.mx w.hash n (A.map Entry.bytes) y = .ok (some (Status.OK, t)) := by
  have L' : Lineage (H ++ []) := by rw [List.append_nil]; exact L
  have M := mid_start K Uuid.NIL 0#64
  by_cases hk : ∃ i, Spec.Known H i ∧ i.origin = y
  · obtain ⟨i, hi, hiy⟩ := hk
    obtain ⟨m, d, c', hd, e, -, h1, h2, h3, h4, h5⟩ := yarn_known (env := Props.env111) L' M rfl
      (by rw [List.append_nil]; exact hi) hiy (Clear.nil _)
    rw [List.append_nil] at hd h3
    obtain ⟨N, t, ht, hN⟩ := find_sim w.hash hS hl L.sound K hs (env := Props.env111) rfl rfl
      (show Commit.findOpMeta Props.env111 (start s Uuid.NIL 0#64) ⟨NEVER, y⟩ = _ from e)
    have hid : t.id = m.id := ht.1
    exact .inr ⟨t, d, hd, by rw [hid]; exact h1, by rw [hid]; exact h2, ht.2.2.1.trans h4, ht.2.1.trans h5,
      by rw [hid]; exact h3, N, hN⟩
  · have hun : ∀ i, Spec.Known H i → i.origin ≠ y := fun i hi e => hk ⟨i, hi, e⟩
    have e := yarn_unknown (env := Props.env111) L' M rfl hy (by rw [List.append_nil]; exact hun) (Clear.nil _)
    obtain ⟨N, t, -, hN⟩ := find_sim w.hash hS hl L.sound K hs (env := Props.env111) rfl rfl
      (show Commit.findOpMeta Props.env111 (start s Uuid.NIL 0#64) ⟨NEVER, y⟩ = _ from e)
    exact .inl ⟨hun, N, t, hN⟩

/-- What goes on from a history is an event that refers to a type or to an earlier event. -/
theorem follows_sane {c : Chain} (hi : c.head.id.version = Uuid.vTIME) (hf : Spec.Follows H c) :
    (checkEventSanity c.head).ok = true := by
  unfold checkEventSanity
  rw [if_neg (by rw [hi]; decide)]
  rcases hf.cause with ⟨h1, h2, -⟩ | ⟨h1, h2, -⟩
  · rw [if_neg (by rw [h1]; decide), if_neg (by rw [h1]; decide), if_neg h2]; decide
  · rw [if_pos h1, if_neg (by unfold Uuid.ge; rw [h2]; decide)]; decide

/-- The metadata of an op that creates an object, after an op of its yarn. -/
def rooted (w : World) (c : Cursor) (x : OpView) (p : OpMeta) : OpMeta :=
  ⟨x.id, x.ref, x.id, w.hash c p.hash (w.form x.ref), p.id.value, x.id.value⟩

theorem sanity_shape (x : OpView) : checkEventSanity (shape x) = checkEventSanity (R.op x) := rfl

/-- The chain is taken if and only if it goes on from the history; its metadata is that of its first op. -/
theorem meta_text (L : Lineage H) (hS : Says R A s) (K : Carries wh H note s) (hl : Unfolded A)
    (hs : Short w.mx (A.map Entry.bytes)) {x : OpView} {os : List AOp} (P : Spec.Proper (R.op x) os) (c : Cursor) :
    ∃ N st m, (∀ n, N ≤ n → chainMeta w n (A.map Entry.bytes) c (shape x) = .ok (some (st, m))) ∧
      (st.ok = true → ∃ d : Chain, d.head = R.op x ∧ d.rest = os ∧ Spec.Follows H d ∧ m.id = x.id ∧ m.object = d.object ∧
        m.rdt = d.rdt) ∧
      (st.ok = false → ∀ d : Chain, d.head = R.op x → ¬ Spec.Follows H d) := by
  have hi : x.id.version = Uuid.vTIME := P.stamp.time
  have hok : Status.OK.ok = true := by decide
  by_cases hsn : (checkEventSanity (R.op x)).ok = true
  rotate_left
  · refine ⟨0, _, OpMeta.nil, fun n _ => ?_, fun h => absurd h hsn, fun _ d hd hf => ?_⟩
    · unfold chainMeta
      rw [if_pos (by rw [sanity_shape (R := R)]; exact hsn)]
      rfl
    · exact hsn (by rw [← hd]; exact follows_sane (by rw [hd]; exact hi) hf)
  have hsr := sane_ref hsn
  have key : ∀ n, chainMeta w n (A.map Entry.bytes) c (shape x) =
      (yarnTip w n (A.map Entry.bytes) c (shape x)).bind fun t =>
        match t with
        | none => .ok none
        | some t => if ¬ t.1.ok then .ok (some t) else headMeta w n (A.map Entry.bytes) c t.2 (shape x) := by
    intro n
    unfold chainMeta
    rw [if_neg (by rw [sanity_shape (R := R)]; exact fun h => h hsn)]
    rfl
  rcases tip_text (w := w) L hS K hl hs (y := x.id.origin) P.stamp.2 with
    ⟨hun, N, m0, hN⟩ | ⟨t, e, he, hhas, hto, htobj, htrdt, hgr, N, hN⟩
  · by_cases hy : x.ref = formUuid Form.YARN
    · have hn : x.ref.version = Uuid.vNAME := by rw [hy]; decide +kernel
      refine ⟨N, Status.OK, rooted w c x (rooted w c x OpMeta.nil), fun n hnn => ?_, fun _ => ⟨⟨R.op x, os, x.id, x.ref⟩, rfl, rfl,
        ⟨.inl ⟨hy, hun⟩, .inl ⟨hn, ?_, rfl, rfl⟩⟩, ?_, ?_, ?_⟩, fun h => absurd h (by decide)⟩
      · rw [key]
        unfold yarnTip
        rw [show (shape x).id.origin = x.id.origin from rfl, hN n hnn, Op.obind]
        simp only
        rw [if_pos (show (shape x).ref = _ from hy), if_pos (by decide), root_some (o := shape x) hi hn]
        unfold asserted
        rw [Op.obind]
        simp only
        rw [if_neg (by rw [hok]; decide)]
        unfold headMeta
        rw [if_neg, if_pos (show (shape x).ref.version = _ from hn), if_neg, root_some (o := shape x) hi hn]
        · rfl
        · show uuid2form x.ref ≠ _
          rw [hy]; decide +kernel
        · intro e
          have e : x.ref = x.id := e
          rw [e, hi] at hn
          exact absurd hn (by decide)
      · show uuid2form x.ref ≠ _
        rw [hy]; decide +kernel
      · rfl
      · rfl
      · rfl
    · refine ⟨N, Status.NOT_FOUND, m0, fun n hnn => ?_, fun h => absurd h (by decide), fun _ d hd hf => ?_⟩
      · rw [key]
        unfold yarnTip
        rw [show (shape x).id.origin = x.id.origin from rfl, hN n hnn, Op.obind]
        simp only
        rw [if_neg (show ¬ (shape x).ref = _ from hy), if_pos (by decide), Op.obind]
        simp only
        rw [if_pos (by decide)]
      · rcases hf.yarn with ⟨h1, -⟩ | ⟨-, ⟨i, h1, h2⟩, -⟩
        · rw [hd] at h1; exact hy h1
        · rw [hd] at h2; exact hun i h1 h2
  · have hkt : Spec.Known H t.id := ⟨e, he, hhas⟩
    by_cases hy : x.ref = formUuid Form.YARN
    · have hno : ∀ d : Chain, d.head = R.op x → ¬ Spec.Follows H d := by
        intro d hd hf
        rcases hf.yarn with ⟨-, h1⟩ | ⟨h1, -⟩
        · exact h1 _ hkt (by rw [hd]; exact hto)
        · rw [hd] at h1; exact h1 hy
      by_cases hid : x.id = t.id
      · refine ⟨N, Status.REPEAT, t, fun n hnn => ?_, fun h => absurd h (by decide), fun _ => hno⟩
        rw [key]
        unfold yarnTip
        rw [show (shape x).id.origin = x.id.origin from rfl, hN n hnn, Op.obind]
        simp only
        rw [if_pos (show (shape x).ref = _ from hy), if_neg (by decide), if_neg (by decide),
          if_pos (show (shape x).id = _ from hid), Op.obind]
        simp only
        rw [if_pos (by decide)]
      · refine ⟨N, Status.CONFLICT, t, fun n hnn => ?_, fun h => absurd h (by decide), fun _ => hno⟩
        rw [key]
        unfold yarnTip
        rw [show (shape x).id.origin = x.id.origin from rfl, hN n hnn, Op.obind]
        simp only
        rw [if_pos (show (shape x).ref = _ from hy), if_neg (by decide), if_neg (by decide),
          if_neg (show ¬ (shape x).id = _ from hid), Op.obind]
        simp only
        rw [if_pos (by decide)]
    · by_cases hlt : Uuid.lt t.id x.id = true
      rotate_left
      · refine ⟨N, Status.CAUSEBREAK, t, fun n hnn => ?_, fun h => absurd h (by decide), fun _ d hd hf => ?_⟩
        · rw [key]
          unfold yarnTip
          rw [show (shape x).id.origin = x.id.origin from rfl, hN n hnn, Op.obind]
          simp only
          rw [if_neg (show ¬ (shape x).ref = _ from hy), if_neg (by decide), if_pos, Op.obind]
          · simp only
            rw [if_pos (by decide)]
          · show Uuid.ge t.id x.id = true
            unfold Uuid.ge
            rw [Bool.not_eq_true] at hlt
            rw [hlt]
            decide
        · rcases hf.yarn with ⟨h1, -⟩ | ⟨-, -, h1⟩
          · rw [hd] at h1; exact hy h1
          · rw [hd] at h1; exact hlt (h1 _ hkt hto)
      have hyarn : (∃ i, Spec.Known H i ∧ i.origin = x.id.origin) ∧
          ∀ i, Spec.Known H i → i.origin = x.id.origin → Uuid.lt i x.id = true := by
        refine ⟨⟨t.id, hkt, hto⟩, fun j hj hjo => ?_⟩
        have h1 := hgr j hj hjo
        have h2 := (Uuid.lt_same hto).1 hlt
        exact (Uuid.lt_same hjo).2 (by omega)
      have hyt : ∀ n, N ≤ n → chainMeta w n (A.map Entry.bytes) c (shape x) = headMeta w n (A.map Entry.bytes) c t (shape x) := by
        intro n hnn
        rw [key]
        unfold yarnTip
        rw [show (shape x).id.origin = x.id.origin from rfl, hN n hnn, Op.obind]
        simp only
        rw [if_neg (show ¬ (shape x).ref = _ from hy), if_neg (by decide), if_neg, Op.obind]
        · simp only
          rw [if_neg (by decide)]
        · show ¬ Uuid.ge t.id x.id = true
          unfold Uuid.ge
          rw [hlt]
          decide
      have hnext : ∀ u : OpMeta, ∃ m, t.next (w.here c) (shape x) u = some m ∧ m.id = x.id ∧ m.object = u.object ∧ m.rdt = u.rdt := by
        intro u
        unfold OpMeta.next
        rw [if_pos ⟨hto.symm, hlt⟩]
        exact ⟨_, rfl, rfl, rfl, rfl⟩
      have htime : t.id.version = Uuid.vTIME := (L.known hkt).time
      rcases hsr with ⟨h1, h2⟩ | ⟨h1, h2⟩
      · have h1 : x.ref.version = Uuid.vNAME := h1
        refine ⟨N, Status.OK, rooted w c x t, fun n hnn => ?_, fun _ => ⟨⟨R.op x, os, x.id, x.ref⟩, rfl, rfl,
          ⟨.inr ⟨hy, hyarn⟩, .inl ⟨h1, h2, rfl, rfl⟩⟩, ?_, ?_, ?_⟩, fun h => absurd h (by decide)⟩
        · rw [hyt n hnn]
          unfold headMeta
          rw [if_neg, if_pos (show (shape x).ref.version = _ from h1), if_neg, root_some (o := shape x) hi h1]
          · rfl
          · exact (types_form ((P.type h1).resolve_left h2)).2.2.2
          · intro e
            have e : x.ref = t.id := e
            rw [e, htime] at h1
            exact absurd h1 (by decide)
        · rfl
        · rfl
        · rfl
      · have h1 : x.ref.version = Uuid.vTIME := h1
        by_cases hrt : x.ref = t.id
        · obtain ⟨m, e1, e2, e3, e4⟩ := hnext t
          refine ⟨N, Status.OK, m, fun n hnn => ?_, fun _ => ⟨⟨R.op x, os, e.object, e.rdt⟩, rfl, rfl,
            ⟨.inr ⟨hy, hyarn⟩, .inr ⟨h1, h2, e, he, by rw [show (R.op x).ref = t.id from hrt]; exact hhas, rfl, rfl⟩⟩, e2,
            e3.trans htobj, e4.trans htrdt⟩, fun h => absurd h (by decide)⟩
          rw [hyt n hnn]
          unfold headMeta
          rw [if_pos (show (shape x).ref = _ from hrt), e1]
          rfl
        · obtain ⟨st, r, ⟨N', hN'⟩, k1, k2, k3⟩ := Props.C111_found_partial R w.mx w.hash H note A x.ref L ⟨wh, s, hS, K⟩ hl hs
            (P.cause h1)
          have hh : ∀ n, max N N' ≤ n → chainMeta w n (A.map Entry.bytes) c (shape x) =
              if ¬ st.ok then .ok (some (st, t)) else asserted (t.next (w.here c) (shape x) r) := by
            intro n hnn
            rw [hyt n (by omega)]
            unfold headMeta
            rw [if_neg (show ¬ (shape x).ref = _ from hrt), if_neg (by
              show ¬ x.ref.version = _
              rw [h1]; decide), show (shape x).ref = x.ref from rfl, hN' n (by omega), Op.obind]
          by_cases hst : st.ok = true
          · obtain ⟨b, hb, hbh⟩ := k1.1 hst
            obtain ⟨g1, g2, g3⟩ := k3 b hb hbh
            obtain ⟨m, e1, e2, e3, e4⟩ := hnext r
            refine ⟨max N N', Status.OK, m, fun n hnn => ?_, fun _ => ⟨⟨R.op x, os, b.object, b.rdt⟩, rfl, rfl,
              ⟨.inr ⟨hy, hyarn⟩, .inr ⟨h1, h2, b, hb, hbh, rfl, rfl⟩⟩, e2,
              e3.trans g2, e4.trans g3⟩, fun h => absurd h (by decide)⟩
            rw [hh n hnn, if_neg (fun h => h hst), e1]
            rfl
          · refine ⟨max N N', st, t, fun n hnn => ?_, fun h => absurd h hst, fun _ d hd hf => ?_⟩
            · rw [hh n hnn, if_pos hst]
            · rcases hf.cause with ⟨q1, -⟩ | ⟨-, -, b, hb, hbh, -⟩
              · rw [hd] at q1
                exact absurd (h1.symm.trans q1) (by decide)
              · rw [hd] at hbh
                exact hst (k1.2 ⟨b, hb, hbh⟩)

/-! ### What is written -/

/-- The text of an op without values. -/
theorem oneOp_text {id ref : Uuid} (h1 : Plain62 id) (h2 : Plain62 ref) (ht : id.version = Uuid.vTIME) :
    ∃ record t, oneOp id ref = .ok record ∧ NoOverlong record ∧ FrameText Uuid.NIL record [(t, ⟨id, ref, []⟩)] := by
  have hc : CleanCalls (fun _ => []) [.op id ref []] := by
    refine ⟨fun i r args h => ?_, ⟨fun e => ?_, fun e => ?_, trivial⟩⟩
    · have := List.mem_singleton.1 h
      injection this with e1 e2 e3
      subst e1 e2 e3
      exact ⟨h1, h2, fun a ha => (nomatch ha), by show 0 < 2 ^ 30; decide⟩
    · rw [show id = Uuid.NIL.inc from e] at ht
      exact absurd ht (by decide +kernel)
    · unfold folds at e
      rw [show alike _ _ = false from rfl, Bool.and_false] at e
      cases e
  obtain ⟨record, e1, e2, e3⟩ := Builder.built_ok hc (by show 1 < 2 ^ 32; decide)
  refine ⟨record, _, ?_, e3, e2⟩
  rw [← e1]
  unfold built oneOp
  rw [perform]
  cases Op.mk' id ref [] with
  | ok o =>
    simp only [Out.bind]
    cases Builder.init.appendOp (fun _ => []) o <;> rfl
  | abort => rfl
  | ub => rfl

theorem from_chained : ∀ {p : Uuid} {l : List OpView}, ChainedTo p (l.map R.op) → ChainFrom p l l []
  | p, [], _ => .done p
  | _, _ :: _, h => .next h.1 h.2.1 h.2.2.1 h.2.2.2.1 (from_chained h.2.2.2.2)

theorem last_same (p : Uuid) (l : List OpView) : lastId p l = lastOf p (l.map R.op) := by
  unfold lastId lastOf
  rw [List.getLast?_map, Option.map_map]
  rfl

/-- The cursor at the first op of a chain, and the record of the chain. -/
theorem chain_text {text : List Byte} {x : Nat × OpView} {post : List (Nat × OpView)} (hi : Copyable (text, x :: post))
    (hn : (x :: post).length < 2 ^ 31) (hx : x.2.id.version = Uuid.vTIME)
    (hc : ChainFrom x.2.id (post.map Prod.snd) (post.map Prod.snd) []) (hr : PlainRuns (x.2 :: post.map Prod.snd)) :
    ∃ c, (Cursor.init text).next = .ok (c, .ok) ∧ c.valid = true ∧ heading c = some (shape x.2) ∧ c.term = x.1 ∧
      ∀ s : Walk, s.m.id = x.2.id → (x.2.id.origin = s.base.origin → Uuid.le s.tip x.2.id = true) →
      ∃ N data s' c', (∀ n, N ≤ n → chainRecord w.hash n s c = .ok (some (Status.OK, data, s', c'))) ∧
        FrameText Uuid.NIL data (saidBy ((x.2 :: post.map Prod.snd).map Step.op)) ∧ NoOverlong data ∧
        s'.m.id = lastId x.2.id (post.map Prod.snd) ∧ s'.m.object = s.m.object ∧ s'.m.rdt = s.m.rdt ∧ c'.valid = false := by
  obtain ⟨m0, c, m, t1, t2, t3, t4, t5⟩ := reach hi.size hi.text (pre := []) rfl
  cases m0 with
  | cons _ _ => cases t2
  | nil =>
  rw [List.nil_append] at t1
  have hv : ∀ y ∈ x :: post, ∀ v ∈ y.2.vals, CopyOk v := fun y hy => hi.vals y hy
  refine ⟨c, ?_, ?_, heading_holds t3.1, t3.1.term, fun s hm ht => ?_⟩
  · cases t1 with
    | more h1 _ => exact h1
  · unfold Cursor.valid
    rw [t3.1.cs]
    decide
  obtain ⟨N, works, s', c', w1, w0, w2, w3, w4, w5, w6, -⟩ := walk_ok w.hash hi.size hi.short hc t4 t5 rfl
    (fun y hy => hv y (List.mem_cons_of_mem _ hy)) hm hx ht
  have hf := fits_cursor hi.size hi.short t3.1 (hv x (by simp))
  have hlen : ((x.2 :: post.map Prod.snd).map Step.op).length < 2 ^ 32 := by
    simp only [List.length_map, List.length_cons] at hn ⊢
    omega
  obtain ⟨b, data, b', f1, f2, f3, f4⟩ := Builder.work_whole (.cons hf w1) (record_clean hx (from_linked hc) hr) hlen
  obtain ⟨b1, g1, g2⟩ := TextChain.work_cons f1
  refine ⟨N, data, s', c', fun n hn => ?_, f3, f4 ?_, w3, w4, w5, ?_⟩
  · unfold chainRecord saveChainlet
    rw [work_cursor g1, Op.obind, w2 b1 b g2 n hn, Op.obind]
    simp only
    rw [if_pos (by decide), f2, Op.obind]
  · intro w hw
    rcases List.mem_cons.1 hw with rfl | hw
    · exact Builder.cursor_whole hi.short (t := x.1) (o := x.2) t3.1
    · exact w0 w hw
  · unfold Cursor.valid
    rw [w6 rfl]
    decide

/-! ### Records that are added -/

/-- A record is put after the records with the same key. -/
def addTo (k : Key) (i : List Byte × List (Nat × OpView)) : List Entry → List Entry
  | [] => [(k, i)]
  | a :: A => if Key.lt k a.1 then (k, i) :: a :: A else a :: addTo k i A

/-- Records are added. -/
def addAll (A B : List Entry) : List Entry := B.foldl (fun A b => addTo b.1 b.2 A) A

theorem bytes_add (k : Key) (i : List Byte × List (Nat × OpView)) : ∀ A : List Entry,
    (addTo k i A).map Entry.bytes = insert k i.1 (A.map Entry.bytes)
  | [] => rfl
  | a :: A => by
    rw [addTo, List.map_cons, insert]
    by_cases h : Key.lt k a.1 = true
    · rw [if_pos h, if_pos (show Key.lt k a.bytes.1 = true from h)]
      rfl
    · rw [if_neg h, if_neg (show ¬ Key.lt k a.bytes.1 = true from h), List.map_cons, bytes_add k i A]

theorem bytes_all : ∀ (B A : List Entry), (addAll A B).map Entry.bytes = writeAll (A.map Entry.bytes) (B.map Entry.bytes)
  | [], _ => rfl
  | b :: B, A => by
    have h := bytes_all B (addTo b.1 b.2 A)
    rw [bytes_add] at h
    exact h

theorem says_add {k : Key} {i : List Byte × List (Nat × OpView)} {f : Frame} (hi : Copyable i)
    (hf : f.map AOp.body = i.2.map fun x => (R.op x.2).body) :
    ∀ {A : List Entry} {s : MemStore}, Says R A s → Says R (addTo k i A) (MemStore.insert k f s)
  | _, _, .nil => .cons ⟨rfl, hi, hf⟩ .nil
  | a :: A, r :: s, .cons h1 h2 => by
    have ih := says_add (k := k) hi hf h2
    rw [addTo, MemStore.insert, h1.1]
    split
    · exact .cons ⟨rfl, hi, hf⟩ (.cons h1 h2)
    · exact .cons h1 ih

theorem says_all : ∀ {B A : List Entry} {t s : MemStore}, Says R B t → Says R A s → Says R (addAll A B) (Engine.writeAll s t)
  | _, _, _, _, .nil, h => h
  | b :: B, A, r :: t, s, .cons h1 h2, h => by
    have h3 := says_add (k := b.1) h1.2.1 h1.2.2 h
    have := says_all h2 h3
    rw [h1.1] at this
    show Says R (addAll (addTo b.1 b.2 A) B) (Engine.writeAll (MemStore.insert r.1 r.2 s) t)
    rw [h1.1]
    exact this

theorem insert_mem (k : Key) (t : List Byte) : ∀ s : TStore, (k, t) ∈ insert k t s
  | [] => by simp [insert]
  | r :: s => by
    rw [insert]
    split
    · simp
    · exact List.mem_cons_of_mem _ (insert_mem k t s)

theorem insert_keeps {k : Key} {t : List Byte} {a : Key × List Byte} : ∀ {s : TStore}, a ∈ s → a ∈ insert k t s
  | [], h => by cases h
  | r :: s, h => by
    rw [insert]
    split
    · exact List.mem_cons_of_mem _ h
    · rcases List.mem_cons.1 h with rfl | h
      · simp
      · exact List.mem_cons_of_mem _ (insert_keeps h)

theorem writeAll_mem : ∀ {rs s : TStore} {a : Key × List Byte}, (a ∈ s ∨ a ∈ rs) → a ∈ writeAll s rs
  | [], s, a, h => by
    rcases h with h | h
    · exact h
    · cases h
  | r :: rs, s, a, h => by
    show a ∈ writeAll (insert r.1 r.2 s) rs
    refine writeAll_mem ?_
    rcases h with h | h
    · exact .inl (insert_keeps h)
    · rcases List.mem_cons.1 h with rfl | h
      · exact .inl (insert_mem _ _ _)
      · exact .inr h

/-- The order of the keys, of records with what they say. -/
theorem says_sorted : ∀ {A : List Entry} {s : MemStore}, Says R A s → KeyOrder s → A.Pairwise fun a b => Key.lt b.1 a.1 = false
  | _, _, .nil, _ => .nil
  | a :: A, r :: s, .cons h1 h2, h => by
    have h := List.pairwise_cons.1 h
    refine List.pairwise_cons.2 ⟨fun b hb => ?_, says_sorted h2 h.2⟩
    obtain ⟨q, hq, e⟩ := same2_mem h2 b hb
    rw [h1.1, e.1]
    exact h.1 q hq

theorem add_at (k k' : Key) (i : List Byte × List (Nat × OpView)) : ∀ {A : List Entry},
    (A.Pairwise fun a b => Key.lt b.1 a.1 = false) →
    entriesAt (addTo k i A) k' = entriesAt A k' ++ if k = k' then [i] else []
  | [], _ => by
    unfold entriesAt addTo
    by_cases h : k = k' <;> simp [h]
  | a :: A, hA => by
    have hA := List.pairwise_cons.1 hA
    rw [addTo]
    by_cases hlt : Key.lt k a.1 = true
    · rw [if_pos hlt]
      by_cases h : k = k'
      · subst h
        have : entriesAt (a :: A) k = [] := by
          unfold entriesAt
          rw [List.map_eq_nil_iff, List.filter_eq_nil_iff]
          intro b hb e
          have e : b.1 = k := of_decide_eq_true e
          rcases List.mem_cons.1 hb with rfl | hb
          · rw [e] at hlt
            exact absurd hlt (by rw [Key.lt_irrefl]; decide)
          · have := hA.1 b hb
            rw [e, hlt] at this
            cases this
        rw [this, if_pos rfl, List.nil_append]
        have h2 : entriesAt ((k, i) :: a :: A) k = i :: entriesAt (a :: A) k := by
          unfold entriesAt
          rw [List.filter_cons_of_pos (by simp), List.map_cons]
        rw [h2, this]
      · rw [if_neg h, List.append_nil]
        unfold entriesAt
        rw [List.filter_cons_of_neg (by simp [h])]
    · rw [if_neg hlt]
      have ih := add_at k k' i hA.2
      unfold entriesAt at ih ⊢
      by_cases h : a.1 = k'
      · rw [List.filter_cons_of_pos (by simp [h]), List.filter_cons_of_pos (by simp [h]), List.map_cons, List.map_cons, ih,
          List.cons_append]
      · rw [List.filter_cons_of_neg (by simp [h]), List.filter_cons_of_neg (by simp [h]), ih]

theorem addAll_at (k : Key) : ∀ {B A : List Entry} {s : MemStore}, Says R A s → KeyOrder s → (∀ b ∈ B, Copyable b.2) →
    entriesAt (addAll A B) k = entriesAt A k ++ entriesAt B k
  | [], A, _, _, _, _ => by
    show entriesAt A k = entriesAt A k ++ []
    rw [List.append_nil]
  | b :: B, A, s, h, hs, hB => by
    have h1 := says_add (k := b.1) (f := b.2.2.map fun x => R.op x.2) (hB b (by simp)) (by rw [List.map_map]; rfl) h
    have ih := addAll_at k h1 (MemStore.insert_sorted hs _ _) (fun c hc => hB c (List.mem_cons_of_mem _ hc))
    have e := add_at b.1 k b.2 (says_sorted h hs)
    show entriesAt (addAll (addTo b.1 b.2 A) B) k = _
    rw [ih, e, List.append_assoc]
    congr 1
    unfold entriesAt
    by_cases hk : b.1 = k
    · rw [if_pos hk, List.filter_cons_of_pos (by simp [hk])]
      rfl
    · rw [if_neg hk, List.filter_cons_of_neg (by simp [hk])]
      rfl

/-! ### The store afterwards -/

/-- The store on which a chain was saved holds the history with the chain, whatever text the hash of its first op has. -/
theorem written (L : Lineage H) (K : Carries wh H note s) {d : Chain} (P : Spec.Proper d.head d.rest) (hf : Spec.Follows H d)
    {tip : Uuid} (ht : tip = Uuid.NIL ∨ Spec.Known H tip ∧ tip.origin = d.head.id.origin) (cs : List Nat) :
    Lineage (H ++ [d]) ∧ ∃ note', Carries wh (H ++ [d]) note' (Engine.writeAll s
      (MemStore.insert Key.ZERO [⟨lastOf d.head.id d.rest, formUuid Form.ZERO, [], .raw⟩]
        (MemStore.insert (Key.ofUuids d.object d.rdt) (punctuate (d.head :: d.rest))
          (MemStore.insert (Key.mk' d.object Form.LOG) (punctuate (d.head :: d.rest))
            (MemStore.insert (Key.mk' d.head.id Form.META)
              [⟨d.head.id, formUuid Form.META, [.uuid d.object, .uuid d.rdt, .str cs], .raw⟩] []))))) := by
  generalize henv : (⟨Rdt.mergeCursors Props.tView, ⟨fun _ _ _ => [], fun _ => [], fun _ => cs⟩, 0#64, 0#64⟩ : Env) = env
  have hv : env.mg = Rdt.mergeCursors Props.tView := by rw [← henv]
  have L' : Lineage (H ++ []) := by rw [List.append_nil]; exact L
  obtain ⟨hsn, t, m, c1, c2, e1, e2, M2, h1, h2⟩ := meta_follows (env := env) L' (mid_start K tip 0#64) hv P
    (by rw [List.append_nil]; exact hf) (Clear.nil _) (fun _ => Clear.nil _)
  have hid := headMeta_id e2 (by decide)
  have hty := (types_form ((Lineage.add L P hf).sound.object d (by simp)).2).2.2.2
  have hb : tip = Uuid.NIL ∨ tip.origin = d.head.id.origin ∧ Uuid.lt tip d.head.id = true := by
    rcases ht with h | ⟨hk, ho⟩
    · exact .inl h
    · refine .inr ⟨ho, ?_⟩
      rcases hf.yarn with ⟨-, q⟩ | ⟨-, -, q⟩
      · exact absurd ho (q _ hk)
      · exact q _ hk ho
  have hrec := receive_chain_eq (env := env) (main := s) (tip := tip) (now := 0#64) P.query P.clock hsn e1 e2
    (by rw [h2]; exact hty) P.chained (clock_sees P.last) hb
  obtain ⟨st, s', now', e, a1, -, a3⟩ := Props.C101_accepts Props.tView H note s L K env hv tip 0#64 d.head d.rest P
    (by rcases ht with h | h
        · exact .inl h
        · exact .inr h.1)
  rw [hrec] at e
  injection e with e
  injection e with e3 e4
  injection e4 with e4 e5
  obtain ⟨⟨note', K'⟩, L2, -⟩ := a3 d rfl rfl hf (by rw [← e3]; decide)
  refine ⟨L2, note', ?_⟩
  rw [← e4, mid_nil M2] at K'
  unfold chainRecords OpMeta.save at K'
  rw [h1, h2, hid, ← henv] at K'
  exact K'

/-! ### More steps change nothing -/

theorem yarnTip_mono {n : Nat} {s : TStore} {c : Cursor} {o : AOp} {r : Status × OpMeta}
    (h : yarnTip w n s c o = .ok (some r)) (j : Nat) : yarnTip w (n + j) s c o = .ok (some r) := by
  unfold yarnTip findYarnTipMeta at h ⊢
  obtain ⟨t, e, h⟩ := Cursor.bind_ok h
  cases t with
  | none => cases h
  | some t => rw [Props.findOpMeta_mono e j, Op.obind]; exact h

theorem headMeta_mono {n : Nat} {s : TStore} {c : Cursor} {tip : OpMeta} {o : AOp} {r : Status × OpMeta}
    (h : headMeta w n s c tip o = .ok (some r)) (j : Nat) : headMeta w (n + j) s c tip o = .ok (some r) := by
  unfold headMeta at h ⊢
  split
  · rename_i hc
    rw [if_pos hc] at h
    exact h
  · rename_i hc
    rw [if_neg hc] at h
    split
    · rename_i hc
      rw [if_pos hc] at h
      exact h
    · rename_i hc
      rw [if_neg hc] at h
      obtain ⟨t, e, h⟩ := Cursor.bind_ok h
      cases t with
      | none => cases h
      | some t => rw [Props.findOpMeta_mono e j, Op.obind]; exact h

theorem chainMeta_mono {n : Nat} {s : TStore} {c : Cursor} {o : AOp} {r : Status × OpMeta}
    (h : chainMeta w n s c o = .ok (some r)) (j : Nat) : chainMeta w (n + j) s c o = .ok (some r) := by
  unfold chainMeta at h ⊢
  split
  · rename_i hc
    rw [if_pos hc] at h
    exact h
  · rename_i hc
    rw [if_neg hc] at h
    obtain ⟨t, e, h⟩ := Cursor.bind_ok h
    cases t with
    | none => cases h
    | some t =>
      rw [yarnTip_mono e j, Op.obind]
      simp only at h ⊢
      split
      · rename_i hc
        rw [if_pos hc] at h
        exact h
      · rename_i hc
        rw [if_neg hc] at h
        exact headMeta_mono h j

theorem storeChain_mono {n : Nat} {m : OpMeta} {c : Cursor} {o : AOp} {tip : Uuid} {now : Word} {r : Status × Stage}
    (h : storeChain w n m c o tip now = .ok (some r)) (j : Nat) : storeChain w (n + j) m c o tip now = .ok (some r) := by
  unfold storeChain at h ⊢
  obtain ⟨p, e, h⟩ := Cursor.bind_ok h
  rw [e, Op.obind]
  split
  · rename_i hc
    rw [if_pos hc] at h
    exact h
  · rename_i hc
    rw [if_neg hc] at h
    obtain ⟨t, e, h⟩ := Cursor.bind_ok h
    cases t with
    | none => cases h
    | some t => rw [record_mono w.hash e j, Op.obind]; exact h

theorem receive_mono {n : Nat} {s : TStore} {tip : Uuid} {now : Word} {text : List Byte} {r : Reply}
    (h : receive w n s tip now text = .ok (some r)) (j : Nat) : receive w (n + j) s tip now text = .ok (some r) := by
  unfold receive at h ⊢
  obtain ⟨p, e, h⟩ := Cursor.bind_ok h
  rw [e, Op.obind]
  split
  · rename_i hc
    rw [if_pos hc] at h
    exact h
  · rename_i hc
    rw [if_neg hc] at h
    cases ho : heading p.1 with
    | none => rw [ho] at h; cases h
    | some o =>
      rw [ho] at h
      simp only at h ⊢
      split
      · rename_i hc
        rw [if_pos hc] at h
        obtain ⟨t, e, h⟩ := Cursor.bind_ok h
        cases t with
        | none => cases h
        | some t =>
          rw [chainMeta_mono e j, Op.obind]
          simp only at h ⊢
          split
          · rename_i hc
            rw [if_pos hc] at h
            exact h
          · rename_i hc
            rw [if_neg hc] at h
            obtain ⟨x, e, h⟩ := Cursor.bind_ok h
            cases x with
            | none => cases h
            | some x => rw [storeChain_mono e j, Op.obind]; exact h
      · rename_i hc
        rw [if_neg hc] at h
        exact h

/-- What comes of a frame does not depend on the number of steps. -/
theorem receive_unique {n n' : Nat} {s : TStore} {tip : Uuid} {now : Word} {text : List Byte} {r r' : Reply}
    (h : receive w n s tip now text = .ok (some r)) (h' : receive w n' s tip now text = .ok (some r')) : r = r' := by
  have h1 := receive_mono h n'
  have h2 := receive_mono h' n
  rw [Nat.add_comm, h1] at h2
  cases h2
  rfl

end Ron.TextReplica
