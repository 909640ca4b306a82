import Verif.Props.TextQueryLog
import Verif.Props.OpNul
import Verif.Model.TextTxt
/-!
C116: a query of a text is answered with the visible letters of the array.
-/
namespace Ron.Props
open Ron Spec Commit TextReplica TextParser

/-- What comes of a query of a text when the loops may run long enough. -/
def AnswersTxt (mx : MaxReducer) (junk : Cursor.Val → Nat) (fmt : Word → List Byte) (A : List Entry) (text : List Byte)
    (r : Status × List Byte) : Prop :=
  ∃ N, ∀ n, N ≤ n → askTxt mx junk fmt n (A.map Entry.bytes) text = .ok (some r)

/-- The letter an op inserts. -/
def IsLetter (o : OpView) (cp : Nat) : Prop := o.vals = [.text (utf8append cp)]

/-- The visible letters: `marks` says which ops are hidden. -/
inductive Letters : List OpView → List Bool → List Nat → Prop
  | nil : Letters [] [] []
  | hidden {o os ms cps} : Letters os ms cps → Letters (o :: os) (true :: ms) cps
  | shown {o os ms cp cps} : IsLetter o cp → CpOk cp → Letters os ms cps → Letters (o :: os) (false :: ms) (cp :: cps)

/-- C116: a store of texts is asked for the text of an array it has, of no more than three chains. If what is inserted are
letters, the response is the visible ones (`scan` tells which they are, `C33`) in the order of the weave. -/
def C116_claim : Prop := ∀ (R : Reading) (mx : MaxReducer) (junk : Cursor.Val → Nat) (fmt : Word → List Byte) (H : List Chain)
  (note : Uuid → List Nat) (A : List Entry) (c : Chain) (text : List Byte), Lineage H → TellsAs true R H note A →
  Short mx (A.map Entry.bytes) → c ∈ H → uuid2form c.rdt = Form.RGA →
  (H.filter fun d => decide (d.object = c.object)).length ≤ 3 → Written A c →
  QueryText text [(c.object.derived, formUuid Form.TXT)] →
  ∃ state ops, ReadsText mx A (Key.ofUuids c.object c.rdt) state ∧ Contents state ops .endOfFrame ∧
    IsWeave ((eventsIn H c.object).map bare) c.object (ops.map R.op) ∧
    ∀ marks cps, Rga.scan (ops.map R.op) = .ok marks → Letters ops marks cps → cps.length < 2 ^ 28 →
      ∃ reply, AnswersTxt mx junk fmt A text (Status.OK, reply) ∧
        (reply.length < 2 ^ 30 → Contents reply
          [⟨c.object.derived, formUuid Form.TXT, [.text (cps.flatMap utf8append)]⟩] .endOfFrame)

/-- Every visible op of the text is a part of a run of letters, `('abc')`. -/
def InRuns (state : List Byte) (marks : List Bool) : Prop :=
  ∀ fuel l st, Cursor.iterate fuel (Cursor.init state) = .ok (some (l, st)) →
    ∀ (i : Nat) (k : Cursor), l[i]? = some k → marks[i]? = some false → ∃ a, k.op[2]? = some a ∧ Atom.cp a ≠ 0

/-- The same for the scan. -/
def ScansAs (a b : AOp) : Prop := a.id = b.id ∧ a.ref = b.ref ∧ Rga.entryType a = Rga.entryType b

theorem turns_same : ∀ {l l' : List AOp} (s : Rga.Scan), Same2 ScansAs l l' → Rga.turns s l = Rga.turns s l'
  | _, _, _, .nil => rfl
  | _, _, s, .cons h t => by
    obtain ⟨h1, h2, h3⟩ := h
    unfold Rga.turns
    rw [h1, h2, h3]
    cases Rga.turn s _ _ _ with
    | bad e => rfl
    | ub => rfl
    | ok s' => exact turns_same s' t

theorem scan_same {l l' : List AOp} (h : Same2 ScansAs l l') : Rga.scan l = Rga.scan l' := by
  cases h with
  | nil => rfl
  | cons h t =>
    obtain ⟨h1, h2, -⟩ := h
    unfold Rga.scan
    simp only
    rw [h1, h2, turns_same _ t]

/-- What the scan sees of a cursor is the op it is at. -/
theorem scanned_at {R : Reading} {k : Cursor} {x : Nat × OpView} (h : TextMerge.At k x) :
    ∃ o, scanned k = some o ∧ ScansAs o (R.op x.2) := by
  obtain ⟨buf, -, -, h, -⟩ := h
  obtain ⟨xs, e, hx⟩ := h.op
  unfold scanned
  rw [e]
  refine ⟨_, rfl, rfl, rfl, ?_⟩
  unfold Rga.entryType Reading.op
  simp only
  generalize x.2.vals = vs at hx
  cases hx with
  | nil => rfl
  | @cons a v as vs' ha ht =>
    cases ht with
    | cons _ _ => cases v <;> rfl
    | nil =>
      rcases ha with ha | ⟨rfl, ht, -⟩
      · cases v with
        | uuid u =>
          obtain ⟨rfl, ht⟩ := ha
          simp only [if_pos ht, List.map_cons, List.map_nil, Reading.val]
        | int i =>
          simp only [if_neg (show ¬ Atom.type a = Atom.tUUID by rw [ha.1]; decide), List.map_cons, List.map_nil, Reading.val]
        | float i =>
          simp only [if_neg (show ¬ Atom.type a = Atom.tUUID by rw [ha.1]; decide), List.map_cons, List.map_nil, Reading.val]
        | text t =>
          obtain ⟨-, s, ys, -, -, hs⟩ := ha
          simp only [if_neg (show ¬ Atom.type a = Atom.tUUID by rw [hs.type]; decide), List.map_cons, List.map_nil,
            Reading.val]
      · simp only [if_neg (show ¬ Atom.type a = Atom.tUUID by rw [ht]; decide), List.map_cons, List.map_nil, Reading.val]

theorem scanned_all {R : Reading} : ∀ {m : List Cursor} {l : List (Nat × OpView)}, Same2 TextMerge.At m l →
    ∃ ops, m.mapM scanned = some ops ∧ Same2 ScansAs ops ((l.map Prod.snd).map R.op)
  | _, _, .nil => ⟨[], rfl, .nil⟩
  | _, _, .cons h t => by
    obtain ⟨o, e1, h1⟩ := scanned_at (R := R) h
    obtain ⟨ops, e2, h2⟩ := scanned_all (R := R) t
    refine ⟨o :: ops, ?_, .cons h1 h2⟩
    rw [List.mapM_cons, e1, e2]
    rfl

/-- The loop over the visible ops. -/
theorem walk_letters {junk : Cursor.Val → Nat} : ∀ {m : List Cursor} {l : List (Nat × OpView)} {marks : List Bool}
    {cps : List Nat}, Same2 TextMerge.At m l → Letters (l.map Prod.snd) marks cps →
    (∀ (i : Nat) (k : Cursor), m[i]? = some k → marks[i]? = some false → ∃ a, k.op[2]? = some a ∧ Atom.cp a ≠ 0) →
    walkText junk marks m = .ok (cps.flatMap utf8append)
  | _, _, _, _, .nil, hl, _ => by
    cases hl
    rfl
  | _, _, _, _, @Same2.cons _ _ _ k0 _ _ _ h t, hl, hr => by
    rw [List.map_cons] at hl
    cases hl with
    | hidden hl =>
      rw [walkText, if_pos rfl]
      exact walk_letters t hl fun i k h1 h2 => hr (i + 1) k (by simpa using h1) (by simpa using h2)
    | shown hc _ hl =>
      obtain ⟨a, ha, hcp⟩ := hr 0 _ rfl rfl
      obtain ⟨buf, -, -, h, -⟩ := h
      obtain ⟨xs, e, hx⟩ := h.op
      rw [hc] at hx
      cases hx with
      | @cons b _ _ _ hb hbs =>
        cases hbs
        rw [e] at ha
        simp only [List.getElem?_cons_succ, List.getElem?_cons_zero, Option.some.injEq] at ha
        subst ha
        rcases hb with hb | ⟨hv, ht, -, -⟩
        · exact absurd hb.1 hcp
        · injection hv with hv
          rw [walkText, if_neg (by decide)]
          have : Cursor.atomVal k0 2 = .ok (.char (Atom.cp b)) := by
            unfold Cursor.atomVal
            rw [e]
            simp only [List.getElem?_cons_succ, List.getElem?_cons_zero]
            rw [if_neg (by rw [ht]; decide), if_neg (by rw [ht]; decide), if_pos ht, if_pos hcp]
          rw [this, Op.obind, walk_letters t hl fun i k h1 h2 => hr (i + 1) k (by simpa using h1) (by simpa using h2), Op.obind]
          rw [List.flatMap_cons, hv]
          rfl

/-- The loop over the visible ops: a letter that stands alone is taken for the code point 0. -/
theorem walk_alone {junk : Cursor.Val → Nat} : ∀ {m : List Cursor} {l : List (Nat × OpView)} {marks : List Bool}
    {cps : List Nat}, Same2 TextMerge.At m l → Letters (l.map Prod.snd) marks cps →
    ∃ out, walkText junk marks m = .ok (out.flatMap utf8append) ∧ out.length = cps.length ∧
      (∀ c ∈ out, c < 2 ^ 21 ∧ c ≠ 12) ∧
      ∀ j k a, m[j]? = some k → marks[j]? = some false → k.op[2]? = some a → Atom.cp a = 0 →
        (∀ (i : Nat) (k : Cursor), i < j → m[i]? = some k → marks[i]? = some false →
          ∃ a, k.op[2]? = some a ∧ Atom.cp a ≠ 0) →
        toNul out = cps.take ((marks.take j).filter not).length
  | _, _, _, _, .nil, hl => by
    cases hl
    exact ⟨[], rfl, rfl, (fun _ h => nomatch h), fun j k a h => by simp at h⟩
  | _, _, _, _, @Same2.cons _ _ _ k0 _ _ _ h t, hl => by
    rw [List.map_cons] at hl
    cases hl with
    | hidden hl =>
      obtain ⟨out, w1, w2, w3, w4⟩ := walk_alone (junk := junk) t hl
      refine ⟨out, by rw [walkText, if_pos rfl]; exact w1, w2, w3, fun j k a h1 h2 h3 h4 h5 => ?_⟩
      cases j with
      | zero => cases h2
      | succ j =>
        rw [List.take_succ_cons, List.filter_cons_of_neg (by simp)]
        exact w4 j k a (by simpa using h1) (by simpa using h2) h3 h4 fun i k hi g1 g2 =>
          h5 (i + 1) k (by omega) (by simpa using g1) (by simpa using g2)
    | @shown _ _ _ cp _ hc hok hl =>
      obtain ⟨out, w1, w2, w3, w4⟩ := walk_alone (junk := junk) t hl
      obtain ⟨buf, -, -, h, -⟩ := h
      obtain ⟨xs, e, hx⟩ := h.op
      rw [hc] at hx
      cases hx with
      | @cons b _ _ _ hb hbs =>
        cases hbs
        have e2 : k0.op[2]? = some b := by rw [e]; rfl
        rcases hb with ⟨hz, s, ys, -, -, hs⟩ | ⟨hv, ht, hcp, -⟩
        · refine ⟨0 :: out, ?_, by simp [w2], fun c hc => ?_, fun j k a h1 h2 h3 h4 h5 => ?_⟩
          · rw [walkText, if_neg (by decide)]
            have : Cursor.atomVal k0 2 = .ok (.str (slice k0.buf (Atom.rBegin b) (Atom.rEnd b)) (Atom.cpSize b)) := by
              unfold Cursor.atomVal
              rw [e2]
              simp only
              rw [if_neg (by rw [hs.type]; decide), if_neg (by rw [hs.type]; decide), if_pos hs.type, if_neg (fun h => h hz),
                atomData_string hs.le (by rw [h.buf]; exact hs.inside), Op.obind]
            rw [this, Op.obind, w1, Op.obind]
            rfl
          · rcases List.mem_cons.1 hc with rfl | hc
            · decide
            · exact w3 c hc
          · cases j with
            | zero => rfl
            | succ j =>
              obtain ⟨a, ha, hne⟩ := h5 0 k0 (by omega) rfl rfl
              rw [e2] at ha
              injection ha with ha
              subst ha
              exact absurd hz hne
        · injection hv with hv
          refine ⟨cp :: out, ?_, by simp [w2], fun c hc => ?_, fun j k a h1 h2 h3 h4 h5 => ?_⟩
          · rw [walkText, if_neg (by decide)]
            have : Cursor.atomVal k0 2 = .ok (.char (Atom.cp b)) := by
              unfold Cursor.atomVal
              rw [e2]
              simp only
              rw [if_neg (by rw [ht]; decide), if_neg (by rw [ht]; decide), if_pos ht, if_pos hcp]
            rw [this, Op.obind, w1, Op.obind, List.flatMap_cons, hv]
            rfl
          · rcases List.mem_cons.1 hc with rfl | hc
            · exact hok.2
            · exact w3 c hc
          · cases j with
            | zero =>
              simp only [List.getElem?_cons_zero, Option.some.injEq] at h1
              subst h1
              rw [e2] at h3
              injection h3 with h3
              subst h3
              exact absurd h4 hcp
            | succ j =>
              rw [List.take_succ_cons, List.filter_cons_of_pos (by simp), List.length_cons, List.take_succ_cons]
              unfold toNul
              have := hok.1
              rw [List.takeWhile_cons_of_pos (by simp; omega)]
              refine congrArg (cp :: ·) (w4 j k a (by simpa using h1) (by simpa using h2) h3 h4 fun i k hi g1 g2 =>
                h5 (i + 1) k (by omega) (by simpa using g1) (by simpa using g2))

theorem letters_ok : ∀ {ops : List OpView} {marks : List Bool} {cps : List Nat}, Letters ops marks cps → ∀ c ∈ cps, CpOk c
  | _, _, _, .nil, _, h => nomatch h
  | _, _, _, .hidden h, c, hc => letters_ok h c hc
  | _, _, _, .shown _ h1 h, c, hc => by
    rcases List.mem_cons.1 hc with rfl | hc
    · exact h1
    · exact letters_ok h c hc

theorem iterate_mono : ∀ {n : Nat} {c : Cursor} {r}, Cursor.iterate n c = .ok (some r) → ∀ j,
    Cursor.iterate (n + j) c = .ok (some r)
  | 0, _, _, h, _ => by cases h
  | n + 1, c, r, h, j => by
    rw [show n + 1 + j = (n + j) + 1 by omega]
    unfold Cursor.iterate at h ⊢
    obtain ⟨x, e, h⟩ := Cursor.bind_ok h
    rw [e, Op.obind]
    split
    · rename_i hx
      rw [hx] at h
      simp only at h
      obtain ⟨y, e, h⟩ := Cursor.bind_ok h
      cases y with
      | none => cases h
      | some y =>
        rw [iterate_mono e j, Op.obind]
        exact h
    · rename_i hx
      split at h
      · rename_i hx'
        exact absurd hx' (by assumption)
      · exact h

/-- An event, the derived id of it, and back. -/
theorem event_derived {i : Uuid} (h : Stamp i) : i.derived.event = i ∧ i.derived.version = Uuid.vDERIVED ∧
    Plain62 i.derived ∧ i.derived ≠ Uuid.NIL.inc := by
  obtain ⟨v, o⟩ := i
  have ho : o.toNat / 2 ^ 60 = 2 := h.2
  have h1 : o.toNat < 2 ^ 64 := o.isLt
  have e3 : (BitVec.ofNat 64 (o.toNat % 2 ^ 60 + 3 * 2 ^ 60)).toNat = o.toNat % 2 ^ 60 + 3 * 2 ^ 60 := by
    rw [BitVec.toNat_ofNat]; omega
  refine ⟨?_, ?_, ?_, ?_⟩
  · have e2 : BitVec.ofNat 64 ((BitVec.ofNat 64 (o.toNat % 2 ^ 60 + 3 * 2 ^ 60)).toNat % 2 ^ 60 + 2 * 2 ^ 60) = o := by
      rw [e3]
      apply BitVec.eq_of_toNat_eq
      rw [BitVec.toNat_ofNat]
      omega
    exact congrArg (Uuid.mk v) e2
  · unfold Uuid.version Uuid.derived Uuid.derivedOf Word.payload Uuid.vDERIVED Word.flags
    simp only
    rw [e3]
    omega
  · unfold Plain62 Uuid.derived Uuid.derivedOf Word.payload
    simp only
    rw [e3]
    omega
  · intro e
    have := congrArg (fun u : Uuid => u.origin.toNat) e
    unfold Uuid.derived Uuid.derivedOf Word.payload at this
    simp only at this
    rw [e3] at this
    have h0 : Uuid.NIL.inc.origin.toNat = 0 := by decide
    omega

theorem toNul_ok {cps : List Nat} (h : ∀ c ∈ cps, CpOk c) : toNul cps = cps := by
  induction cps with
  | nil => rfl
  | cons c cps ih =>
    unfold toNul at ih ⊢
    have := (h c List.mem_cons_self).1
    rw [List.takeWhile_cons_of_pos (by simp; omega), ih fun d hd => h d (List.mem_cons_of_mem _ hd)]

/-- The response, from the state that is read and the string it is read as. -/
theorem askTxt_one {mx : MaxReducer} {junk : Cursor.Val → Nat} {fmt : Word → List Byte} {A : List Entry} {id : Uuid}
    {text state : List Byte} (hi : Stamp id) (hq : QueryText text [(id.derived, formUuid Form.TXT)])
    (hr : ReadsText mx A (Key.mk' id Form.RGA) state) {cps : List Nat} (hc : ∀ c ∈ cps, c < 2 ^ 21 ∧ c ≠ 12)
    (hl : cps.length < 2 ^ 28) {N : Nat} (ht : ∀ n, N ≤ n → readTxt junk n state = .ok (some (cps.flatMap utf8append))) :
    ∃ reply, AnswersTxt mx junk fmt A text (Status.OK, reply) ∧
      (reply.length < 2 ^ 30 → Contents reply
        [⟨id.derived, formUuid Form.TXT, [.text ((toNul cps).flatMap utf8append)]⟩] .endOfFrame) := by
  obtain ⟨d1, d2, d3, d4⟩ := event_derived hi
  obtain ⟨reply, b0, b3⟩ := nul_string (fmt := fmt) (ref := formUuid Form.TXT) d3 (by unfold Plain62; decide) d4 hc hl
  obtain ⟨b, b', b1, b2⟩ := built_one.1 b0
  obtain ⟨N1, hr⟩ := hr
  obtain ⟨q, h1, h2, h3⟩ := hq.reads
  obtain ⟨mq, q1, -, -, q2⟩ := TextParser.frame_trail hq.size h1 (cur := Cursor.init text)
    ⟨rfl, rfl, rfl, .inr ⟨rfl, rfl⟩⟩ Cursor.type_nil rfl
  refine ⟨reply, ⟨N1 + N, fun n hN => ?_⟩, fun hl => (C20_frames_partial reply hl _ b3).1⟩
  cases q2 with
  | nil => cases h2
  | @cons _ x _ _ hh q2 =>
    rw [List.map_cons] at h2
    injection h2 with e1 e2
    injection e1 with e3 e4
    cases q2 with
    | cons _ _ => cases e2
    | nil =>
    cases q1 with
    | more hn q1 =>
    cases q1 with
    | stop hn' hne =>
    unfold askTxt
    rw [hn, Op.obind]
    simp only
    rw [TextChain.heading_holds hh]
    simp only
    rw [if_pos ⟨by rw [e3]; exact d2, by rw [hh.term]; exact h3 x List.mem_cons_self, by rw [e4]; decide +kernel⟩, e3, d1,
      hr n (by omega), Op.obind]
    simp only
    rw [if_neg (by decide), ht n (by omega), Op.obind]
    simp only
    obtain ⟨o, p1, p2⟩ := Cursor.bind_ok b1
    rw [p1, Op.obind, p2, Op.obind, hn', Op.obind]
    simp only
    rw [if_neg (by unfold Cursor.valid; rw [Builder.next_invalid hn' hne]; decide), b2, Op.obind]

/-- C116: it is so if the visible ops stand in runs of letters in the text of the state. Missing from the claim: letters that
stand alone, as in the violation. -/
theorem C116_partial (R : Reading) (mx : MaxReducer) (junk : Cursor.Val → Nat) (fmt : Word → List Byte) (H : List Chain)
    (note : Uuid → List Nat) (A : List Entry) (c : Chain) (text : List Byte) (L : Lineage H) (hT : TellsAs true R H note A)
    (hs : Short mx (A.map Entry.bytes)) (hc : c ∈ H) (hf : uuid2form c.rdt = Form.RGA)
    (hlen : (H.filter fun d => decide (d.object = c.object)).length ≤ 3) (hw : Written A c)
    (hq : QueryText text [(c.object.derived, formUuid Form.TXT)]) :
    ∃ state ops, ReadsText mx A (Key.ofUuids c.object c.rdt) state ∧ Contents state ops .endOfFrame ∧
      IsWeave ((eventsIn H c.object).map bare) c.object (ops.map R.op) ∧
      ∀ marks cps, Rga.scan (ops.map R.op) = .ok marks → Letters ops marks cps → cps.length < 2 ^ 28 →
        InRuns state marks →
        ∃ reply, AnswersTxt mx junk fmt A text (Status.OK, reply) ∧
          (reply.length < 2 ^ 30 → Contents reply
            [⟨c.object.derived, formUuid Form.TXT, [.text (cps.flatMap utf8append)]⟩] .endOfFrame) := by
  obtain ⟨state, l, hr, hcp, -, -, hst⟩ := object_state L hT hs hc (.inr ⟨hf, hlen⟩) hw
  refine ⟨state, l.map Prod.snd, hr, (C20_frames_partial state hcp.size _ hcp.text).1, (hst.1 hf).2,
    fun marks cps hm hL hcl hin => ?_⟩
  obtain ⟨m, t1, t2⟩ := copyable_trail hcp
  have hit := Chains.iterate_of_trail t1
  obtain ⟨ops, o1, o2⟩ := scanned_all (R := R) t2
  have hwalk := walk_letters (junk := junk) t2 hL (hin _ _ _ hit)
  have hkey : Key.ofUuids c.object c.rdt = Key.mk' c.object Form.RGA := by
    unfold Key.ofUuids
    rw [hf]
  have hall := letters_ok hL
  rw [← toNul_ok hall]
  refine askTxt_one (L.object c hc).1 hq (hkey ▸ hr) (fun x hx => (hall x hx).2) hcl (N := m.length + 1) fun n hn => ?_
  obtain ⟨j, rfl⟩ : ∃ j, n = m.length + 1 + j := ⟨n - (m.length + 1), by omega⟩
  unfold readTxt
  rw [iterate_mono hit j, Op.obind]
  simp only
  rw [o1]
  simp only
  rw [scan_same o2, hm]
  simp only
  rw [hwalk, Op.obind]

/-- The op `j` of the text is visible and stands alone, and it is the first one. -/
def FirstAlone (state : List Byte) (marks : List Bool) (j : Nat) : Prop :=
  ∃ fuel l st, Cursor.iterate fuel (Cursor.init state) = .ok (some (l, st)) ∧
    (∃ k a, l[j]? = some k ∧ marks[j]? = some false ∧ k.op[2]? = some a ∧ Atom.cp a = 0) ∧
    ∀ (i : Nat) (k : Cursor), i < j → l[i]? = some k → marks[i]? = some false → ∃ a, k.op[2]? = some a ∧ Atom.cp a ≠ 0

/-- C116: otherwise the response is the visible letters before the first one that stands alone, and nothing else. -/
theorem C116_alone_partial (R : Reading) (mx : MaxReducer) (junk : Cursor.Val → Nat) (fmt : Word → List Byte)
    (H : List Chain) (note : Uuid → List Nat) (A : List Entry) (c : Chain) (text : List Byte) (L : Lineage H)
    (hT : TellsAs true R H note A) (hs : Short mx (A.map Entry.bytes)) (hc : c ∈ H) (hf : uuid2form c.rdt = Form.RGA)
    (hlen : (H.filter fun d => decide (d.object = c.object)).length ≤ 3) (hw : Written A c)
    (hq : QueryText text [(c.object.derived, formUuid Form.TXT)]) :
    ∃ state ops, ReadsText mx A (Key.ofUuids c.object c.rdt) state ∧ Contents state ops .endOfFrame ∧
      IsWeave ((eventsIn H c.object).map bare) c.object (ops.map R.op) ∧
      ∀ marks cps j, Rga.scan (ops.map R.op) = .ok marks → Letters ops marks cps → cps.length < 2 ^ 28 →
        FirstAlone state marks j →
        ∃ reply, AnswersTxt mx junk fmt A text (Status.OK, reply) ∧
          (reply.length < 2 ^ 30 → Contents reply [⟨c.object.derived, formUuid Form.TXT,
            [.text ((cps.take ((marks.take j).filter not).length).flatMap utf8append)]⟩] .endOfFrame) := by
  obtain ⟨state, l, hr, hcp, -, -, hst⟩ := object_state L hT hs hc (.inr ⟨hf, hlen⟩) hw
  refine ⟨state, l.map Prod.snd, hr, (C20_frames_partial state hcp.size _ hcp.text).1, (hst.1 hf).2,
    fun marks cps j hm hL hcl hin => ?_⟩
  obtain ⟨m, t1, t2⟩ := copyable_trail hcp
  have hit := Chains.iterate_of_trail t1
  obtain ⟨ops, o1, o2⟩ := scanned_all (R := R) t2
  obtain ⟨fuel, m', st, f1, ⟨k, a, f2, f3, f4, f5⟩, f6⟩ := hin
  have e1 := iterate_mono f1 (m.length + 1)
  have e2 := iterate_mono hit fuel
  rw [Nat.add_comm] at e2
  rw [e1] at e2
  injection e2 with e2
  injection e2 with e2
  injection e2 with e2 e3
  subst e2
  obtain ⟨out, w1, w2, w3, w4⟩ := walk_alone (junk := junk) t2 hL
  rw [← w4 j k a f2 f3 f4 f5 f6]
  have hkey : Key.ofUuids c.object c.rdt = Key.mk' c.object Form.RGA := by
    unfold Key.ofUuids
    rw [hf]
  refine askTxt_one (L.object c hc).1 hq (hkey ▸ hr) w3 (by omega) (N := m'.length + 1) fun n hn => ?_
  obtain ⟨j, rfl⟩ : ∃ j, n = m'.length + 1 + j := ⟨n - (m'.length + 1), by omega⟩
  unfold readTxt
  rw [iterate_mono hit j, Op.obind]
  simp only
  rw [o1]
  simp only
  rw [scan_same o2, hm]
  simp only
  rw [w1, Op.obind]

/-- The letters are the same if what is read is. -/
theorem letters_same {R R' : Reading} (hR : ∀ t t', R.text t = R'.text t' → t = t') : ∀ {ops ops' : List OpView}
    {marks : List Bool} {cps : List Nat}, Letters ops marks cps → ops.map R.op = ops'.map R'.op → Letters ops' marks cps
  | _, [], _, _, .nil, _ => .nil
  | _, _ :: _, _, _, .nil, e => nomatch e
  | _, [], _, _, .hidden _, e => nomatch e
  | _, [], _, _, .shown _ _ _, e => nomatch e
  | _, _ :: _, _, _, .hidden h, e => .hidden (letters_same hR h (List.cons.inj e).2)
  | o :: _, o' :: _, _, _, .shown (cp := cp) h1 h2 h, e => by
    obtain ⟨e1, e2⟩ := List.cons.inj e
    refine .shown ?_ h2 (letters_same hR h e2)
    have hv : o.vals.map R.val = o'.vals.map R'.val := congrArg AOp.vals e1
    unfold IsLetter at h1 ⊢
    rw [h1] at hv
    cases hvs : o'.vals with
    | nil => rw [hvs] at hv; cases hv
    | cons v vs =>
      rw [hvs] at hv
      obtain ⟨e3, e4⟩ := List.cons.inj hv
      cases vs with
      | cons _ _ => cases e4
      | nil =>
        cases v with
        | text t =>
          injection e3 with e3
          rw [← hR _ _ e3]
        | uuid _ => cases e3
        | int _ => cases e3
        | float _ => cases e3

/-- C116: two stores of texts that have the same events answer a query of a text alike, whatever the frames were and the
order they came in. The texts of the states may be different: the letters stand in runs in both. -/
theorem C116_same_partial (R R' : Reading) (mx mx' : MaxReducer) (junk junk' : Cursor.Val → Nat) (fmt fmt' : Word → List Byte)
    (H G : List Chain) (note note' : Uuid → List Nat) (A B : List Entry) (L : Lineage H) (hT : TellsAs true R H note A)
    (L' : Lineage G) (hT' : TellsAs true R' G note' B) (h : SameEvents (eventsOf H) (eventsOf G))
    (hR : ∀ t t', R.text t = R'.text t' → t = t') (hs : Short mx (A.map Entry.bytes)) (hs' : Short mx' (B.map Entry.bytes))
    (c d : Chain) (text : List Byte) (hc : c ∈ H) (hd : d ∈ G) (e : (c.object, c.rdt) = (d.object, d.rdt))
    (hf : uuid2form c.rdt = Form.RGA) (hlen : (H.filter fun x => decide (x.object = c.object)).length ≤ 3)
    (hlen' : (G.filter fun x => decide (x.object = d.object)).length ≤ 3) (hw : Written A c) (hw' : Written B d)
    (hq : QueryText text [(c.object.derived, formUuid Form.TXT)]) :
    ∃ state state' ops, ReadsText mx A (Key.ofUuids c.object c.rdt) state ∧
      ReadsText mx' B (Key.ofUuids c.object c.rdt) state' ∧ Contents state ops .endOfFrame ∧
      ∀ marks cps, Rga.scan (ops.map R.op) = .ok marks → Letters ops marks cps → cps.length < 2 ^ 28 →
        InRuns state marks → InRuns state' marks →
        ∃ reply reply', AnswersTxt mx junk fmt A text (Status.OK, reply) ∧
          AnswersTxt mx' junk' fmt' B text (Status.OK, reply') ∧
          ∀ r ∈ [reply, reply'], r.length < 2 ^ 30 → Contents r
            [⟨c.object.derived, formUuid Form.TXT, [.text (cps.flatMap utf8append)]⟩] .endOfFrame := by
  injection e with e1 e2
  obtain ⟨state, l, hr, hcp, -, -, hst⟩ := object_state L hT hs hc (.inr ⟨hf, hlen⟩) hw
  obtain ⟨state', l', hr', hcp', -, -, hst'⟩ := object_state L' hT' hs' hd (.inr ⟨by rw [← e2]; exact hf, hlen'⟩) hw'
  have hct := (C20_frames_partial state hcp.size _ hcp.text).1
  have hct' := (C20_frames_partial state' hcp'.size _ hcp'.text).1
  obtain ⟨t, ops, g1, g2, -, g3⟩ := C116_partial R mx junk fmt H note A c text L hT hs hc hf hlen hw hq
  obtain ⟨t', ops', k1, k2, -, k3⟩ := C116_partial R' mx' junk' fmt' G note' B d text L' hT' hs' hd (by rw [← e2]; exact hf)
    hlen' hw' (by rw [← e1]; exact hq)
  obtain rfl := readsText_unique hr g1
  obtain rfl := readsText_unique hr' k1
  obtain ⟨rfl, -⟩ := Chains.contents_unique hct g2
  obtain ⟨rfl, -⟩ := Chains.contents_unique hct' k2
  have hsame := state_same L L' h (by rw [e1, e2]) hst hst'
  have hsame : (l.map Prod.snd).map R.op = (l'.map Prod.snd).map R'.op := by
    simp only [List.map_map] at hsame ⊢
    exact hsame
  refine ⟨state, state', _, hr, by rw [e1, e2]; exact hr', hct, fun marks cps hm hL hcl hi hi' => ?_⟩
  obtain ⟨reply, a1, a2⟩ := g3 marks cps hm hL hcl hi
  obtain ⟨reply', b1, b2⟩ := k3 marks cps (by rw [← hsame]; exact hm) (letters_same hR hL hsame) hcl hi'
  refine ⟨reply, reply', a1, b1, fun r hr => ?_⟩
  rcases List.mem_cons.1 hr with rfl | hr
  · exact a2
  · rw [List.mem_singleton.1 hr, e1]
    exact b2

/-- C116: the text of an array that the store does not have is empty, and the status is OK. -/
theorem C116_unknown (R : Reading) (mx : MaxReducer) (junk : Cursor.Val → Nat) (fmt : Word → List Byte) (H : List Chain)
    (note : Uuid → List Nat) (A : List Entry) (id : Uuid) (text : List Byte) (L : Lineage H) (hT : Tells R H note A)
    (hi : Stamp id) (hu : ∀ c ∈ H, c.object = id → uuid2form c.rdt ≠ Form.RGA)
    (hq : QueryText text [(id.derived, formUuid Form.TXT)]) :
    ∃ reply, AnswersTxt mx junk fmt A text (Status.OK, reply) ∧
      (reply.length < 2 ^ 30 → Contents reply [⟨id.derived, formUuid Form.TXT, [.text []]⟩] .endOfFrame) := by
  have hr : ReadsText mx A (Key.mk' id Form.RGA) [] := by
    obtain ⟨wh, s, hS, K⟩ := hT
    have hform : (Key.mk' id Form.RGA).form = Form.RGA := form_mk _ _
    obtain ⟨f1, f2, f3, f4⟩ := stateForm_ne (.inr rfl : StateForm Form.RGA)
    have hst := K.state (Key.mk' id Form.RGA) (by rw [hform]; exact f2) (by rw [hform]; exact f3) (by rw [hform]; exact f1)
    have hemp : stored (Key.mk' id Form.RGA) s = [] := by
      cases hst' : stored (Key.mk' id Form.RGA) s with
      | nil => rfl
      | cons f fs =>
        obtain ⟨p1, p2⟩ := hst.part f (by rw [hst']; exact List.mem_cons_self)
        cases f with
        | nil => exact absurd rfl p1
        | cons o f =>
          obtain ⟨c, hc, -⟩ := p2 o List.mem_cons_self
          obtain ⟨hc, e⟩ := List.mem_filter.1 hc
          obtain ⟨e1, e2⟩ := C08_key_injective _ _ _ _ (L.object c hc).1.event hi.event (of_decide_eq_true e)
          exact absurd e2 (hu c hc e1)
    have hat := says_at hS (Key.mk' id Form.RGA)
    rw [hemp] at hat
    refine ⟨0, fun n _ => ?_⟩
    have : operands (A.map Entry.bytes) (Key.mk' id Form.RGA) = [] := by
      rw [operands_bytes]
      generalize entriesAt A (Key.mk' id Form.RGA) = es at hat
      cases hat
      rfl
    unfold TextReplica.read
    rw [this, if_neg (show Key.mk' id Form.RGA ≠ Key.END from key_ne_end f4)]
  refine askTxt_one hi hq hr (cps := []) (fun _ h => nomatch h) (by decide) (N := 1) fun n hn => ?_
  obtain ⟨j, rfl⟩ : ∃ j, n = 1 + j := ⟨n - 1, by omega⟩
  have hit : Cursor.iterate 1 (Cursor.init []) = .ok (some ([], .endOfFrame)) := by decide +kernel
  unfold readTxt
  rw [iterate_mono hit j, Op.obind]
  rfl

/-- An array of three letters; the second one is removed. -/
def bad116 : List (AOp × List AOp) :=
  [(op2 (tA 1) (formUuid Form.YARN), []),
   (op2 (tA 2) (formUuid Form.RGA),
    [op2 (tA 4) (tA 2) [.str [97]], op2 (tA 5) (tA 4) [.str [98]], op2 (tA 6) (tA 5) [.str [99]]]),
   (op2 (tA 8) (tA 5) [.uuid Rga.RM_UUID], [])]

/-- The last letter is removed. -/
def good116 : List (AOp × List AOp) :=
  [(op2 (tA 1) (formUuid Form.YARN), []),
   (op2 (tA 2) (formUuid Form.RGA),
    [op2 (tA 4) (tA 2) [.str [97]], op2 (tA 5) (tA 4) [.str [98]], op2 (tA 6) (tA 5) [.str [99]]]),
   (op2 (tA 8) (tA 6) [.uuid Rga.RM_UUID], [])]

theorem readTxt_mono {junk : Cursor.Val → Nat} {n : Nat} {state t : List Byte} (h : readTxt junk n state = .ok (some t))
    (j : Nat) : readTxt junk (n + j) state = .ok (some t) := by
  unfold readTxt at h ⊢
  obtain ⟨r, e, h⟩ := Cursor.bind_ok h
  cases r with
  | none => cases h
  | some r =>
    rw [iterate_mono e j, Op.obind]
    exact h

theorem answersTxt_of {mx : MaxReducer} {junk : Cursor.Val → Nat} {fmt : Word → List Byte} {A : List Entry}
    {text : List Byte} {r : Status × List Byte} (n : Nat) (h : askTxt mx junk fmt n (A.map Entry.bytes) text = .ok (some r)) :
    AnswersTxt mx junk fmt A text r := by
  refine ⟨n, fun m hm => ?_⟩
  obtain ⟨j, rfl⟩ : ∃ j, m = n + j := ⟨m - n, by omega⟩
  unfold askTxt at h ⊢
  obtain ⟨x, e, h⟩ := Cursor.bind_ok h
  rw [e, Op.obind]
  split
  · rename_i ho
    rw [ho] at h
    cases h
  · rename_i o ho
    rw [ho] at h
    simp only at h
    split
    · rename_i hc
      rw [if_pos hc] at h
      obtain ⟨y, e, h⟩ := Cursor.bind_ok h
      cases y with
      | none => cases h
      | some y =>
        rw [read_mono e j, Op.obind]
        simp only at h ⊢
        split
        · rename_i hv
          rw [if_pos hv] at h
          exact h
        · rename_i hv
          rw [if_neg hv] at h
          obtain ⟨z, e, h⟩ := Cursor.bind_ok h
          cases z with
          | none => cases h
          | some z =>
            rw [readTxt_mono e j, Op.obind]
            exact h
    · rename_i hc
      rw [if_neg hc] at h
      cases h

theorem answersTxt_unique {mx : MaxReducer} {junk : Cursor.Val → Nat} {fmt : Word → List Byte} {A : List Entry}
    {text : List Byte} {r r' : Status × List Byte} (h : AnswersTxt mx junk fmt A text r)
    (h' : AnswersTxt mx junk fmt A text r') : r = r' := by
  obtain ⟨N, h⟩ := h
  obtain ⟨N', h'⟩ := h'
  have := h (max N N') (by omega)
  rw [h' _ (by omega)] at this
  cases this
  rfl

/-- The ops of the array in the state that is read. -/
def ops116 (x : Uuid) : List OpView :=
  [⟨tA 2, formUuid Form.RGA, []⟩, ⟨tA 4, tA 2, [.text [97]]⟩, ⟨tA 5, tA 4, [.text [98]]⟩] ++
    (if x = tA 5 then [⟨tA 8, tA 5, [.uuid Rga.RM_UUID]⟩, ⟨tA 6, tA 5, [.text [99]]⟩]
    else [⟨tA 6, tA 5, [.text [99]]⟩, ⟨tA 8, tA 6, [.uuid Rga.RM_UUID]⟩])

/-- The state, as far as it has these ops. -/
def state116 (l : List (AOp × List AOp)) (ops : List OpView) : Option (List Byte) :=
  match TextReplica.read noMax 20 ((texts (fold111 newStore Uuid.NIL l)).map Entry.bytes)
    (Key.ofUuids (tA 2) (formUuid Form.RGA)) with
  | .ok (some (st, t)) =>
    if st = Status.OK ∧ readOps 20 t = .ok (some (ops, .endOfFrame)) then some t else none
  | _ => none

/-- The response has the text `t`. -/
def says116 (l : List (AOp × List AOp)) (t : List Byte) : Bool :=
  match askTxt noMax (fun _ => 0) (fun _ => []) 20 ((texts (fold111 newStore Uuid.NIL l)).map Entry.bytes)
    (frame84 (ask114 [((tA 2).derived, formUuid Form.TXT)])).1 with
  | .ok (some (_, r)) => decide (r.length < 2 ^ 30) &&
    decide (readOps 20 r = .ok (some ([⟨(tA 2).derived, formUuid Form.TXT, [.text t]⟩], .endOfFrame)))
  | _ => false

theorem state116_reads {l : List (AOp × List AOp)} {ops : List OpView} (h : (state116 l ops).isSome = true) :
    ∃ t, ReadsText noMax (texts (fold111 newStore Uuid.NIL l)) (Key.ofUuids (tA 2) (formUuid Form.RGA)) t ∧
      Contents t ops .endOfFrame ∧ state116 l ops = some t := by
  unfold state116 at h ⊢
  split at h
  · rename_i st t ht
    split at h
    · rename_i hs
      refine ⟨t, readsText_of 20 (by rw [ht, hs.1]), contents_of 20 hs.2, ?_⟩
      rw [if_pos hs]
    · cases h
  · cases h

theorem proper116 : (∀ c ∈ bad116, Spec.Proper c.1 c.2) ∧ ∀ c ∈ good116, Spec.Proper c.1 c.2 := by
  constructor <;> refine fed111_proper fun x hx => ?_ <;>
    simp only [bad116, good116, List.mem_cons, List.not_mem_nil, or_false] at hx <;> unfold Stamp <;>
    rcases hx with rfl | rfl | rfl <;> (try unfold ChainedTo) <;> (try unfold ChainedTo) <;> (try unfold ChainedTo) <;>
    (try unfold ChainedTo) <;> unfold op2 <;> decide +kernel

/-- C116 is violated: in an array of three letters the second one is removed. In the state the third one is not a part of the
run any more, its value is not a codepoint, and the response is `a`. -/
theorem C116_violated : ¬ C116_claim := by
  intro hc
  obtain ⟨H, note, L, hT, e⟩ := tellsAs_lit bad116 proper116.1 (by decide +kernel) (by decide +kernel)
  obtain ⟨c, h1, h2, h3, h4⟩ := made_has L e (x := bad116[1]) (by decide +kernel) (by decide +kernel)
  have hl : H.length = 3 := by
    have := congrArg List.length e
    rwa [List.length_map, List.length_map] at this
  obtain ⟨state, ops, g1, g2, -, g3⟩ := hc ascii noMax (fun _ => 0) (fun _ => []) H note _ c
    (frame84 (ask114 [((tA 2).derived, formUuid Form.TXT)])).1 L hT (short_lit 20 (by decide +kernel)) h1
    (by rw [h3]; decide +kernel) (by rw [← hl]; exact List.length_filter_le _ _)
    (.inr ⟨by rw [h3]; decide +kernel, by rw [h2, h3]; decide +kernel, by rw [h2, h3]; decide +kernel⟩)
    (by rw [h2]; exact query_lit (by decide +kernel))
  rw [h2, h3] at g1
  obtain ⟨t, k1, k2, -⟩ := state116_reads (l := bad116) (ops := ops116 (tA 5)) (by decide +kernel)
  have := readsText_unique g1 k1
  subst this
  obtain ⟨rfl, -⟩ := Chains.contents_unique g2 k2
  obtain ⟨reply, r1, r2⟩ := g3 [true, false, true, true, false] [97, 99] (by decide +kernel)
    (.hidden (.shown (by show _ = _; decide +kernel) (by unfold CpOk; decide) (.hidden (.hidden (.shown (by show _ = _; decide +kernel)
      (by unfold CpOk; decide) .nil))))) (by decide)
  have k : says116 bad116 [97] = true := by decide +kernel
  unfold says116 at k
  split at k
  · rename_i st r hr
    rw [Bool.and_eq_true] at k
    have := answersTxt_unique r1 (answersTxt_of 20 hr)
    injection this with _ e
    subst e
    have := (Chains.contents_unique (r2 (of_decide_eq_true k.1)) (contents_of 20 (of_decide_eq_true k.2))).1
    rw [h2] at this
    exact absurd this (by decide +kernel)
  · cases k

/-! ### The hypotheses hold -/

theorem inRuns_of {state : List Byte} {marks : List Bool} (n : Nat) (h : (match Cursor.iterate n (Cursor.init state) with
    | .ok (some (l, _)) => (l.zip marks).all fun x => x.2 || (match x.1.op[2]? with | some a => decide (Atom.cp a ≠ 0) | _ => false)
    | _ => false) = true) : InRuns state marks := by
  intro fuel l st hi i k h1 h2
  split at h
  · rename_i l' st' hr
    have e1 := iterate_mono hi n
    have e2 := iterate_mono hr fuel
    rw [Nat.add_comm] at e2
    rw [e1] at e2
    injection e2 with e2
    injection e2 with e2
    injection e2 with e2 e3
    subst e2
    have hz : (l.zip marks)[i]? = some (k, false) := by
      rw [List.getElem?_zip_eq_some]
      exact ⟨h1, h2⟩
    have := List.all_eq_true.1 h _ (List.mem_of_getElem? hz)
    simp only [Bool.false_or] at this
    split at this
    · rename_i a ha
      exact ⟨a, ha, of_decide_eq_true this⟩
    · cases this
  · cases h

/-- An array of three letters, the last one removed: the response is `ab`. -/
example : ∃ H note c state, Lineage H ∧ TellsAs true ascii H note (texts (fold111 newStore Uuid.NIL good116)) ∧
    Short noMax ((texts (fold111 newStore Uuid.NIL good116)).map Entry.bytes) ∧ c ∈ H ∧ uuid2form c.rdt = Form.RGA ∧
    (H.filter fun d => decide (d.object = c.object)).length ≤ 3 ∧ Written (texts (fold111 newStore Uuid.NIL good116)) c ∧
    QueryText (frame84 (ask114 [((tA 2).derived, formUuid Form.TXT)])).1 [(c.object.derived, formUuid Form.TXT)] ∧
    ReadsText noMax (texts (fold111 newStore Uuid.NIL good116)) (Key.ofUuids c.object c.rdt) state ∧
    Contents state (ops116 (tA 6)) .endOfFrame ∧
    Rga.scan ((ops116 (tA 6)).map ascii.op) = .ok [true, false, false, true, true] ∧
    Letters (ops116 (tA 6)) [true, false, false, true, true] [97, 98] ∧ InRuns state [true, false, false, true, true] ∧
    says116 good116 [97, 98] = true := by
  obtain ⟨H, note, L, hT, e⟩ := tellsAs_lit good116 proper116.2 (by decide +kernel) (by decide +kernel)
  obtain ⟨c, h1, h2, h3, h4⟩ := made_has L e (x := good116[1]) (by decide +kernel) (by decide +kernel)
  have hl : H.length = 3 := by
    have := congrArg List.length e
    rwa [List.length_map, List.length_map] at this
  obtain ⟨t, k1, k2, k3⟩ := state116_reads (l := good116) (ops := ops116 (tA 6)) (by decide +kernel)
  refine ⟨H, note, c, t, L, hT, short_lit 20 (by decide +kernel), h1, by rw [h3]; decide +kernel,
    by rw [← hl]; exact List.length_filter_le _ _,
    .inr ⟨by rw [h3]; decide +kernel, by rw [h2, h3]; decide +kernel, by rw [h2, h3]; decide +kernel⟩,
    by rw [h2]; exact query_lit (by decide +kernel), by rw [h2, h3]; exact k1, k2, by decide +kernel,
    .hidden (.shown (by show _ = _; decide +kernel) (by unfold CpOk; decide)
      (.shown (by show _ = _; decide +kernel) (by unfold CpOk; decide) (.hidden (.hidden .nil)))), ?_, by decide +kernel⟩
  have k4 : (match state116 good116 (ops116 (tA 6)) with
    | some t => (match Cursor.iterate 20 (Cursor.init t) with
      | .ok (some (l, _)) => (l.zip [true, false, false, true, true]).all fun x =>
        x.2 || (match x.1.op[2]? with | some a => decide (Atom.cp a ≠ 0) | _ => false)
      | _ => false)
    | none => false) = true := by decide +kernel
  rw [k3] at k4
  exact inRuns_of 20 k4

theorem firstAlone_of {state : List Byte} {marks : List Bool} {j : Nat} (n : Nat)
    (h : (match Cursor.iterate n (Cursor.init state) with
    | .ok (some (l, _)) => decide (marks[j]? = some false) &&
      (match l[j]? with
      | some k => (match k.op[2]? with | some a => decide (Atom.cp a = 0) | _ => false)
      | none => false) &&
      ((l.zip marks).take j).all fun x => x.2 || (match x.1.op[2]? with | some a => decide (Atom.cp a ≠ 0) | _ => false)
    | _ => false) = true) : FirstAlone state marks j := by
  split at h
  · rename_i l st hr
    rw [Bool.and_eq_true, Bool.and_eq_true] at h
    obtain ⟨⟨h1, h2⟩, h3⟩ := h
    refine ⟨n, l, st, hr, ?_, fun i k hi g1 g2 => ?_⟩
    · split at h2
      · rename_i k hk
        split at h2
        · rename_i a ha
          exact ⟨k, a, hk, of_decide_eq_true h1, ha, of_decide_eq_true h2⟩
        · cases h2
      · cases h2
    · have hz : (l.zip marks)[i]? = some (k, false) := by
        rw [List.getElem?_zip_eq_some]
        exact ⟨g1, g2⟩
      have hz : ((l.zip marks).take j)[i]? = some (k, false) := by
        rw [List.getElem?_take_of_lt hi, hz]
      have := List.all_eq_true.1 h3 _ (List.mem_of_getElem? hz)
      simp only [Bool.false_or] at this
      split at this
      · rename_i a ha
        exact ⟨a, ha, of_decide_eq_true this⟩
      · cases this
  · cases h

/-- The array with the second letter removed: the third letter stands alone, it is the fifth op of the state, and there is one
visible letter before it. -/
example : ∃ H note c state, Lineage H ∧ TellsAs true ascii H note (texts (fold111 newStore Uuid.NIL bad116)) ∧
    Short noMax ((texts (fold111 newStore Uuid.NIL bad116)).map Entry.bytes) ∧ c ∈ H ∧ uuid2form c.rdt = Form.RGA ∧
    (H.filter fun d => decide (d.object = c.object)).length ≤ 3 ∧ Written (texts (fold111 newStore Uuid.NIL bad116)) c ∧
    QueryText (frame84 (ask114 [((tA 2).derived, formUuid Form.TXT)])).1 [(c.object.derived, formUuid Form.TXT)] ∧
    ReadsText noMax (texts (fold111 newStore Uuid.NIL bad116)) (Key.ofUuids c.object c.rdt) state ∧
    Contents state (ops116 (tA 5)) .endOfFrame ∧
    Rga.scan ((ops116 (tA 5)).map ascii.op) = .ok [true, false, true, true, false] ∧
    Letters (ops116 (tA 5)) [true, false, true, true, false] [97, 99] ∧
    FirstAlone state [true, false, true, true, false] 4 ∧
    (([true, false, true, true, false].take 4).filter not).length = 1 ∧ says116 bad116 [97] = true := by
  obtain ⟨H, note, L, hT, e⟩ := tellsAs_lit bad116 proper116.1 (by decide +kernel) (by decide +kernel)
  obtain ⟨c, h1, h2, h3, h4⟩ := made_has L e (x := bad116[1]) (by decide +kernel) (by decide +kernel)
  have hl : H.length = 3 := by
    have := congrArg List.length e
    rwa [List.length_map, List.length_map] at this
  obtain ⟨t, k1, k2, k3⟩ := state116_reads (l := bad116) (ops := ops116 (tA 5)) (by decide +kernel)
  refine ⟨H, note, c, t, L, hT, short_lit 20 (by decide +kernel), h1, by rw [h3]; decide +kernel,
    by rw [← hl]; exact List.length_filter_le _ _,
    .inr ⟨by rw [h3]; decide +kernel, by rw [h2, h3]; decide +kernel, by rw [h2, h3]; decide +kernel⟩,
    by rw [h2]; exact query_lit (by decide +kernel), by rw [h2, h3]; exact k1, k2, by decide +kernel,
    .hidden (.shown (by show _ = _; decide +kernel) (by unfold CpOk; decide) (.hidden (.hidden (.shown (by show _ = _; decide +kernel)
      (by unfold CpOk; decide) .nil)))), ?_, by decide, by decide +kernel⟩
  have k4 : (match state116 bad116 (ops116 (tA 5)) with
    | some t => (match Cursor.iterate 20 (Cursor.init t) with
      | .ok (some (l, _)) => decide ([true, false, true, true, false][4]? = some false) &&
        (match l[4]? with
        | some k => (match k.op[2]? with | some a => decide (Atom.cp a = 0) | _ => false)
        | none => false) &&
        ((l.zip [true, false, true, true, false]).take 4).all fun x =>
          x.2 || (match x.1.op[2]? with | some a => decide (Atom.cp a ≠ 0) | _ => false)
      | _ => false)
    | none => false) = true := by decide +kernel
  rw [k3] at k4
  exact firstAlone_of 20 k4

/-- The same letters, and the last one is removed by the chain that has them. -/
def whole116 : List (AOp × List AOp) :=
  [(op2 (tA 1) (formUuid Form.YARN), []),
   (op2 (tA 2) (formUuid Form.RGA),
    [op2 (tA 4) (tA 2) [.str [97]], op2 (tA 5) (tA 4) [.str [98]]]),
   (op2 (tA 6) (tA 5) [.str [99]], [op2 (tA 8) (tA 6) [.uuid Rga.RM_UUID]])]

/-- Two stores that got the array of `good116` in different chains. In both states the letters stand in a run. -/
example : ∃ H G note note' c d state state', Lineage H ∧ TellsAs true ascii H note (texts (fold111 newStore Uuid.NIL good116)) ∧
    Lineage G ∧ TellsAs true ascii G note' (texts (fold111 newStore Uuid.NIL whole116)) ∧
    SameEvents (eventsOf H) (eventsOf G) ∧ (∀ t t', ascii.text t = ascii.text t' → t = t') ∧
    Short noMax ((texts (fold111 newStore Uuid.NIL good116)).map Entry.bytes) ∧
    Short noMax ((texts (fold111 newStore Uuid.NIL whole116)).map Entry.bytes) ∧ c ∈ H ∧ d ∈ G ∧
    (c.object, c.rdt) = (d.object, d.rdt) ∧ uuid2form c.rdt = Form.RGA ∧
    (H.filter fun x => decide (x.object = c.object)).length ≤ 3 ∧
    (G.filter fun x => decide (x.object = d.object)).length ≤ 3 ∧ Written (texts (fold111 newStore Uuid.NIL good116)) c ∧
    Written (texts (fold111 newStore Uuid.NIL whole116)) d ∧
    QueryText (frame84 (ask114 [((tA 2).derived, formUuid Form.TXT)])).1 [(c.object.derived, formUuid Form.TXT)] ∧
    ReadsText noMax (texts (fold111 newStore Uuid.NIL good116)) (Key.ofUuids c.object c.rdt) state ∧
    ReadsText noMax (texts (fold111 newStore Uuid.NIL whole116)) (Key.ofUuids c.object c.rdt) state' ∧
    InRuns state [true, false, false, true, true] ∧ InRuns state' [true, false, false, true, true] ∧
    says116 good116 [97, 98] = true ∧ says116 whole116 [97, 98] = true := by
  obtain ⟨H, note, L, hT, e⟩ := tellsAs_lit good116 proper116.2 (by decide +kernel) (by decide +kernel)
  obtain ⟨G, note', L', hT', e'⟩ := tellsAs_lit whole116 (by
    refine fed111_proper fun x hx => ?_
    simp only [whole116, List.mem_cons, List.not_mem_nil, or_false] at hx
    unfold Stamp
    rcases hx with rfl | rfl | rfl <;> (try unfold ChainedTo) <;> (try unfold ChainedTo) <;> (try unfold ChainedTo) <;>
      unfold op2 <;> decide +kernel) (by decide +kernel) (by decide +kernel)
  obtain ⟨c, h1, h2, h3, h4⟩ := made_has L e (x := good116[1]) (by decide +kernel) (by decide +kernel)
  obtain ⟨d, g1, g2, g3, g4⟩ := made_has L' e' (x := whole116[1]) (by decide +kernel) (by decide +kernel)
  have hl : H.length = 3 := by
    have := congrArg List.length e
    rwa [List.length_map, List.length_map] at this
  have hl' : G.length = 3 := by
    have := congrArg List.length e'
    rwa [List.length_map, List.length_map] at this
  obtain ⟨t, k1, -, k3⟩ := state116_reads (l := good116) (ops := ops116 (tA 6)) (by decide +kernel)
  obtain ⟨t', m1, -, m3⟩ := state116_reads (l := whole116) (ops := ops116 (tA 6)) (by decide +kernel)
  have k4 : ∀ l ∈ [good116, whole116], (match state116 l (ops116 (tA 6)) with
    | some t => (match Cursor.iterate 20 (Cursor.init t) with
      | .ok (some (l, _)) => (l.zip [true, false, false, true, true]).all fun x =>
        x.2 || (match x.1.op[2]? with | some a => decide (Atom.cp a ≠ 0) | _ => false)
      | _ => false)
    | none => false) = true := by decide +kernel
  have k5 := k4 good116 List.mem_cons_self
  have k6 := k4 whole116 (List.mem_cons_of_mem _ List.mem_cons_self)
  rw [k3] at k5
  rw [m3] at k6
  refine ⟨H, G, note, note', c, d, t, t', L, hT, L', hT', same_of_bodies ?_, fun _ _ h => ?_, short_lit 20 (by decide +kernel),
    short_lit 20 (by decide +kernel), h1, g1, by rw [h2, h3, g2, g3]; rfl, by rw [h3]; decide +kernel,
    by rw [← hl]; exact List.length_filter_le _ _, by rw [← hl']; exact List.length_filter_le _ _,
    .inr ⟨by rw [h3]; decide +kernel, by rw [h2, h3]; decide +kernel, by rw [h2, h3]; decide +kernel⟩,
    .inr ⟨by rw [g3]; decide +kernel, by rw [g2, g3]; decide +kernel, by rw [g2, g3]; decide +kernel⟩,
    by rw [h2]; exact query_lit (by decide +kernel), by rw [h2, h3]; exact k1, by rw [h2, h3]; exact m1,
    inRuns_of 20 k5, inRuns_of 20 k6, by decide +kernel, by decide +kernel⟩
  · rw [events_lit e, events_lit e']
    decide +kernel
  · exact (List.map_inj_right fun _ _ => UInt8.toNat_inj.1).1 h

/-- An array that the store does not have. -/
example : ∃ H note, Lineage H ∧ Tells ascii H note (texts (fold111 newStore Uuid.NIL good116)) ∧ Stamp (tA 9) ∧
    (∀ c ∈ H, c.object = tA 9 → uuid2form c.rdt ≠ Form.RGA) ∧
    QueryText (frame84 (ask114 [((tA 9).derived, formUuid Form.TXT)])).1 [((tA 9).derived, formUuid Form.TXT)] := by
  obtain ⟨H, note, L, ⟨s, hS, K⟩, e⟩ := tellsAs_lit good116 proper116.2 (by decide +kernel) (by decide +kernel)
  refine ⟨H, note, L, ⟨true, s, hS, K⟩, by unfold Stamp; decide +kernel, fun c hc e1 => ?_, query_lit (by decide +kernel)⟩
  obtain ⟨r, hr, e2⟩ := L.root c hc
  have : r.ops ∈ good116.map fun c => c.1 :: c.2 := by rw [← e]; exact List.mem_map_of_mem hr
  obtain ⟨x, hx, e3⟩ := List.mem_map.1 this
  injection e3 with e3 _
  rw [e1, ← e3] at e2
  exact absurd e2 ((by decide +kernel : ∀ x ∈ good116, x.1.id ≠ tA 9) x hx)

end Ron.Props
