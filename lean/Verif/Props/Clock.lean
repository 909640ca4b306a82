import Verif.Lemmas.Clock
/-!
Properties C06 (calendar timestamps) and C07 (the replica clock).
-/
namespace Ron.Props
open Ron Spec

/-! ## C06 -/

/-- C06. Within the era, timestamp words compare exactly as the calendar fields compare
lexicographically, down to 100 ns ticks. -/
theorem C06_calendar_order (t u : Tm) (ht : InEra t) (hu : InEra u) (n m : Nat)
    (hn : n < 10 ^ 9) (hm : m < 10 ^ 9) :
    (hybridTime t n).toNat < (hybridTime u m).toNat ↔
      lexNat (fields t (n / 100)) (fields u (m / 100)) := by
  rw [hybridTime_toNat t ht n hn, hybridTime_toNat u hu m hm]
  obtain ⟨h1, h2, h3, h4, h5, h6, h7, h8⟩ := ht
  obtain ⟨k1, k2, k3, k4, k5, k6, k7, k8⟩ := hu
  rw [pos_lt (by omega) (by omega), pos_lt (by omega) (by omega), pos_lt (by omega) (by omega),
    pos_lt (by omega) (by omega), pos_lt (by omega) (by omega), pos_lt (by omega) (by omega),
    pos_eq (by omega) (by omega), pos_eq (by omega) (by omega), pos_eq (by omega) (by omega),
    pos_eq (by omega) (by omega), pos_eq (by omega) (by omega)]
  simp only [fields, lexNat, and_false, or_false]
  have e1 : (t.year - 2010 < u.year - 2010) = (t.year < u.year) := by
    apply propext; omega
  have e2 : (t.year - 2010 = u.year - 2010) = (t.year = u.year) := by
    apply propext; omega
  have e3 : (t.mday - 1 < u.mday - 1) = (t.mday < u.mday) := by
    apply propext; omega
  have e4 : (t.mday - 1 = u.mday - 1) = (t.mday = u.mday) := by
    apply propext; omega
  rw [e1, e2, e3, e4]
  grind

/-- C06. Different instants never share a word. -/
theorem C06_calendar_injective (t u : Tm) (ht : InEra t) (hu : InEra u) (n m : Nat)
    (hn : n < 10 ^ 9) (hm : m < 10 ^ 9) (h : hybridTime t n = hybridTime u m) :
    t = u ∧ n / 100 = m / 100 := by
  have h' := congrArg BitVec.toNat h
  rw [hybridTime_toNat t ht n hn, hybridTime_toNat u hu m hm] at h'
  obtain ⟨h1, h2, h3, h4, h5, h6, h7, h8⟩ := ht
  obtain ⟨k1, k2, k3, k4, k5, k6, k7, k8⟩ := hu
  rw [pos_eq (by omega) (by omega), pos_eq (by omega) (by omega), pos_eq (by omega) (by omega),
    pos_eq (by omega) (by omega), pos_eq (by omega) (by omega), pos_eq (by omega) (by omega)] at h'
  obtain ⟨⟨⟨⟨⟨⟨hy, hmo⟩, hd⟩, hh⟩, hmi⟩, hs⟩, hn⟩ := h'
  refine ⟨?_, hn⟩
  cases t; cases u
  simp only [Tm.mk.injEq] at *
  exact ⟨by omega, hmo, by omega, hh, hmi, hs⟩

/-- C06. Timestamp words leave the four flag bits clear. -/
theorem C06_calendar_payload (t : Tm) (ht : InEra t) (n : Nat) (hn : n < 10 ^ 9) :
    (hybridTime t n).flags = 0 := by
  have h := hybridTime_toNat t ht n hn
  obtain ⟨h1, h2, h3, h4, h5, h6, h7, h8⟩ := ht
  unfold Word.flags
  omega

/-- C06, end to end: as a function of POSIX time (seconds, nanoseconds), timestamp words are
strictly monotone, for all times from 2010 to the end of the era. -/
theorem C06_posix_order (s s' n n' : Nat) (hn : n < 10 ^ 9) (hn' : n' < 10 ^ 9)
    (h0 : 2010 ≤ (gmtime s).year) (h0' : 2010 ≤ (gmtime s').year)
    (h1 : ((gmtime s).year - 2010) * 12 + (gmtime s).mon < 4096)
    (h1' : ((gmtime s').year - 2010) * 12 + (gmtime s').mon < 4096) :
    (hybridTime (gmtime s) n).toNat < (hybridTime (gmtime s') n').toNat ↔
      s * 10000000 + n / 100 < s' * 10000000 + n' / 100 := by
  obtain ⟨a1, a2, a3, a4, a5, a6⟩ := gmtime_bounds s
  obtain ⟨b1, b2, b3, b4, b5, b6⟩ := gmtime_bounds s'
  rw [hybridTime_toNat _ ⟨h0, a1, h1, a2, a3, a4, a5, a6⟩ n hn,
    hybridTime_toNat _ ⟨h0', b1, h1', b2, b3, b4, b5, b6⟩ n' hn']
  have hd : s / 86400 < s' / 86400 → Day.idx (dayOf (s / 86400)) < Day.idx (dayOf (s' / 86400)) :=
    dayOf_mono
  have hd' : s' / 86400 < s / 86400 → Day.idx (dayOf (s' / 86400)) < Day.idx (dayOf (s / 86400)) :=
    dayOf_mono
  have he : s / 86400 = s' / 86400 → dayOf (s / 86400) = dayOf (s' / 86400) := congrArg dayOf
  have f1 : s = ((s / 86400 * 24 + s % 86400 / 3600) * 60 + s % 3600 / 60) * 60 + s % 60 := by
    omega
  have f2 : s' = ((s' / 86400 * 24 + s' % 86400 / 3600) * 60 + s' % 3600 / 60) * 60 + s' % 60 := by
    omega
  have e2 : s * 10000000 + n / 100 < s' * 10000000 + n' / 100 ↔
      (((s / 86400 * 24 + s % 86400 / 3600) * 60 + s % 3600 / 60) * 60 + s % 60) * 10000000 + n / 100 <
      (((s' / 86400 * 24 + s' % 86400 / 3600) * 60 + s' % 3600 / 60) * 60 + s' % 60) * 10000000
        + n' / 100 := by
    rw [← f1, ← f2]
  rw [e2]
  clear e2 f1 f2
  simp only [gmtime] at *
  unfold Day.idx at hd hd'
  generalize dayOf (s / 86400) = x at *
  generalize dayOf (s' / 86400) = y at *
  have g1 : ((x.y - 2010) * 12 + x.m) * 2 ^ 6 + (x.d - 1) <
      ((y.y - 2010) * 12 + y.m) * 2 ^ 6 + (y.d - 1) ↔ s / 86400 < s' / 86400 := by
    rcases Nat.lt_trichotomy (s / 86400) (s' / 86400) with h | h | h
    · have := hd h; omega
    · have := he h; subst this; omega
    · have := hd' h; omega
  have g2 : ((x.y - 2010) * 12 + x.m) * 2 ^ 6 + (x.d - 1) =
      ((y.y - 2010) * 12 + y.m) * 2 ^ 6 + (y.d - 1) ↔ s / 86400 = s' / 86400 := by
    rcases Nat.lt_trichotomy (s / 86400) (s' / 86400) with h | h | h
    · have := hd h; omega
    · have := he h; subst this; omega
    · have := hd' h; omega
  have hn1 : n / 100 < 10000000 := by omega
  have hn2 : n' / 100 < 10000000 := by omega
  obtain ⟨X, hX⟩ : ∃ X, ((x.y - 2010) * 12 + x.m) * 2 ^ 6 + (x.d - 1) = X := ⟨_, rfl⟩
  obtain ⟨Y, hY⟩ : ∃ Y, ((y.y - 2010) * 12 + y.m) * 2 ^ 6 + (y.d - 1) = Y := ⟨_, rfl⟩
  rw [hX, hY] at g1 g2 ⊢
  clear hX hY
  clear hd hd' he h0 h0' h1 h1' a1 a2 a3 b1 b2 b3
  rw [pos_lt (K := 2 ^ 24) (by omega) (by omega), pos_lt (K := 2 ^ 6) (by omega) (by omega),
    pos_lt (K := 2 ^ 6) (by omega) (by omega), pos_lt (K := 2 ^ 6) (by omega) (by omega),
    pos_eq (K := 2 ^ 6) (by omega) (by omega), pos_eq (K := 2 ^ 6) (by omega) (by omega),
    pos_eq (K := 2 ^ 6) (by omega) (by omega),
    pos_lt (K := 10000000) (by omega) (by omega), pos_lt (K := 60) (by omega) (by omega),
    pos_lt (K := 60) (by omega) (by omega), pos_lt (K := 24) (by omega) (by omega),
    pos_eq (K := 60) (by omega) (by omega), pos_eq (K := 60) (by omega) (by omega),
    pos_eq (K := 24) (by omega) (by omega), g1, g2,
    pos_eq (K := 2 ^ 6) (by omega) (by omega), pos_eq (K := 2 ^ 6) (by omega) (by omega),
    pos_eq (K := 2 ^ 6) (by omega) (by omega), g2,
    pos_eq (K := 60) (by omega) (by omega),
    pos_eq (K := 24) (by omega) (by omega)]

/-- Non-vacuity: a leap day of 2020, and the last month of the era. -/
example : InEra ⟨2020, 1, 29, 23, 59, 59⟩ ∧ InEra ⟨2351, 3, 30, 0, 0, 0⟩ :=
  ⟨⟨by decide, by decide, by decide, by decide, by decide, by decide, by decide, by decide⟩,
   ⟨by decide, by decide, by decide, by decide, by decide, by decide, by decide, by decide⟩⟩
/-- The reference calendar does produce the first and the following days of the epoch. -/
example : dayOf 58 = ⟨1970, 1, 28⟩ ∧ dayOf 59 = ⟨1970, 2, 1⟩ ∧ dayOf 365 = ⟨1971, 0, 1⟩ ∧
    dayOf (365 + 365 + 59) = ⟨1972, 1, 29⟩ := by decide +kernel

/-! ## C07 -/

/-- A clock event: a request for a stamp (with the wall clock reading and the origin), or a
foreign timestamp shown to the replica. -/
inductive ClockEv
  | now (wall origin : Word)
  | see (ts : Uuid)

/-- What the clock lets out or accepts: the stamps handed out (`true`) and the foreign
timestamps accepted with OK (`false`), in order. -/
def clockRun (now : Word) : List ClockEv → List (Bool × Uuid)
  | [] => []
  | .now w o :: es => let r := clockNow now w o; (true, r.2) :: clockRun r.1 es
  | .see ts :: es =>
    let r := clockSee now ts
    if r.2.ok then (false, ts) :: clockRun r.1 es else clockRun r.1 es

theorem C07_aux (now : Word) (es : List ClockEv) (hnow : now.toNat < NEVER.toNat)
    (hout : ∀ u, (true, u) ∈ clockRun now es → u.value.toNat < NEVER.toNat) :
    (∀ u, (true, u) ∈ clockRun now es → now.toNat < u.value.toNat) ∧
    (clockRun now es).Pairwise (fun a b => b.1 = true → a.2.value.toNat < b.2.value.toNat) := by
  have hN : NEVER.toNat = 63 * 2 ^ 54 := by decide
  induction es generalizing now with
  | nil => simp [clockRun]
  | cons e es ih =>
    cases e with
    | now w o =>
      simp only [clockRun] at hout ⊢
      have hv : (clockNow now w o).2.value = (clockNow now w o).1 := rfl
      have hgt : now.toNat < (clockNow now w o).1.toNat := by
        simp only [clockNow]
        split
        · assumption
        · show now.toNat < (now + BitVec.ofNat 64 1).toNat
          rw [BitVec.toNat_add, BitVec.toNat_ofNat]; omega
      have hlt : (clockNow now w o).1.toNat < NEVER.toNat := by
        rw [← hv]; exact hout _ (by simp)
      obtain ⟨i1, i2⟩ := ih _ hlt (fun u hu => hout u (List.mem_cons_of_mem _ hu))
      refine ⟨?_, ?_⟩
      · intro u hu
        rcases List.mem_cons.mp hu with h | h
        · obtain ⟨-, rfl⟩ := Prod.mk.inj h; rw [hv]; exact hgt
        · exact Nat.lt_trans hgt (i1 u h)
      · refine List.Pairwise.cons ?_ i2
        rintro ⟨b, u⟩ hu rfl
        rw [hv]; exact i1 u hu
    | see ts =>
      simp only [clockRun] at hout ⊢
      have hle : now.toNat ≤ (clockSee now ts).1.toNat ∧ (clockSee now ts).1.toNat < NEVER.toNat ∧
          ((clockSee now ts).2.ok = true → ts.value.toNat ≤ (clockSee now ts).1.toNat) := by
        unfold clockSee
        split
        · exact ⟨Nat.le_refl _, hnow, fun h => absurd (show Status.BADARGS.ok = true from h) (by decide)⟩
        · split
          · exact ⟨Nat.le_refl _, hnow, by intro _; simp only; omega⟩
          · split
            · exact ⟨Nat.le_refl _, hnow, fun h => absurd (show Status.BADARGS.ok = true from h) (by decide)⟩
            · exact ⟨by simp only; omega, by simp only; omega, by intro _; simp⟩
      obtain ⟨e1, e2, e3⟩ := hle
      split at hout
      · rename_i hok
        rw [if_pos hok]
        obtain ⟨i1, i2⟩ := ih _ e2 (fun u hu => hout u (List.mem_cons_of_mem _ hu))
        refine ⟨?_, ?_⟩
        · intro u hu
          rcases List.mem_cons.mp hu with h | h
          · exact absurd (Prod.mk.inj h).1 (by decide)
          · exact Nat.lt_of_le_of_lt e1 (i1 u h)
        · refine List.Pairwise.cons ?_ i2
          rintro ⟨b, u⟩ hu rfl
          exact Nat.lt_of_le_of_lt (e3 hok) (i1 u hu)
      · rename_i hok
        rw [if_neg hok]
        obtain ⟨i1, i2⟩ := ih _ e2 hout
        exact ⟨fun u hu => Nat.lt_of_le_of_lt e1 (i1 u hu), i2⟩

/-- C07. In any interleaving of stamp requests and foreign timestamps, whatever the wall clock
shows, every stamp handed out is greater than everything handed out or accepted before it,
as long as the stamps stay below NEVER. -/
theorem C07_clock_monotone (es : List ClockEv)
    (hout : ∀ u, (true, u) ∈ clockRun 0#64 es → u.value.toNat < NEVER.toNat) :
    (clockRun 0#64 es).Pairwise (fun a b => b.1 = true → a.2.value.toNat < b.2.value.toNat) :=
  (C07_aux 0#64 es (by decide) hout).2

/-- C07. Stamps also compare as UUIDs: each is greater, by `Uuid::operator<`, than everything
before it, and each is an event UUID of the requested origin. -/
theorem C07_clock_monotone_uuid (es : List ClockEv)
    (hout : ∀ u, (true, u) ∈ clockRun 0#64 es → u.value.toNat < NEVER.toNat) :
    (clockRun 0#64 es).Pairwise (fun a b => b.1 = true → a.2.lt b.2 = true) :=
  (C07_clock_monotone es hout).imp (fun h hb => by simp [Uuid.lt, h hb])

theorem C07_stamp_shape (now wall origin : Word) :
    (clockNow now wall origin).2.version = Uuid.vTIME ∧
    (clockNow now wall origin).2.origin.toNat = 2 * 2 ^ 60 + origin.toNat % 2 ^ 60 := by
  have ho : (clockNow now wall origin).2.origin.toNat = 2 * 2 ^ 60 + origin.toNat % 2 ^ 60 := by
    show (BitVec.ofNat 64 (origin.payload + 2 * 2 ^ 60)).toNat = _
    unfold Word.payload
    rw [BitVec.toNat_ofNat]; omega
  refine ⟨?_, ho⟩
  unfold Uuid.version Word.flags
  rw [ho]
  show _ = 2
  omega

/-- Non-vacuity: a wall clock that jumps back and a foreign stamp from the future. -/
example : (clockRun 0#64 [.now 100#64 1#64, .now 50#64 1#64, .see (Uuid.time 900#64 7#64),
      .now 60#64 1#64]).map (fun p => (p.1, p.2.value.toNat)) =
    [(true, 100), (true, 101), (false, 900), (true, 901)] := by decide +kernel

end Ron.Props
