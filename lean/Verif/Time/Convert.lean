import Verif.Time.Calendar
import Verif.Time.Delta

/-
Model of the conversions of base::Time (base/time/time.cc), and of base/time/time_utils.cc's
`ms_to_timeval` (C97).  A `Time` is its microseconds from 1601 (`us_`, an int64).  `gmtime_r` and
`timegm` are parameters with the contract of the C library; `FromDoubleT`, local times and the clocks are
not modelled.
-/
namespace Ltio.Time.Conv
open Ltio.Time Ltio.Time.Cal

/-- `kTimeTToMicrosecondsOffset` (time.h:24-25). -/
def OFF : Int := 11644473600000000

/-- `Time::FromTimeT` (time.cc:60-66); `none` if a check exits the process. -/
def fromTimeT (tt : Int) : Option Int :=
  if tt = 0 then some 0 else if tt = MAX then some MAX else add OFF (fromSeconds tt)

/-- `Time::ToTimeT` (time.cc:68-76). -/
def toTimeT (us : Int) : Int :=
  if us = 0 then 0
  else if ¬ isInf us ∧ MAX - OFF > us then inSeconds (timeSub us OFF)
  else if us < 0 then MIN else MAX

/-- `struct timeval`. -/
structure TimeVal where
  sec : Int
  usec : Int
deriving DecidableEq

/-- `Time::FromTimeVal` (time.cc:103-119); `none` if a check exits the process. -/
def fromTimeVal (t : TimeVal) : Option Int :=
  if ¬ t.usec > 0 then none
  else if ¬ t.usec < 1000000 then none
  else if t.usec = 0 ∧ t.sec = 0 then some 0
  else if t.usec = 999999 ∧ t.sec = MAX then some MAX
  else some (wrap (wrap (wrap (t.sec * 1000000) + t.usec) + OFF))

/-- `Time::ToTimeVal` (time.cc:121-138). -/
def toTimeVal (us : Int) : TimeVal :=
  if us = 0 then ⟨0, 0⟩
  else if us = MAX then ⟨MAX, 999999⟩
  else ⟨(wrap (us - OFF)).tdiv 1000000, (wrap (us - OFF)).tmod 1000000⟩

/-- `ToRoundedDownMillisecondsSinceUnixEpoch` (time.cc:361-377). -/
def floorMillis (us : Int) : Int := us.tdiv 1000 - 11644473600000 - (if us.tmod 1000 < 0 then 1 else 0)

/-- `Time::Exploded` (time.h:72-87): months from 1. -/
structure Fields where
  year : Int
  month : Int
  wday : Int
  mday : Int
  hour : Int
  min : Int
  sec : Int
  ms : Int
deriving DecidableEq

/-- The C library (the contract of `gmtime_r` and `timegm`; `struct tm` is an `Exploded` here, its year
counted from 0). -/
structure Lib where
  gmtime : Int → Exploded
  timegm : Exploded → Int
  gm_valid : ∀ t, Valid (gmtime t)
  gm_instant : ∀ t, instant (gmtime t) = t * 1000000
  tg_instant : ∀ e, e.usec = 0 → timegm e * 1000000 = instant e

/-- The fields of a `struct tm` and milliseconds (time.cc:182-189). -/
def ofTm (e : Exploded) (ms : Int) : Fields := ⟨e.year, e.month + 1, e.wday, e.mday, e.hour, e.min, e.sec, ms⟩

/-- Seconds and milliseconds of a count of milliseconds (time.cc:168-176). -/
def splitMs (n : Int) : Int × Int :=
  if n.tmod 1000 < 0 then (n.tdiv 1000 - 1, n.tmod 1000 + 1000) else (n.tdiv 1000, n.tmod 1000)

/-- `Time::UTCExplode` (time.cc:161-190). -/
def explode (L : Lib) (us : Int) : Fields :=
  ofTm (L.gmtime (splitMs (floorMillis us)).1) (splitMs (floorMillis us)).2

/-- The `struct tm` of fields (time.cc:201-215). -/
def toTm (f : Fields) : Exploded := ⟨0, f.sec, f.min, f.hour, f.mday, f.month - 1, f.year, f.wday, 0, 0⟩

/-- An int. -/
abbrev I32 (x : Int) : Prop := -2147483648 ≤ x ∧ x ≤ 2147483647

/-- Milliseconds of the exploded time (time.cc:229-290).  `timegm` ignores `tm_isdst`, so the three calls
give the same. -/
def millisOf (f : Fields) (s : Int) : Option Int :=
  if s = -1 ∧ (f.year < 1969 ∨ f.year > 1970) then
    (if f.year < 1969 then some (-2147483648000) else some 2147483647999)
  else (checked (s * 1000)).bind (fun x => checked (x + f.ms))

/-- `FromMillisecondsSinceUnixEpoch` (time.cc:349-359). -/
def fromMillis (n : Int) : Option Int := (checked (n * 1000)).bind (fun x => checked (x + OFF))

/-- `ExplodedMostlyEquals` (time.cc:341-346). -/
def sameFields (a b : Fields) : Prop :=
  a.year = b.year ∧ a.month = b.month ∧ a.mday = b.mday ∧ a.hour = b.hour ∧ a.min = b.min ∧
  a.sec = b.sec ∧ a.ms = b.ms

instance (a b : Fields) : Decidable (sameFields a b) := by unfold sameFields; infer_instance

/-- `Time::FromUTCExploded` (time.cc:192-321); `none` is false. -/
def fromExploded (L : Lib) (f : Fields) : Option Int :=
  if ¬ I32 (f.month - 1) ∨ ¬ I32 (f.year - 1900) then none
  else (millisOf f (L.timegm (toTm f))).bind (fun n => (fromMillis n).bind (fun t =>
    if sameFields (explode L t) f then some t else none))

/-- The start of the day (time.cc:141-147). -/
def atMidnight (f : Fields) : Fields := ⟨f.year, f.month, f.wday, f.mday, 0, 0, 0, 0⟩

/-- `Time::UTCMidnight` (time.cc:140-159): `none` if the check of `is_local` exits the process. -/
def midnight (L : Lib) (us : Int) : Option Int := fromExploded L (atMidnight (explode L us))

/-- `ms_to_timeval` (time_utils.cc:49-56): the product is computed in 64 bits. -/
def msToTimeval (ms : Nat) : TimeVal := ⟨(ms : Int).tdiv 1000, (ms : Int).tmod 1000 * 1000⟩

/-! ### Specification -/

/-- Fields of a time that exists. -/
def FieldsValid (f : Fields) : Prop :=
  1 ≤ f.month ∧ f.month ≤ 12 ∧ 1 ≤ f.mday ∧ f.mday ≤ monthLen f.year (f.month - 1).toNat ∧
  0 ≤ f.hour ∧ f.hour < 24 ∧ 0 ≤ f.min ∧ f.min < 60 ∧ 0 ≤ f.sec ∧ f.sec < 60 ∧ 0 ≤ f.ms ∧ f.ms < 1000

/-- The instant of fields: microseconds from 1970 in the Gregorian calendar. -/
def instantOf (f : Fields) : Int :=
  instant ⟨f.ms * 1000, f.sec, f.min, f.hour, f.mday, f.month - 1, f.year, 0, 0, 0⟩

/-! ### Proofs -/

theorem instantOf_eq (f : Fields) : instantOf f = instant (toTm f) + f.ms * 1000 := by
  simp only [instantOf, instant, toTm]; omega

theorem toTm_valid {f : Fields} (h : FieldsValid f) : Valid (toTm f) := by
  obtain ⟨h1, h2, h3, h4, h5, h6, h7, h8, h9, h10, h11, h12⟩ := h
  exact ⟨⟨by simp [toTm], by simp [toTm]⟩, ⟨h9, h10⟩, ⟨h7, h8⟩, ⟨h5, h6⟩, ⟨by simp only [toTm]; omega, by simp only [toTm]; omega⟩,
    ⟨h3, h4⟩, rfl⟩

theorem floorMillis_eq (us : Int) : floorMillis us = (us - OFF) / 1000 := by
  have h1 := Int.tdiv_mul_add_tmod us 1000
  have h2 : (us.tmod 1000).natAbs = us.natAbs % 1000 := Int.natAbs_tmod us 1000
  have h3 : (us.tdiv 1000).natAbs = us.natAbs / 1000 := Int.natAbs_tdiv us 1000
  unfold floorMillis OFF
  split <;> omega

theorem splitMs_eq (n : Int) : splitMs n = (n / 1000, n % 1000) := by
  have h1 := Int.tdiv_mul_add_tmod n 1000
  have h2 : (n.tmod 1000).natAbs = n.natAbs % 1000 := Int.natAbs_tmod n 1000
  unfold splitMs
  split
  · have : n.tdiv 1000 - 1 = n / 1000 := by omega
    have : n.tmod 1000 + 1000 = n % 1000 := by omega
    simp [*]
  · have : n.tdiv 1000 = n / 1000 := by omega
    have : n.tmod 1000 = n % 1000 := by omega
    simp [*]

theorem explode_eq (L : Lib) (us : Int) : explode L us =
    ofTm (L.gmtime ((us - OFF) / 1000 / 1000)) ((us - OFF) / 1000 % 1000) := by
  simp only [explode, floorMillis_eq, splitMs_eq]

/-- **C97.** The exploded form of a time is a valid date and time of day, of the time rounded down to
milliseconds. -/
theorem c97_explode (L : Lib) (us : Int) :
    FieldsValid (explode L us) ∧ OFF + instantOf (explode L us) ≤ us ∧
    us < OFF + instantOf (explode L us) + 1000 := by
  rw [explode_eq]
  generalize hn : (us - OFF) / 1000 = n
  have hv := L.gm_valid (n / 1000)
  have hi := L.gm_instant (n / 1000)
  have hm : 0 ≤ n % 1000 ∧ n % 1000 < 1000 := by omega
  have e : (L.gmtime (n / 1000)).month + 1 - 1 = (L.gmtime (n / 1000)).month := by omega
  have hio : instantOf (ofTm (L.gmtime (n / 1000)) (n % 1000)) = n * 1000 := by
    have hus : 0 ≤ (L.gmtime (n / 1000)).usec ∧ (L.gmtime (n / 1000)).usec < 1000000 := hv.usec
    have ho := hv.offset
    simp only [instantOf, ofTm, instant, e] at hi ⊢
    omega
  refine ⟨?_, ?_, ?_⟩
  · have h1 := hv.month
    refine ⟨?_, ?_, hv.mday.1, ?_, hv.hour.1, hv.hour.2, hv.min.1, hv.min.2, hv.sec.1, hv.sec.2, hm.1, hm.2⟩
    · simp only [ofTm]; omega
    · simp only [ofTm]; omega
    · have := hv.mday.2
      simp only [ofTm, e]; exact this
  · rw [hio]; unfold OFF at *; omega
  · rw [hio]; unfold OFF at *; omega

theorem checked_eq {x y : Int} : checked x = some y ↔ x = y ∧ I64 x := by
  unfold checked I64
  by_cases h : MIN ≤ x ∧ x ≤ MAX
  · rw [if_pos h]; simp [h.1, h.2]
  · rw [if_neg h]; simp only [reduceCtorEq, false_iff]; intro hc; exact h hc.2

/-- Fields that agree have the same instant and are valid together. -/
theorem same_instant {a b : Fields} (h : sameFields a b) : instantOf a = instantOf b ∧ (FieldsValid a → FieldsValid b) := by
  obtain ⟨h1, h2, h3, h4, h5, h6, h7⟩ := h
  constructor
  · simp only [instantOf, h1, h2, h3, h4, h5, h6, h7]
  · simp only [FieldsValid, h1, h2, h3, h4, h5, h6, h7]; exact id

theorem fields_unique {a b : Fields} (ha : FieldsValid a) (hb : FieldsValid b) (h : instantOf a = instantOf b) :
    sameFields a b := by
  have hea : Valid ⟨a.ms * 1000, a.sec, a.min, a.hour, a.mday, a.month - 1, a.year, 0, 0, 0⟩ := by
    obtain ⟨h1, h2, h3, h4, h5, h6, h7, h8, h9, h10, h11, h12⟩ := ha
    exact ⟨⟨by simp only []; omega, by simp only []; omega⟩, ⟨h9, h10⟩, ⟨h7, h8⟩, ⟨h5, h6⟩, ⟨by simp only []; omega, by simp only []; omega⟩, ⟨h3, h4⟩, rfl⟩
  have heb : Valid ⟨b.ms * 1000, b.sec, b.min, b.hour, b.mday, b.month - 1, b.year, 0, 0, 0⟩ := by
    obtain ⟨h1, h2, h3, h4, h5, h6, h7, h8, h9, h10, h11, h12⟩ := hb
    exact ⟨⟨by simp only []; omega, by simp only []; omega⟩, ⟨h9, h10⟩, ⟨h7, h8⟩, ⟨h5, h6⟩, ⟨by simp only []; omega, by simp only []; omega⟩, ⟨h3, h4⟩, rfl⟩
  obtain ⟨h1, h2, h3, h4, h5, h6, h7⟩ := c95_unique hea heb h
  simp only [] at h1 h2 h3 h4 h5 h6 h7
  exact ⟨h1, by omega, h3, h4, h5, h6, by omega⟩

theorem yearStart_1970 : yearStart 1970 = 0 := by decide

theorem year_bounds {f : Fields} (hv : FieldsValid f) (hi : I64 (instantOf f)) :
    -300000 ≤ f.year ∧ f.year ≤ 300000 := by
  have h := valid_instant (toTm_valid hv)
  have h2 := hi.1
  have h3 := hi.2
  rw [instantOf_eq] at h2 h3
  have hms : 0 ≤ f.ms ∧ f.ms < 1000 := ⟨hv.2.2.2.2.2.2.2.2.2.2.1, hv.2.2.2.2.2.2.2.2.2.2.2⟩
  have hy : (toTm f).year = f.year := rfl
  rw [hy] at h
  have hA : MAX = 9223372036854775807 := rfl
  have hB : MIN = -9223372036854775808 := rfl
  have hz := yearStart_1970
  constructor
  · by_contra hc
    have := yearStart_mono (a := f.year + 1) (b := 1970) (by omega)
    omega
  · by_contra hc
    have := yearStart_mono (a := 1970) (b := f.year) (by omega)
    omega

theorem year_1969 {f : Fields} (hv : FieldsValid f) (h : instant (toTm f) = -1000000) : f.year = 1969 := by
  have hb := valid_instant (toTm_valid hv)
  have hy : (toTm f).year = f.year := rfl
  rw [hy, h] at hb
  have hz := yearStart_1970
  by_contra hc
  rcases Int.lt_or_gt_of_ne hc with h1 | h1
  · have := yearStart_mono (a := f.year + 1) (b := 1970) (by omega); omega
  · have := yearStart_mono (a := 1970) (b := f.year) (by omega); omega

/-- **C97.** `FromUTCExploded` succeeds just for the fields of times that exist and can be represented
(counted from 1970 as well as from 1601), and gives their instant; in particular the thirtieth of
February or 24:00 is rejected. -/
theorem c97_from_exploded (L : Lib) (f : Fields) (t : Int) :
    fromExploded L f = some t ↔
      FieldsValid f ∧ t = OFF + instantOf f ∧ I64 (instantOf f) ∧ I64 t := by
  have htg := L.tg_instant (toTm f) rfl
  have hio := instantOf_eq f
  constructor
  · intro h
    unfold fromExploded at h
    split at h
    · exact absurd h (by simp)
    · simp only [Option.bind_eq_some_iff] at h
      obtain ⟨n, hn, t', ht', hs⟩ := h
      split at hs
      · rename_i hsame
        simp only [Option.some.injEq] at hs
        subst hs
        simp only [fromMillis, Option.bind_eq_some_iff, checked_eq] at ht'
        obtain ⟨x, ⟨hx1, hx2⟩, hx3, hx4⟩ := ht'
        have hex := c97_explode L t'
        have hsi := same_instant hsame
        rw [hsi.1] at hex
        have key : OFF + instantOf f = t' := by
          have h1 := hex.2.1
          have h2 := hex.2.2
          have h3 : instantOf f = instant (toTm f) + f.ms * 1000 := hio
          have h4 : instantOf f % 1000 = 0 := by rw [h3, ← htg]; omega
          unfold OFF at *
          omega
        refine ⟨hsi.2 hex.1, key.symm, ?_, ?_⟩
        · have : instantOf f = x := by unfold OFF at *; omega
          rw [this, ← hx1]; exact hx2
        · rw [← hx3]; exact hx4
      · exact absurd hs (by simp)
  · rintro ⟨hv, rfl, hi, ht⟩
    have hy := year_bounds hv hi
    have hms : 0 ≤ f.ms ∧ f.ms < 1000 := ⟨hv.2.2.2.2.2.2.2.2.2.2.1, hv.2.2.2.2.2.2.2.2.2.2.2⟩
    have hmo : 1 ≤ f.month ∧ f.month ≤ 12 := ⟨hv.1, hv.2.1⟩
    generalize hs : L.timegm (toTm f) = s at htg
    have hA : MAX = 9223372036854775807 := rfl
    have hB : MIN = -9223372036854775808 := rfl
    have hi' : MIN ≤ s * 1000000 + f.ms * 1000 ∧ s * 1000000 + f.ms * 1000 ≤ MAX := by
      rw [htg, ← hio]; exact hi
    have hm : millisOf f s = some (s * 1000 + f.ms) := by
      unfold millisOf
      rw [if_neg]
      · have c1 : checked (s * 1000) = some (s * 1000) := checked_eq.2 ⟨rfl, by unfold I64; omega⟩
        have c2 : checked (s * 1000 + f.ms) = some (s * 1000 + f.ms) := checked_eq.2 ⟨rfl, by unfold I64; omega⟩
        rw [c1, Option.bind_some, c2]
      · rintro ⟨rfl, hc⟩
        have := year_1969 hv (by omega)
        omega
    have hf : fromMillis (s * 1000 + f.ms) = some (OFF + instantOf f) := by
      have e1 : (s * 1000 + f.ms) * 1000 = instantOf f := by omega
      have c1 : checked (instantOf f) = some (instantOf f) := checked_eq.2 ⟨rfl, hi⟩
      have e2 : instantOf f + OFF = OFF + instantOf f := by omega
      have c2 : checked (OFF + instantOf f) = some (OFF + instantOf f) := checked_eq.2 ⟨rfl, ht⟩
      simp only [fromMillis, e1, c1, Option.bind_some, e2, c2]
    have hsame : sameFields (explode L (OFF + instantOf f)) f := by
      have hex := c97_explode L (OFF + instantOf f)
      apply fields_unique hex.1 hv
      have h1 := hex.2.1
      have h2 := hex.2.2
      rw [explode_eq] at h1 h2 ⊢
      have h4 : instantOf f % 1000 = 0 := by rw [hio, ← htg]; omega
      generalize (OFF + instantOf f - OFF) / 1000 / 1000 = k at h1 h2 ⊢
      generalize (OFF + instantOf f - OFF) / 1000 % 1000 = r at h1 h2 ⊢
      have h5 : instantOf (ofTm (L.gmtime k) r) % 1000 = 0 := by
        have := L.tg_instant (toTm (ofTm (L.gmtime k) r)) rfl
        rw [instantOf_eq, ← this]; omega
      omega
    unfold fromExploded
    rw [if_neg (by unfold I32; omega), hs, hm, Option.bind_some, hf, Option.bind_some, if_pos hsame]

/-- **C97.** Exploding a time and converting back gives the time rounded down to milliseconds, if it is
not in the first 369 years that can be represented; converting fields that are accepted and exploding gives
the fields. -/
theorem c97_round_trip (L : Lib) :
    (∀ us, I64 us → MIN + OFF + 1000 ≤ us → fromExploded L (explode L us) = some (us - us % 1000)) ∧
    (∀ f t, fromExploded L f = some t → sameFields (explode L t) f) := by
  have hA : MAX = 9223372036854775807 := rfl
  have hB : MIN = -9223372036854775808 := rfl
  constructor
  · intro us h hl
    obtain ⟨h1, h2, h3⟩ := c97_explode L us
    have h5 : instantOf (explode L us) % 1000 = 0 := by
      have := L.tg_instant (toTm (explode L us)) rfl
      rw [instantOf_eq, ← this]; omega
    have h6 := h.2
    rw [c97_from_exploded]
    unfold OFF at *
    exact ⟨h1, by omega, ⟨by omega, by omega⟩, ⟨by omega, by omega⟩⟩
  · intro f t h
    unfold fromExploded at h
    split at h
    · exact absurd h (by simp)
    · simp only [Option.bind_eq_some_iff] at h
      obtain ⟨n, _, t', _, hs⟩ := h
      split at hs
      · rename_i hsame
        simp only [Option.some.injEq] at hs
        subst hs; exact hsame
      · exact absurd hs (by simp)

/-- **C97.** The midnight of a time is the start of its day: a multiple of 24 hours from the epoch, not
after the time and less than 24 hours before it. -/
theorem c97_midnight (L : Lib) {us : Int} (h : I64 us) (hl : MIN + OFF + 86400000000 ≤ us) :
    ∃ t, midnight L us = some t ∧ 86400000000 ∣ t - OFF ∧ t ≤ us ∧ us < t + 86400000000 := by
  have hA : MAX = 9223372036854775807 := rfl
  have hB : MIN = -9223372036854775808 := rfl
  obtain ⟨h1, h2, h3⟩ := c97_explode L us
  generalize hf : explode L us = f at h1 h2 h3
  obtain ⟨a1, a2, a3, a4, a5, a6, a7, a8, a9, a10, a11, a12⟩ := h1
  have hv : FieldsValid (atMidnight f) :=
    ⟨a1, a2, a3, a4, Int.le_refl 0, show (0 : Int) < 24 by decide, Int.le_refl 0, show (0 : Int) < 60 by decide,
      Int.le_refl 0, show (0 : Int) < 60 by decide, Int.le_refl 0, show (0 : Int) < 1000 by decide⟩
  have hd : ∃ k, instantOf (atMidnight f) = k * 86400000000 ∧
      instantOf f = k * 86400000000 + ((f.hour * 3600 + f.min * 60 + f.sec) * 1000000 + f.ms * 1000) := by
    refine ⟨monthStart (f.year + (f.month - 1) / 12) ((f.month - 1) % 12).toNat + (f.mday - 1), ?_, ?_⟩
    · simp only [instantOf, atMidnight, instant]; omega
    · simp only [instantOf, instant]; omega
  obtain ⟨k, hk1, hk2⟩ := hd
  have h6 := h.2
  refine ⟨OFF + instantOf (atMidnight f), ?_, ?_, ?_, ?_⟩
  · unfold midnight
    rw [hf, c97_from_exploded]
    unfold OFF at *
    exact ⟨hv, rfl, ⟨by omega, by omega⟩, ⟨by omega, by omega⟩⟩
  · exact ⟨k, by omega⟩
  · omega
  · omega

/-- **C97, violation.** The time of an instant early in the range cannot be converted back, and asking for
its midnight ends the process: so for the least time. -/
theorem c97_early_midnight (L : Lib) : fromExploded L (explode L MIN) = none ∧ midnight L MIN = none := by
  have hA : MAX = 9223372036854775807 := rfl
  have hB : MIN = -9223372036854775808 := rfl
  obtain ⟨h1, h2, h3⟩ := c97_explode L MIN
  generalize hf : explode L MIN = f at h1 h2 h3
  have hk : instantOf (atMidnight f) ≤ instantOf f := by
    obtain ⟨a1, a2, a3, a4, a5, a6, a7, a8, a9, a10, a11, a12⟩ := h1
    simp only [instantOf, atMidnight, instant]
    omega
  constructor
  · cases he : fromExploded L f with
    | none => rfl
    | some t =>
      have := ((c97_from_exploded L f t).1 he).2.2.1.1
      unfold OFF at *
      omega
  · unfold midnight
    rw [hf]
    cases he : fromExploded L (atMidnight f) with
    | none => rfl
    | some t =>
      have := ((c97_from_exploded L _ t).1 he).2.2.1.1
      unfold OFF at *
      omega

/-- **C97.** Seconds since 1970: a `time_t` is converted to its time and survives the round trip, if
the time can be represented and is not the one taken for null; 0 is the null time and the greatest number
the greatest time. -/
theorem c97_time_t {tt : Int} (h1 : MIN < tt * 1000000) (h2 : tt * 1000000 + 2 * OFF < MAX) :
    (tt ≠ 0 → fromTimeT tt = some (OFF + tt * 1000000)) ∧
    (tt ≠ -11644473600 → (fromTimeT tt).map toTimeT = some tt) ∧
    (fromTimeT MAX).map toTimeT = some MAX ∧ fromTimeT 0 = some 0 := by
  have hA : MAX = 9223372036854775807 := rfl
  have hB : MIN = -9223372036854775808 := rfl
  have hO : OFF = 11644473600000000 := rfl
  have hn : tt ≠ 0 → fromTimeT tt = some (OFF + tt * 1000000) := by
    intro h0
    unfold fromTimeT
    rw [if_neg h0, if_neg (by omega), (c94_from tt).1]
    have hc : clamp (tt * 1000000) = tt * 1000000 := by unfold clamp; omega
    rw [hc]
    have := (c94_time (a := OFF) (b := tt * 1000000) ⟨by omega, by omega⟩ ⟨by omega, by omega⟩).2
      (by unfold isInf; omega)
    rw [this]
    congr 1
    unfold clamp; omega
  refine ⟨hn, ?_, by decide, by decide⟩
  intro h3
  by_cases h0 : tt = 0
  · subst h0; decide
  · rw [hn h0]
    simp only [Option.map_some, Option.some.injEq]
    unfold toTimeT
    rw [if_neg (by omega), if_pos (by unfold isInf; omega)]
    have := (c94_time (a := OFF + tt * 1000000) (b := OFF) ⟨by omega, by omega⟩ ⟨by omega, by omega⟩).1
      ⟨by omega, by omega⟩
    rw [this]
    unfold inSeconds
    rw [if_neg (by unfold isInf; omega)]
    have e : OFF + tt * 1000000 - OFF = tt * 1000000 := by omega
    rw [e]
    exact Int.mul_tdiv_cancel _ (by decide)

/-- **C97, violation.** The first second of 1601, a time that exists, is taken for the null time and comes
back as 1970; times in the first 369 years that can be represented come back as far in the future. -/
theorem c97_time_t_wrong : (fromTimeT (-11644473600)).map toTimeT = some 0 ∧ toTimeT (MIN + 1) = 9211727563254 := by
  decide

/-- **C97.** Seconds and microseconds: a `timeval` with some microseconds is converted to its time and
back, if it can be represented, counted from 1970 and not before; a time from 1970 on to a `timeval`
with microseconds below a million and back. -/
theorem c97_timeval {sec usec : Int} (h0 : 0 < usec) (h1 : usec < 1000000) (h2 : 0 ≤ sec)
    (h3 : sec * 1000000 + usec + OFF < MAX) :
    fromTimeVal ⟨sec, usec⟩ = some (OFF + sec * 1000000 + usec) ∧
    (fromTimeVal ⟨sec, usec⟩).map toTimeVal = some ⟨sec, usec⟩ := by
  have hA : MAX = 9223372036854775807 := rfl
  have hO : OFF = 11644473600000000 := rfl
  have hf : fromTimeVal ⟨sec, usec⟩ = some (OFF + sec * 1000000 + usec) := by
    unfold fromTimeVal
    simp only []
    rw [if_neg (by omega), if_neg (by omega), if_neg (by omega), if_neg (by omega)]
    congr 1
    unfold wrap; omega
  refine ⟨hf, ?_⟩
  rw [hf]
  simp only [Option.map_some, Option.some.injEq]
  unfold toTimeVal
  rw [if_neg (by omega), if_neg (by omega)]
  have e : wrap (OFF + sec * 1000000 + usec - OFF) = sec * 1000000 + usec := by unfold wrap; omega
  rw [e]
  have e1 := Int.tdiv_mul_add_tmod (sec * 1000000 + usec) 1000000
  have e2 := Int.tmod_nonneg (b := 1000000) (a := sec * 1000000 + usec) (by omega)
  have e3 := Int.tmod_lt_of_pos (b := 1000000) (sec * 1000000 + usec) (by decide)
  have e4 : (sec * 1000000 + usec).tdiv 1000000 = sec := by omega
  have e5 : (sec * 1000000 + usec).tmod 1000000 = usec := by omega
  rw [e4, e5]

/-- **C97, violation.** A `timeval` of whole seconds ends the process, and so does the null one that the
code below the check is for; a time before 1970 gives a `timeval` with negative microseconds. -/
theorem c97_timeval_wrong : fromTimeVal ⟨1700000000, 0⟩ = none ∧ fromTimeVal ⟨0, 0⟩ = none ∧
    toTimeVal (OFF - 1) = ⟨0, -1⟩ := by decide

/-- **C97.** `ms_to_timeval` is exact: the microseconds are below a million and the whole is the number of
milliseconds. -/
theorem c97_ms_timeval (ms : Nat) :
    (msToTimeval ms).sec * 1000000 + (msToTimeval ms).usec = ms * 1000 ∧
    0 ≤ (msToTimeval ms).usec ∧ (msToTimeval ms).usec < 1000000 := by
  have e1 := Int.tdiv_mul_add_tmod (ms : Int) 1000
  have e2 := Int.tmod_nonneg (b := 1000) (a := (ms : Int)) (by omega)
  have e3 := Int.tmod_lt_of_pos (b := 1000) (ms : Int) (by decide)
  simp only [msToTimeval]
  omega

/-- A library that meets the contract. -/
def lib : Lib where
  gmtime t := normalize ⟨0, t, 0, 0, 1, 0, 1970, 0, 0, 0⟩
  timegm e := instant e / 1000000
  gm_valid t := (c95_normalize _).1
  gm_instant t := by
    rw [(c95_normalize _).2.1]
    have : monthStart (1970 + 0 / 12) (0 % 12 : Int).toNat = 0 := by decide
    simp only [instant, this]; omega
  tg_instant e h := by simp only [instant, h]; omega

/-- The hypotheses of C97 are met: 2023-11-14 22:13:20.5, a Tuesday. -/
theorem w_c97 : explode lib (OFF + 1700000000500000) = ⟨2023, 11, 2, 14, 22, 13, 20, 500⟩ ∧
    fromExploded lib ⟨2023, 11, 0, 14, 22, 13, 20, 500⟩ = some (OFF + 1700000000500000) ∧
    fromExploded lib ⟨2023, 2, 0, 29, 22, 13, 20, 500⟩ = none ∧
    midnight lib (OFF + 1700000000500000) = some (OFF + 1699920000000000) ∧
    fromTimeT 1700000000 = some (OFF + 1700000000000000) ∧ toTimeT (OFF + 1700000000000000) = 1700000000 := by
  refine ⟨?_, ?_, ?_, ?_, ?_, ?_⟩ <;> decide +kernel

end Ltio.Time.Conv
