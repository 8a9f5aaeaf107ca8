import Mathlib.Tactic.Ring
import Mathlib.Tactic.ByContra

/-
Model of the calendar arithmetic of base/time/nspr/prtime.cc (C95): PR_NormalizeTime with
PR_GMTParameters and PR_ImplodeTime.  Numbers are unbounded: that they stay within `PRInt32` (and the
year within `PRInt16`) is not modelled.
-/
namespace Ltio.Time.Cal

/-- `PRExplodedTime` (prtime.h); the two offsets of `tm_params` are one field, their sum.  The fields
`tm_wday`, `tm_yday` are inputs of nothing. -/
structure Exploded where
  usec : Int
  sec : Int
  min : Int
  hour : Int
  mday : Int
  month : Int
  year : Int
  wday : Int
  yday : Int
  offset : Int
deriving DecidableEq

/-- `IsLeapYear` (prtime.cc:184-189). -/
def isLeap (y : Int) : Bool := (y.tmod 4 = 0 && y.tmod 100 ≠ 0) || y.tmod 400 = 0

/-- `nDays[0]` (prtime.cc:123-125). -/
def nDays0 : List Int := [31, 28, 31, 30, 31, 30, 31, 31, 30, 31, 30, 31]
/-- `nDays[1]`. -/
def nDays1 : List Int := [31, 29, 31, 30, 31, 30, 31, 31, 30, 31, 30, 31]
/-- `lastDayOfMonth[0]` (prtime.cc:115-117). -/
def lastDay0 : List Int := [-1, 30, 58, 89, 119, 150, 180, 211, 242, 272, 303, 333, 364]
/-- `lastDayOfMonth[1]`. -/
def lastDay1 : List Int := [-1, 30, 59, 90, 120, 151, 181, 212, 243, 273, 304, 334, 365]

/-- `nDays[IsLeapYear(y)][m]`. -/
def nDays (y m : Int) : Int := (if isLeap y then nDays1 else nDays0).getD m.toNat 0
/-- `lastDayOfMonth[IsLeapYear(y)][m]`. -/
def lastDay (y m : Int) : Int := (if isLeap y then lastDay1 else lastDay0).getD m.toNat 0

/-- `COUNT_DAYS` (prtime.cc:96-97). -/
def countDays (y : Int) : Int :=
  (y - 1) * 365 + ((y - 1).tdiv 4 - (y - 1).tdiv 100 + (y - 1).tdiv 400)

/-- The carry of one field into the next (prtime.cc:266-301, each `if`): the next field and the field
in its range. -/
def carry (next field n : Int) : Int × Int :=
  if field < 0 ∨ field ≥ n then
    (if field.tmod n < 0 then (next + field.tdiv n - 1, field.tmod n + n)
     else (next + field.tdiv n, field.tmod n))
  else (next, field)

/-- The month before (prtime.cc:319-323). -/
def prevMonth (y m : Int) : Int × Int := if m - 1 < 0 then (y - 1, 11) else (y, m - 1)
/-- The month after (prtime.cc:331-335). -/
def nextMonth (y m : Int) : Int × Int := if m + 1 > 11 then (y + 1, 0) else (y, m + 1)

/-- The loop for a day of month that is too small (prtime.cc:316-325), at most `fuel` rounds. -/
def down : Nat → Int × Int × Int → Int × Int × Int
  | 0, s => s
  | n + 1, (y, m, d) =>
    if d < 1 then
      down n ((prevMonth y m).1, (prevMonth y m).2,
        d + nDays (prevMonth y m).1 (prevMonth y m).2)
    else (y, m, d)

/-- The loop for a day of month that is too large (prtime.cc:327-338), at most `fuel` rounds. -/
def up : Nat → Int × Int × Int → Int × Int × Int
  | 0, s => s
  | n + 1, (y, m, d) =>
    if d > nDays y m then up n ((nextMonth y m).1, (nextMonth y m).2, d - nDays y m)
    else (y, m, d)

/-- Normalization of year, month and day of month (prtime.cc:313-339). -/
def normDate (y m d : Int) : Int × Int × Int :=
  if d < 1 then down d.natAbs.succ (y, m, d) else up d.natAbs (y, m, d)

/-- The week day (prtime.cc:347-350). -/
def weekday (n : Int) : Int := if (n + 4).tmod 7 < 0 then (n + 4).tmod 7 + 7 else (n + 4).tmod 7

/-- The fields that `PR_NormalizeTime` computes from the date. -/
def withDate (usec sec min hour : Int) (d : Int × Int × Int) : Exploded :=
  ⟨usec, sec, min, hour, d.2.2, d.2.1, d.1,
   weekday (countDays d.1 - countDays 1970 + (d.2.2 + lastDay d.1 d.2.1)),
   d.2.2 + lastDay d.1 d.2.1, 0⟩

/-- The carries up to the day of month, then the date (prtime.cc:256-350). -/
def normalize (e : Exploded) : Exploded :=
  let c1 := carry (e.sec - e.offset) e.usec 1000000
  let c2 := carry e.min c1.1 60
  let c3 := carry e.hour c2.1 60
  let c4 := carry e.mday c3.1 24
  let c5 := carry e.year e.month 12
  withDate c1.2 c2.2 c3.2 c4.2 (normDate c5.1 c5.2 c4.1)

/-- `PR_ImplodeTime` (prtime.cc:137-173). -/
def implode (e : Exploded) : Int :=
  let c := normalize e
  ((countDays c.year - countDays 1970) * 86400 +
    (c.yday * 86400 + c.hour * 3600 + c.min * 60 + c.sec) - c.offset) * 1000000 + c.usec

/-! ### Specification: the Gregorian calendar -/

/-- Gregorian leap years. -/
def Leap (y : Int) : Prop := (y % 4 = 0 ∧ y % 100 ≠ 0) ∨ y % 400 = 0

instance (y : Int) : Decidable (Leap y) := by unfold Leap; infer_instance

/-- Days of a year. -/
def yearLen (y : Int) : Int := if Leap y then 366 else 365

/-- Days of a month, 0 = January. -/
def monthLen (y : Int) (m : Nat) : Int :=
  match m with
  | 1 => if Leap y then 29 else 28
  | 3 => 30 | 5 => 30 | 8 => 30 | 10 => 30
  | _ => 31

/-- Sum of `f 0 .. f (n-1)`. -/
def sumTo (f : Nat → Int) : Nat → Int
  | 0 => 0
  | n + 1 => sumTo f n + f n

/-- Days from 1 January 1970 to 1 January of a year. -/
def yearStart (y : Int) : Int :=
  if 1970 ≤ y then sumTo (fun k => yearLen (1970 + k)) (y - 1970).toNat
  else -sumTo (fun k => yearLen (1969 - k)) (1970 - y).toNat

/-- Days from 1 January 1970 to the first of month `m` (0 = January) of year `y`. -/
def monthStart (y : Int) (m : Nat) : Int := yearStart y + sumTo (monthLen y) m

/-- Microseconds from 1 January 1970, 00:00:00, to an exploded time: months beyond a year count on in
other years, days of month count from the first, and the offset is subtracted. -/
def instant (e : Exploded) : Int :=
  (((monthStart (e.year + e.month / 12) (e.month % 12).toNat + (e.mday - 1)) * 24 + e.hour) * 3600 +
    e.min * 60 + e.sec - e.offset) * 1000000 + e.usec

/-- All fields in their ranges: a time of a day that exists. -/
structure Valid (e : Exploded) : Prop where
  usec : 0 ≤ e.usec ∧ e.usec < 1000000
  sec : 0 ≤ e.sec ∧ e.sec < 60
  min : 0 ≤ e.min ∧ e.min < 60
  hour : 0 ≤ e.hour ∧ e.hour < 24
  month : 0 ≤ e.month ∧ e.month < 12
  mday : 1 ≤ e.mday ∧ e.mday ≤ monthLen e.year e.month.toNat
  offset : e.offset = 0

/-! ### Carries and the calendar -/

theorem carry_eq (next field : Int) {n : Int} (hn : 0 < n) :
    carry next field n = (next + field / n, field % n) := by
  have hs := Int.tdiv_mul_add_tmod field n
  have he := Int.ediv_mul_add_emod field n
  have h1 := Int.emod_nonneg field (b := n) (by omega)
  have h2 := Int.emod_lt_of_pos field hn
  unfold carry
  by_cases hr : field < 0 ∨ field ≥ n
  · rw [if_pos hr]
    by_cases hf : 0 ≤ field
    · rw [Int.tmod_eq_emod_of_nonneg hf, Int.tdiv_eq_ediv_of_nonneg hf, if_neg (by omega)]
    · have ha := Int.natAbs_tmod field n
      have hl := Nat.mod_lt field.natAbs (y := n.natAbs) (by omega)
      have hneg := Int.tmod_nonneg n (a := -field) (by omega)
      rw [Int.neg_tmod] at hneg
      generalize htd : field.tdiv n = q at *
      generalize htm : field.tmod n = r at *
      generalize hed : field / n = q' at *
      generalize hem : field % n = r' at *
      have hq : (q' - q) * n = r - r' := by
        have : (q' - q) * n = q' * n - q * n := by ring
        omega
      by_cases hz : r = 0
      · rw [if_neg (by omega)]
        have : q' - q = 0 := by
          by_contra hne
          have h4 : n.natAbs ≤ ((q' - q) * n).natAbs := by
            rw [Int.natAbs_mul]; exact Nat.le_mul_of_pos_left _ (by omega)
          omega
        rw [this] at hq
        ext <;> simp only [] <;> omega
      · rw [if_pos (by omega)]
        have h5 : (q' - q + 1) * n = r - r' + n := by
          have : (q' - q + 1) * n = (q' - q) * n + n := by ring
          omega
        have : q' - q + 1 = 0 := by
          by_contra hne
          have h4 : n.natAbs ≤ ((q' - q + 1) * n).natAbs := by
            rw [Int.natAbs_mul]; exact Nat.le_mul_of_pos_left _ (by omega)
          omega
        rw [this] at h5
        ext <;> simp only [] <;> omega
  · rw [if_neg hr]
    have h3 : field / n = 0 := Int.ediv_eq_zero_of_lt (by omega) (by omega)
    rw [h3] at he ⊢
    ext <;> simp only [] <;> omega

theorem isLeap_iff (y : Int) : isLeap y = true ↔ Leap y := by
  have e : ∀ n : Int, n ≠ 0 → (y.tmod n = 0 ↔ y % n = 0) := by
    intro n _
    rw [← Int.dvd_iff_tmod_eq_zero, ← Int.dvd_iff_emod_eq_zero]
  simp only [isLeap, Leap, Bool.or_eq_true, Bool.and_eq_true, decide_eq_true_eq, ne_eq,
    e 4 (by decide), e 100 (by decide), e 400 (by decide)]

theorem month_cases {m : Int} (h0 : 0 ≤ m) (h1 : m < 12) : m = 0 ∨ m = 1 ∨ m = 2 ∨ m = 3 ∨ m = 4 ∨
    m = 5 ∨ m = 6 ∨ m = 7 ∨ m = 8 ∨ m = 9 ∨ m = 10 ∨ m = 11 := by omega

theorem nDays_eq (y : Int) {m : Int} (h0 : 0 ≤ m) (h1 : m < 12) : nDays y m = monthLen y m.toNat := by
  have hl := isLeap_iff y
  by_cases h : Leap y
  · have hb := hl.2 h
    rcases month_cases h0 h1 with rfl|rfl|rfl|rfl|rfl|rfl|rfl|rfl|rfl|rfl|rfl|rfl <;>
      simp [nDays, monthLen, hb, h, nDays1]
  · have hb : isLeap y = false := by rw [Bool.eq_false_iff]; exact fun c => h (hl.1 c)
    rcases month_cases h0 h1 with rfl|rfl|rfl|rfl|rfl|rfl|rfl|rfl|rfl|rfl|rfl|rfl <;>
      simp [nDays, monthLen, hb, h, nDays0]

theorem lastDay_eq (y : Int) {m : Int} (h0 : 0 ≤ m) (h1 : m < 12) :
    lastDay y m = sumTo (monthLen y) m.toNat - 1 := by
  have hl := isLeap_iff y
  by_cases h : Leap y
  · have hb := hl.2 h
    rcases month_cases h0 h1 with rfl|rfl|rfl|rfl|rfl|rfl|rfl|rfl|rfl|rfl|rfl|rfl <;>
      simp [lastDay, monthLen, hb, h, lastDay1, sumTo]
  · have hb : isLeap y = false := by rw [Bool.eq_false_iff]; exact fun c => h (hl.1 c)
    rcases month_cases h0 h1 with rfl|rfl|rfl|rfl|rfl|rfl|rfl|rfl|rfl|rfl|rfl|rfl <;>
      simp [lastDay, monthLen, hb, h, lastDay0, sumTo]

theorem yearLen_sum (y : Int) : sumTo (monthLen y) 12 = yearLen y := by
  by_cases h : Leap y <;> simp [sumTo, monthLen, yearLen, h]

theorem monthLen_pos (y : Int) (m : Nat) : 28 ≤ monthLen y m ∧ monthLen y m ≤ 31 := by
  unfold monthLen
  split <;> (try split) <;> omega

theorem yearStart_succ (y : Int) : yearStart (y + 1) = yearStart y + yearLen y := by
  unfold yearStart
  by_cases h1 : 1970 ≤ y
  · rw [if_pos h1, if_pos (by omega)]
    have e : (y + 1 - 1970).toNat = (y - 1970).toNat + 1 := by omega
    rw [e, sumTo]
    congr 2
    omega
  · by_cases h2 : y = 1969
    · subst h2; decide
    · rw [if_neg h1, if_neg (by omega)]
      have e : (1970 - y).toNat = (1970 - (y + 1)).toNat + 1 := by omega
      rw [e, sumTo]
      have : (1969 - ((1970 - (y + 1)).toNat : Int)) = y := by omega
      rw [this]; omega

theorem countDays_succ {y : Int} (h : 1 ≤ y) : countDays (y + 1) = countDays y + yearLen y := by
  have e : y + 1 - 1 = y := by omega
  unfold countDays yearLen
  rw [e]
  simp only [Int.tdiv_eq_ediv_of_nonneg (a := y) (by omega), Int.tdiv_eq_ediv_of_nonneg (a := y - 1) (by omega)]
  by_cases hl : Leap y
  · rw [if_pos hl]; unfold Leap at hl; omega
  · rw [if_neg hl]; unfold Leap at hl; omega

theorem countDays_up (n : Nat) : countDays (1970 + n) - countDays 1970 = yearStart (1970 + n) := by
  induction n with
  | zero => decide
  | succ n ih =>
    have e : (1970 : Int) + (n + 1 : Nat) = 1970 + n + 1 := by omega
    rw [e, countDays_succ (by omega), yearStart_succ]; omega

theorem countDays_down (n : Nat) (h : n < 1970) :
    countDays (1970 - n) - countDays 1970 = yearStart (1970 - n) := by
  induction n with
  | zero => decide
  | succ n ih =>
    have ih := ih (by omega)
    have e : (1970 : Int) - n = 1970 - (n + 1 : Nat) + 1 := by omega
    rw [e, countDays_succ (by omega), yearStart_succ] at ih; omega

/-- The day count of the code is that of the calendar, from year 1 on. -/
theorem countDays_eq {y : Int} (h : 1 ≤ y) : countDays y - countDays 1970 = yearStart y := by
  by_cases h1 : 1970 ≤ y
  · have := countDays_up (y - 1970).toNat
    have e : (1970 : Int) + ((y - 1970).toNat : Int) = y := by omega
    rwa [e] at this
  · have := countDays_down (1970 - y).toNat (by omega)
    have e : (1970 : Int) - ((1970 - y).toNat : Int) = y := by omega
    rwa [e] at this

/-- The day of a date. -/
def dayOf (s : Int × Int × Int) : Int := monthStart s.1 s.2.1.toNat + (s.2.2 - 1)

theorem next_start {y m : Int} (h0 : 0 ≤ m) (h1 : m < 12) :
    monthStart (nextMonth y m).1 (nextMonth y m).2.toNat = monthStart y m.toNat + nDays y m ∧
    0 ≤ (nextMonth y m).2 ∧ (nextMonth y m).2 < 12 := by
  rw [nDays_eq y h0 h1]
  unfold nextMonth
  by_cases h : m + 1 > 11
  · have hm : m = 11 := by omega
    subst hm
    rw [if_pos h]
    refine ⟨?_, Int.le_refl 0, by simp only []; omega⟩
    simp only [monthStart, Int.toNat_zero, sumTo, yearStart_succ]
    have := yearLen_sum y
    have e : (11 : Int).toNat = 11 := rfl
    rw [e]
    simp only [sumTo] at this ⊢
    omega
  · rw [if_neg h]
    refine ⟨?_, by simp only []; omega, by simp only []; omega⟩
    have e : (m + 1).toNat = m.toNat + 1 := by omega
    simp only [monthStart, e, sumTo]; omega

theorem prev_start {y m : Int} (h0 : 0 ≤ m) (h1 : m < 12) :
    monthStart (prevMonth y m).1 (prevMonth y m).2.toNat + nDays (prevMonth y m).1 (prevMonth y m).2
      = monthStart y m.toNat ∧ 0 ≤ (prevMonth y m).2 ∧ (prevMonth y m).2 < 12 := by
  have hr : 0 ≤ (prevMonth y m).2 ∧ (prevMonth y m).2 < 12 := by
    unfold prevMonth; split <;> simp only [] <;> omega
  have hn := next_start (y := (prevMonth y m).1) hr.1 hr.2
  have e : nextMonth (prevMonth y m).1 (prevMonth y m).2 = (y, m) := by
    unfold prevMonth nextMonth
    split
    · simp only []; ext <;> simp; omega
    · simp only []; rw [if_neg (by omega)]; ext <;> simp
  rw [e] at hn
  exact ⟨hn.1.symm, hr⟩

theorem nDays_bounds (y : Int) {m : Int} (h0 : 0 ≤ m) (h1 : m < 12) : 28 ≤ nDays y m ∧ nDays y m ≤ 31 := by
  rw [nDays_eq y h0 h1]; exact monthLen_pos _ _

theorem down_spec : ∀ (n : Nat) (y m d : Int), 0 ≤ m → m < 12 → d ≤ 31 → (d ≤ nDays y m ∨ d < 1) → 1 - d ≤ 28 * n →
    dayOf (down n (y, m, d)) = dayOf (y, m, d) ∧ 0 ≤ (down n (y, m, d)).2.1 ∧
    (down n (y, m, d)).2.1 < 12 ∧ 1 ≤ (down n (y, m, d)).2.2 ∧
    (down n (y, m, d)).2.2 ≤ nDays (down n (y, m, d)).1 (down n (y, m, d)).2.1 := by
  intro n
  induction n with
  | zero => intro y m d h0 h1 h2 h3 h4; simp only [down]; refine ⟨trivial, h0, h1, by omega, by omega⟩
  | succ n ih =>
    intro y m d h0 h1 h2 h3 h4
    simp only [down]
    by_cases hd : d < 1
    · rw [if_pos hd]
      obtain ⟨p1, p2, p3⟩ := prev_start (y := y) h0 h1
      have hb := nDays_bounds (prevMonth y m).1 p2 p3
      obtain ⟨i1, i2⟩ := ih (prevMonth y m).1 (prevMonth y m).2
        (d + nDays (prevMonth y m).1 (prevMonth y m).2) p2 p3 (by omega) (by omega) (by omega)
      refine ⟨?_, i2⟩
      rw [i1]
      simp only [dayOf]; omega
    · rw [if_neg hd]
      exact ⟨rfl, h0, h1, by simp only []; omega, by simp only []; omega⟩

theorem up_spec : ∀ (n : Nat) (y m d : Int), 0 ≤ m → m < 12 → 1 ≤ d → d ≤ 28 + 28 * n →
    dayOf (up n (y, m, d)) = dayOf (y, m, d) ∧ 0 ≤ (up n (y, m, d)).2.1 ∧
    (up n (y, m, d)).2.1 < 12 ∧ 1 ≤ (up n (y, m, d)).2.2 ∧
    (up n (y, m, d)).2.2 ≤ nDays (up n (y, m, d)).1 (up n (y, m, d)).2.1 := by
  intro n
  induction n with
  | zero =>
    intro y m d h0 h1 h2 h3
    have hb := nDays_bounds y h0 h1
    simp only [up]; refine ⟨trivial, h0, h1, by omega, by omega⟩
  | succ n ih =>
    intro y m d h0 h1 h2 h3
    simp only [up]
    have hb := nDays_bounds y h0 h1
    by_cases hd : d > nDays y m
    · rw [if_pos hd]
      obtain ⟨p1, p2, p3⟩ := next_start (y := y) h0 h1
      obtain ⟨i1, i2⟩ := ih (nextMonth y m).1 (nextMonth y m).2 (d - nDays y m) p2 p3 (by omega) (by omega)
      refine ⟨?_, i2⟩
      rw [i1]
      simp only [dayOf]; omega
    · rw [if_neg hd]
      exact ⟨rfl, h0, h1, h2, by simp only []; omega⟩

theorem normDate_spec (y m d : Int) (h0 : 0 ≤ m) (h1 : m < 12) :
    dayOf (normDate y m d) = dayOf (y, m, d) ∧ 0 ≤ (normDate y m d).2.1 ∧
    (normDate y m d).2.1 < 12 ∧ 1 ≤ (normDate y m d).2.2 ∧
    (normDate y m d).2.2 ≤ nDays (normDate y m d).1 (normDate y m d).2.1 := by
  unfold normDate
  split
  · exact down_spec _ y m d h0 h1 (by omega) (Or.inr (by omega)) (by omega)
  · exact up_spec _ y m d h0 h1 (by omega) (by omega)

theorem weekday_eq (n : Int) : weekday n = (n + 4) % 7 := by
  have := carry_eq 0 (n + 4) (n := 7) (by decide)
  unfold carry at this
  unfold weekday
  have ha := Int.natAbs_tmod (n + 4) 7
  have hd := Int.tdiv_mul_add_tmod (n + 4) 7
  split <;> split at this
  · simp only [Prod.mk.injEq] at this; omega
  · have := Int.tmod_nonneg 7 (a := n + 4) (by omega)
    omega
  · simp only [Prod.mk.injEq] at this; omega
  · rw [Int.tmod_eq_emod_of_nonneg (by omega)]

/-! ### Theorems -/

/-- **C95.** Normalizing gives a valid date and time of day, of the same instant, and the right day of
the year, whatever the fields. -/
theorem c95_normalize (e : Exploded) :
    Valid (normalize e) ∧ instant (normalize e) = instant e ∧
    (normalize e).yday = sumTo (monthLen (normalize e).year) (normalize e).month.toNat
      + (normalize e).mday - 1 ∧
    (1 ≤ (normalize e).year → (normalize e).wday = (instant e / 86400000000 + 4) % 7) := by
  have k1 := carry_eq (e.sec - e.offset) e.usec (n := 1000000) (by decide)
  have k2 := carry_eq e.min (e.sec - e.offset + e.usec / 1000000) (n := 60) (by decide)
  have k3 := carry_eq e.hour (e.min + (e.sec - e.offset + e.usec / 1000000) / 60) (n := 60) (by decide)
  have k4 := carry_eq e.mday (e.hour + (e.min + (e.sec - e.offset + e.usec / 1000000) / 60) / 60)
    (n := 24) (by decide)
  have k5 := carry_eq e.year e.month (n := 12) (by decide)
  simp only [normalize, k1, k2, k3, k4, k5, withDate]
  generalize hD : e.mday + (e.hour + (e.min + (e.sec - e.offset + e.usec / 1000000) / 60) / 60) / 24 = D
  obtain ⟨n1, n2, n3, n4, n5⟩ := normDate_spec (e.year + e.month / 12) (e.month % 12) D
    (by omega) (by omega)
  generalize normDate (e.year + e.month / 12) (e.month % 12) D = t at *
  obtain ⟨y, m, d⟩ := t
  simp only [dayOf] at n1 n2 n3 n4 n5 ⊢
  have hl := lastDay_eq y n2 n3
  have hms : monthStart y m.toNat = yearStart y + sumTo (monthLen y) m.toNat := rfl
  have h12 : y + m / 12 = y := by omega
  have h12' : m % 12 = m := by omega
  have hinst : instant ⟨e.usec % 1000000, (e.sec - e.offset + e.usec / 1000000) % 60,
      (e.min + (e.sec - e.offset + e.usec / 1000000) / 60) % 60,
      (e.hour + (e.min + (e.sec - e.offset + e.usec / 1000000) / 60) / 60) % 24, d, m, y,
      weekday (countDays y - countDays 1970 + (d + lastDay y m)), d + lastDay y m, 0⟩ = instant e := by
    simp only [instant, h12, h12']
    generalize monthStart y m.toNat = A at *
    generalize monthStart (e.year + e.month / 12) (e.month % 12).toNat = B at *
    omega
  refine ⟨⟨by simp only []; omega, by simp only []; omega, by simp only []; omega,
    by simp only []; omega, ⟨n2, n3⟩, ⟨n4, by rw [← nDays_eq y n2 n3]; exact n5⟩, rfl⟩, hinst, by omega, ?_⟩
  intro hy
  have hc := countDays_eq hy
  rw [weekday_eq, ← hinst]
  simp only [instant, h12, h12']
  rw [hms]
  generalize sumTo (monthLen y) m.toNat = S at *
  omega

theorem implode_year (e : Exploded) (hy : 1 ≤ (normalize e).year) : implode e = instant e := by
  obtain ⟨hv, hi, hyd, _⟩ := c95_normalize e
  rw [← hi]
  simp only [implode, instant]
  have h12 : (normalize e).year + (normalize e).month / 12 = (normalize e).year := by
    have := hv.month; omega
  have h12' : (normalize e).month % 12 = (normalize e).month := by have := hv.month; omega
  rw [h12, h12', countDays_eq hy, hyd, hv.offset]
  have hms : monthStart (normalize e).year (normalize e).month.toNat
    = yearStart (normalize e).year + sumTo (monthLen (normalize e).year) (normalize e).month.toNat := rfl
  rw [hms]
  omega

theorem yearStart_mono {a b : Int} (h : a ≤ b) : yearStart a + 365 * (b - a) ≤ yearStart b := by
  obtain ⟨n, rfl⟩ := Int.le.dest h
  clear h
  induction n with
  | zero => simp
  | succ n ih =>
    have e : a + (n + 1 : Nat) = a + n + 1 := by omega
    have hl : 365 ≤ yearLen (a + n) := by unfold yearLen; split <;> omega
    rw [e, yearStart_succ]; omega

theorem monthSum_mono (y : Int) {a b : Nat} (h : a < b) :
    sumTo (monthLen y) a + monthLen y a ≤ sumTo (monthLen y) b := by
  obtain ⟨n, rfl⟩ := Nat.exists_eq_add_of_lt h
  clear h
  induction n with
  | zero => simp [sumTo]
  | succ n ih =>
    have e : a + (n + 1) + 1 = (a + n + 1) + 1 := by omega
    have hl := monthLen_pos y (a + n + 1)
    rw [e, sumTo]; omega

/-- A date of a year is between its first and its last day. -/
theorem dayOf_year {y m d : Int} (h0 : 0 ≤ m) (h1 : m < 12) (h2 : 1 ≤ d)
    (h3 : d ≤ monthLen y m.toNat) : yearStart y ≤ dayOf (y, m, d) ∧ dayOf (y, m, d) < yearStart (y + 1) := by
  have hs : sumTo (monthLen y) m.toNat + monthLen y m.toNat ≤ sumTo (monthLen y) 12 :=
    monthSum_mono y (by omega)
  have hp : 0 ≤ sumTo (monthLen y) m.toNat := by
    by_cases hz : m.toNat = 0
    · rw [hz]; exact Int.le_refl 0
    · have := monthSum_mono y (a := 0) (b := m.toNat) (by omega)
      have := monthLen_pos y 0
      simp only [sumTo] at *; omega
  rw [yearLen_sum] at hs
  rw [yearStart_succ]
  simp only [dayOf, monthStart]; omega

/-- Days of valid dates are different for different dates. -/
theorem dayOf_inj {y m d y' m' d' : Int} (h0 : 0 ≤ m) (h1 : m < 12) (h2 : 1 ≤ d)
    (h3 : d ≤ monthLen y m.toNat) (g0 : 0 ≤ m') (g1 : m' < 12) (g2 : 1 ≤ d')
    (g3 : d' ≤ monthLen y' m'.toNat) (he : dayOf (y, m, d) = dayOf (y', m', d')) :
    y = y' ∧ m = m' ∧ d = d' := by
  have a := dayOf_year h0 h1 h2 h3
  have b := dayOf_year g0 g1 g2 g3
  have hy : y = y' := by
    rcases Int.lt_trichotomy y y' with h | h | h
    · have := yearStart_mono (a := y + 1) (b := y') (by omega); omega
    · exact h
    · have := yearStart_mono (a := y' + 1) (b := y) (by omega); omega
  subst hy
  simp only [dayOf, monthStart] at he
  have hm : m.toNat = m'.toNat := by
    rcases Nat.lt_trichotomy m.toNat m'.toNat with h | h | h
    · have := monthSum_mono y h; omega
    · exact h
    · have := monthSum_mono y h; omega
  rw [hm] at he
  omega

/-- **C95.** Two valid exploded times of the same instant have the same fields: the calendar date and
time of day of an instant are unique, so normalizing is exact. -/
theorem c95_unique {e f : Exploded} (he : Valid e) (hf : Valid f) (h : instant e = instant f) :
    e.year = f.year ∧ e.month = f.month ∧ e.mday = f.mday ∧ e.hour = f.hour ∧ e.min = f.min ∧
    e.sec = f.sec ∧ e.usec = f.usec := by
  have e12 : e.year + e.month / 12 = e.year ∧ e.month % 12 = e.month := by have := he.month; omega
  have f12 : f.year + f.month / 12 = f.year ∧ f.month % 12 = f.month := by have := hf.month; omega
  have a1 := he.usec; have a2 := he.sec; have a3 := he.min; have a4 := he.hour; have a5 := he.offset
  have b1 := hf.usec; have b2 := hf.sec; have b3 := hf.min; have b4 := hf.hour; have b5 := hf.offset
  simp only [instant, e12.1, e12.2, f12.1, f12.2] at h
  have hd : dayOf (e.year, e.month, e.mday) = dayOf (f.year, f.month, f.mday) := by
    simp only [dayOf]
    generalize monthStart e.year e.month.toNat = A at *
    generalize monthStart f.year f.month.toNat = B at *
    omega
  obtain ⟨c1, c2, c3⟩ := dayOf_inj he.month.1 he.month.2 he.mday.1 he.mday.2 hf.month.1 hf.month.2
    hf.mday.1 hf.mday.2 hd
  rw [c1, c2, c3] at h
  generalize monthStart f.year f.month.toNat = B at *
  refine ⟨c1, c2, c3, ?_, ?_, ?_, ?_⟩ <;> omega

theorem valid_instant {e : Exploded} (h : Valid e) :
    yearStart e.year * 86400000000 ≤ instant e ∧ instant e < yearStart (e.year + 1) * 86400000000 := by
  have hd := dayOf_year h.month.1 h.month.2 h.mday.1 h.mday.2
  have e12 : e.year + e.month / 12 = e.year ∧ e.month % 12 = e.month := by have := h.month; omega
  have a1 := h.usec; have a2 := h.sec; have a3 := h.min; have a4 := h.hour; have a5 := h.offset
  simp only [instant, e12.1, e12.2]
  simp only [dayOf] at hd
  omega

/-- 1 January of year 1. -/
def yearOne : Exploded := ⟨0, 0, 0, 0, 1, 0, 1, 0, 0, 0⟩

/-- A time is in year 1 or later, as normalized, if it is not before the first of January of year 1. -/
theorem year_iff (e : Exploded) : 1 ≤ (normalize e).year ↔ instant yearOne ≤ instant e := by
  obtain ⟨hv, hi, _⟩ := c95_normalize e
  have hb := valid_instant hv
  have h1 : instant yearOne = yearStart 1 * 86400000000 := by decide +kernel
  rw [h1, ← hi]
  constructor
  · intro h
    have := yearStart_mono h
    omega
  · intro h
    by_contra hn
    have := yearStart_mono (a := (normalize e).year + 1) (b := 1) (by omega)
    omega

/-- **C95.** `PR_ImplodeTime` is the instant of the exploded time in the Gregorian calendar, whatever
its fields, if that is not before the first of January of year 1. -/
theorem c95_implode (e : Exploded) (h : instant yearOne ≤ instant e) : implode e = instant e :=
  implode_year e ((year_iff e).2 h)

/-- **C95, violation.** In year 0, a leap year of the calendar, dates are a day late: the first of
January is imploded to the day after the one before the first of January of year 1 minus 366 days. -/
theorem c95_year_zero : implode ⟨0, 0, 0, 0, 1, 0, 0, 0, 0, 0⟩ = instant ⟨0, 0, 0, 0, 1, 0, 0, 0, 0, 0⟩ + 86400000000 := by
  decide +kernel

/-- The hypotheses of C95 are met: a time with fields out of range, its normal form and its instant. -/
theorem w_c95 : normalize ⟨-1, 61, -1, 24, 0, 14, 1999, 0, 0, 3600⟩ =
      ⟨999999, 0, 0, 23, 29, 1, 2000, 2, 59, 0⟩ ∧
    implode ⟨-1, 61, -1, 24, 0, 14, 1999, 0, 0, 3600⟩ = 951865200999999 := by
  decide +kernel

end Ltio.Time.Cal
