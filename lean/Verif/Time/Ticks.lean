import Verif.Time.Convert
/-
Reading the clocks: base/time/time_ticks.cc (`TimeTicks::Now`, `UnixEpoch`), time.cc (`Time::Now`), time_utils.cc (`time_us`,
`time_ms`, `delta_us`, `delta_ms`) and timestamp.cc.  `clock_gettime` and `gettimeofday` by contract: they give a `timespec`
(`timeval`) with a fraction below one second, and the monotonic clock does not go back.  A machine with 64-bit `time_t`.
-/
namespace Ltio.Time.Ticks

open Ltio.Time.Conv (OFF TimeVal)

/-- A reading of `clock_gettime`. -/
def Valid (t : TimeSpec) : Prop := 0 ≤ t.sec ∧ 0 ≤ t.nsec ∧ t.nsec < 1000000000

/-- A reading of `gettimeofday`. -/
def ValidTV (t : TimeVal) : Prop := 0 ≤ t.sec ∧ 0 ≤ t.usec ∧ t.usec < 1000000

/-- The nanoseconds a reading stands for. -/
def nanos (t : TimeSpec) : Int := t.sec * 1000000000 + t.nsec

/-- `ConvertTimespecToMicros` (time_ticks.cc:10-23); `none` if `ValueOrDie` ends the process. -/
def toMicros (t : TimeSpec) : Option Int :=
  (checked (t.sec * 1000000)).bind (fun a => checked (a + t.nsec.tdiv 1000))

/-- `TimeTicks::Now` (time_ticks.cc:28-33). -/
def ticksNow (t : TimeSpec) : Option Int := (toMicros t).bind (fun d => add 0 d)

/-- `Time::Now` (time.cc:17-28, 52-54). -/
def timeNow (t : TimeVal) : Option Int := add 0 (wrap (wrap (wrap (t.sec * 1000000) + t.usec) + OFF))

/-- `TimeTicks::UnixEpoch` (time_ticks.cc:46-50): `Time::Now() - Time::UnixEpoch()` taken from `TimeTicks::Now()`. -/
def unixEpoch (m : TimeSpec) (w : TimeVal) : Option Int :=
  (ticksNow m).bind (fun a => (timeNow w).bind (fun b => sub a (timeSub b OFF)))

/-- `monotonic_nano_sec` (time_utils.cc:23-28). -/
def nanoSec (t : TimeSpec) : Int := wrap (wrap (1000000000 * t.sec) + t.nsec)

/-- `time_us` (time_utils.cc:32-34). -/
def timeUs (t : TimeSpec) : Int := (nanoSec t).tdiv 1000

/-- `time_ms` (time_utils.cc:37-39). -/
def timeMs (t : TimeSpec) : Int := (nanoSec t).tdiv 1000000

/-- `delta_ms` (time_utils.cc:41-43). -/
def deltaMs (t : TimeSpec) (before : Int) : Int := wrap (timeMs t - before)

/-- `delta_us` (time_utils.cc:45-47). -/
def deltaUs (t : TimeSpec) (before : Int) : Int := wrap (timeUs t - before)

/-- `Timestamp::Timestamp(timeval)` and `Timestamp(sec, us)` (timestamp.cc:24-30). -/
def stamp (t : TimeVal) : Int := wrap (wrap (t.sec * 1000000) + t.usec)

/-- `NSecondLater` (timestamp.cc:43-48), given what the clock says. -/
def secLater (t : TimeVal) (n : Int) : Int := stamp ⟨wrap (t.sec + n), t.usec⟩

/-- `NMicrosecondLater` (timestamp.cc:51-56). -/
def usLater (t : TimeVal) (n : Int) : Int := stamp ⟨t.sec, wrap (t.usec + n)⟩

/-- `NMillisecondLater` (timestamp.cc:59-61). -/
def msLater (t : TimeVal) (n : Int) : Int := usLater t (wrap (n * 1000))

/-- `AsMillsecond` (timestamp.cc:67-69). -/
def asMs (s : Int) : Int := s.tdiv 1000

/-! ### Lemmas -/

theorem wrap_id {x : Int} (h : I64 x) : wrap x = x := by
  obtain ⟨h1, h2⟩ := h
  unfold wrap
  unfold MIN at h1
  unfold MAX at h2
  omega

theorem checked_id {x : Int} (h : I64 x) : checked x = some x := by
  unfold checked
  exact if_pos h

theorem add_zero {d : Int} (h : I64 d) : add 0 d = some d := by
  unfold add
  split
  · unfold clampAdd
    rw [Int.zero_add, checked_id h]
    rfl
  · rw [if_pos]
    left
    unfold isInf MIN MAX
    omega

/-- About a quarter of a million years. -/
abbrev SEC : Int := 9000000000000

theorem toMicros_eq {t : TimeSpec} (h : Valid t) (hs : t.sec < SEC) : toMicros t = some (t.sec * 1000000 + t.nsec / 1000) := by
  obtain ⟨h1, h2, h3⟩ := h
  unfold toMicros
  rw [checked_id (by unfold I64 MIN MAX; unfold SEC at hs; omega)]
  show checked _ = _
  rw [Int.tdiv_eq_ediv_of_nonneg h2]
  exact checked_id (by unfold I64 MIN MAX; unfold SEC at hs; omega)

theorem ticksNow_eq {t : TimeSpec} (h : Valid t) (hs : t.sec < SEC) : ticksNow t = some (t.sec * 1000000 + t.nsec / 1000) := by
  unfold ticksNow
  rw [toMicros_eq h hs]
  obtain ⟨h1, h2, h3⟩ := h
  exact add_zero (by unfold I64 MIN MAX; unfold SEC at hs; omega)

theorem timeNow_eq {t : TimeVal} (h : ValidTV t) (hs : t.sec < SEC) : timeNow t = some (OFF + t.sec * 1000000 + t.usec) := by
  obtain ⟨h1, h2, h3⟩ := h
  unfold SEC at hs
  unfold timeNow
  rw [wrap_id (x := t.sec * 1000000) (by unfold I64 MIN MAX; omega), wrap_id (x := t.sec * 1000000 + t.usec) (by unfold I64 MIN MAX; omega),
    wrap_id (by unfold I64 MIN MAX OFF; omega), add_zero (by unfold I64 MIN MAX OFF; omega)]
  congr 1; omega

/-! ### The monotonic clock -/

/-- **C156.** `TimeTicks::Now` is the time of the monotonic clock in microseconds, rounded down, and the process does not end. -/
theorem c156_ticks {t : TimeSpec} (h : Valid t) (hs : t.sec < SEC) :
    ∃ us, ticksNow t = some us ∧ us * 1000 ≤ nanos t ∧ nanos t < us * 1000 + 1000 := by
  refine ⟨_, ticksNow_eq h hs, ?_, ?_⟩ <;> unfold nanos <;> obtain ⟨h1, h2, h3⟩ := h <;> omega

/-- **C156.** Later readings do not give smaller ticks; the difference is the time passed, up to less than a microsecond. -/
theorem c156_ticks_order {a b : TimeSpec} (ha : Valid a) (hb : Valid b) (hsa : a.sec < SEC) (hsb : b.sec < SEC) (h : nanos a ≤ nanos b) :
    ∃ x y, ticksNow a = some x ∧ ticksNow b = some y ∧ x ≤ y ∧ timeSub y x = y - x ∧
      nanos b - nanos a - 1000 < 1000 * (y - x) ∧ 1000 * (y - x) < nanos b - nanos a + 1000 := by
  refine ⟨_, _, ticksNow_eq ha hsa, ticksNow_eq hb hsb, ?_⟩
  obtain ⟨a1, a2, a3⟩ := ha
  obtain ⟨b1, b2, b3⟩ := hb
  unfold nanos at *
  unfold SEC at *
  refine ⟨by omega, ?_, by omega, by omega⟩
  exact wrap_id (by unfold I64 MIN MAX; omega)

/-- **C156.** While the machine runs less than 292 years, `time_us` and `time_ms` are the same time rounded down, and `time_us` agrees
with `TimeTicks::Now`. -/
theorem c156_time_us {t : TimeSpec} (h : Valid t) (hs : t.sec < 9000000000) :
    ticksNow t = some (timeUs t) ∧ timeUs t * 1000 ≤ nanos t ∧ nanos t < timeUs t * 1000 + 1000 ∧
    timeMs t * 1000000 ≤ nanos t ∧ nanos t < timeMs t * 1000000 + 1000000 := by
  have e := ticksNow_eq h (by unfold SEC; omega)
  obtain ⟨h1, h2, h3⟩ := h
  have en : nanoSec t = t.sec * 1000000000 + t.nsec := by
    unfold nanoSec
    rw [wrap_id (x := 1000000000 * t.sec) (by unfold I64 MIN MAX; omega), wrap_id (by unfold I64 MIN MAX; omega)]
    omega
  rw [e]
  unfold timeUs timeMs nanos
  rw [en, Int.tdiv_eq_ediv_of_nonneg (by omega), Int.tdiv_eq_ediv_of_nonneg (by omega)]
  refine ⟨by congr 1; omega, ?_, ?_, ?_, ?_⟩ <;> omega

/-- **C156.** `delta_ms(time_ms())` and `delta_us(time_us())` measure the time passed since, up to less than one unit, and are never
negative. -/
theorem c156_delta {a b : TimeSpec} (ha : Valid a) (hb : Valid b) (hsa : a.sec < 9000000000) (hsb : b.sec < 9000000000) (h : nanos a ≤ nanos b) :
    0 ≤ deltaMs b (timeMs a) ∧ nanos b - nanos a - 1000000 < 1000000 * deltaMs b (timeMs a) ∧
      1000000 * deltaMs b (timeMs a) < nanos b - nanos a + 1000000 ∧
    0 ≤ deltaUs b (timeUs a) ∧ nanos b - nanos a - 1000 < 1000 * deltaUs b (timeUs a) ∧
      1000 * deltaUs b (timeUs a) < nanos b - nanos a + 1000 := by
  obtain ⟨_, u1, u2, m1, m2⟩ := c156_time_us ha hsa
  obtain ⟨_, v1, v2, n1, n2⟩ := c156_time_us hb hsb
  have na : 0 ≤ nanos a ∧ nanos a < 9000000001000000000 := by
    obtain ⟨a1, a2, a3⟩ := ha; unfold nanos; omega
  have nb : 0 ≤ nanos b ∧ nanos b < 9000000001000000000 := by
    obtain ⟨a1, a2, a3⟩ := hb; unfold nanos; omega
  unfold deltaMs deltaUs
  rw [wrap_id (x := timeMs b - timeMs a) (by unfold I64 MIN MAX; omega), wrap_id (by unfold I64 MIN MAX; omega)]
  omega

/-! ### The wall clock -/

/-- **C156.** `Time::Now` is the wall clock's time exactly, counted from 1601; converting it to a `timeval` gives back the reading. -/
theorem c156_time_now {t : TimeVal} (h : ValidTV t) (hs : t.sec < SEC) :
    ∃ us, timeNow t = some us ∧ us = OFF + t.sec * 1000000 + t.usec ∧ timeSub us OFF = t.sec * 1000000 + t.usec := by
  refine ⟨_, timeNow_eq h hs, rfl, ?_⟩
  unfold timeSub
  obtain ⟨h1, h2, h3⟩ := h
  unfold SEC at hs
  rw [wrap_id (by unfold I64 MIN MAX OFF; omega)]
  omega

/-- **C156.** `TimeTicks::UnixEpoch` is fixed at its first call: while the wall clock advances with the monotonic clock (by `d`
microseconds), the ticks since then are the seconds since 1970 that `Time::Now` tells, exactly. -/
theorem c156_epoch {m m' : TimeSpec} {w w' : TimeVal} (hm : Valid m) (hm' : Valid m') (hw : ValidTV w) (hw' : ValidTV w')
    (s1 : m.sec < SEC) (s2 : m'.sec < SEC) (s3 : w.sec < SEC) (s4 : w'.sec < SEC) (d : Int)
    (hd : m'.sec * 1000000 + m'.nsec / 1000 = m.sec * 1000000 + m.nsec / 1000 + d)
    (hd' : w'.sec * 1000000 + w'.usec = w.sec * 1000000 + w.usec + d) :
    ∃ e a b, unixEpoch m w = some e ∧ ticksNow m' = some a ∧ timeNow w' = some b ∧
      a - e = b - OFF ∧ timeSub a e = b - OFF := by
  have e1 := ticksNow_eq hm s1
  have e3 := timeNow_eq hw s3
  have hsub : timeSub (OFF + w.sec * 1000000 + w.usec) OFF = w.sec * 1000000 + w.usec := by
    unfold timeSub
    obtain ⟨h1, h2, h3⟩ := hw
    unfold SEC at s3
    rw [wrap_id (by unfold I64 MIN MAX OFF; omega)]
    omega
  have hu : unixEpoch m w = some (m.sec * 1000000 + m.nsec / 1000 - (w.sec * 1000000 + w.usec)) := by
    unfold unixEpoch
    rw [e1]
    show (timeNow w).bind _ = _
    rw [e3]
    show sub _ (timeSub _ OFF) = _
    rw [hsub]
    obtain ⟨h1, h2, h3⟩ := hw
    obtain ⟨g1, g2, g3⟩ := hm
    unfold SEC at s1 s3
    unfold sub
    rw [if_pos (by unfold isInf MIN MAX; omega)]
    unfold clampSub
    rw [checked_id (by unfold I64 MIN MAX; omega)]
    rfl
  refine ⟨_, _, _, hu, ticksNow_eq hm' s2, timeNow_eq hw' s4, by omega, ?_⟩
  unfold timeSub
  obtain ⟨h1, h2, h3⟩ := hw'
  unfold SEC at s4
  rw [wrap_id (by unfold I64 MIN MAX; omega)]
  omega

/-- **C156.** A `Timestamp` is the reading in microseconds, a later one is later by exactly the seconds, milliseconds or
microseconds asked for (negative numbers give earlier ones). -/
theorem c156_stamp {t : TimeVal} (h : ValidTV t) (hs : t.sec < SEC) (n : Int) :
    stamp t = t.sec * 1000000 + t.usec ∧
    (n.natAbs < 200000000000 → secLater t n = stamp t + n * 1000000) ∧
    (n.natAbs < 200000000000000000 → usLater t n = stamp t + n) ∧
    (n.natAbs < 200000000000000 → msLater t n = stamp t + n * 1000) := by
  obtain ⟨h1, h2, h3⟩ := h
  unfold SEC at hs
  have e0 : stamp t = t.sec * 1000000 + t.usec := by
    unfold stamp
    rw [wrap_id (x := t.sec * 1000000) (by unfold I64 MIN MAX; omega), wrap_id (by unfold I64 MIN MAX; omega)]
  have eu : ∀ k : Int, k.natAbs ≤ 200000000000000000 → usLater t k = stamp t + k := by
    intro k hk
    rw [e0]
    unfold usLater stamp
    simp only
    rw [wrap_id (x := t.sec * 1000000) (by unfold I64 MIN MAX; omega), wrap_id (x := t.usec + k) (by unfold I64 MIN MAX; omega),
      wrap_id (by unfold I64 MIN MAX; omega)]
    omega
  refine ⟨e0, ?_, fun hn => eu n (by omega), ?_⟩
  · intro hn
    rw [e0]
    unfold secLater stamp
    simp only
    rw [wrap_id (x := t.sec + n) (by unfold I64 MIN MAX; omega), wrap_id (x := (t.sec + n) * 1000000) (by unfold I64 MIN MAX; omega),
      wrap_id (by unfold I64 MIN MAX; omega)]
    omega
  · intro hn
    unfold msLater
    rw [wrap_id (x := n * 1000) (by unfold I64 MIN MAX; omega)]
    exact eu _ (by omega)

/-- **C156.** Comparing timestamps compares the readings, and `AsMillsecond` rounds down. -/
theorem c156_stamp_order {a b : TimeVal} (ha : ValidTV a) (hb : ValidTV b) (hsa : a.sec < SEC) (hsb : b.sec < SEC) :
    (stamp a < stamp b ↔ a.sec < b.sec ∨ a.sec = b.sec ∧ a.usec < b.usec) ∧ (stamp a = stamp b ↔ a = b) ∧
    asMs (stamp a) * 1000 ≤ stamp a ∧ stamp a < asMs (stamp a) * 1000 + 1000 := by
  rw [(c156_stamp ha hsa 0).1, (c156_stamp hb hsb 0).1]
  obtain ⟨a1, a2, a3⟩ := ha
  obtain ⟨b1, b2, b3⟩ := hb
  unfold asMs
  rw [Int.tdiv_eq_ediv_of_nonneg (by omega)]
  refine ⟨by omega, ?_, by omega, by omega⟩
  constructor
  · intro h
    obtain ⟨as, au⟩ := a
    obtain ⟨bs, bu⟩ := b
    simp only at *
    have : as = bs := by omega
    have : au = bu := by omega
    subst_vars; rfl
  · rintro rfl; rfl

/-! ### The hypotheses are met -/

example : Valid ⟨12345, 678901234⟩ ∧ ticksNow ⟨12345, 678901234⟩ = some 12345678901 ∧ timeMs ⟨12345, 678901234⟩ = 12345678 := by
  refine ⟨by unfold Valid; decide, by decide, by decide⟩

example : ValidTV ⟨1700000000, 250000⟩ ∧ timeNow ⟨1700000000, 250000⟩ = some 13344473600250000 := by
  refine ⟨by unfold ValidTV; decide, by decide⟩

example : unixEpoch ⟨100, 5000⟩ ⟨1700000000, 250000⟩ = some (-1699999900249995) := by decide

/-- Beyond the range `ValueOrDie` ends the process rather than wrapping round. -/
example : ticksNow ⟨9223372036855, 0⟩ = none := by decide

end Ltio.Time.Ticks
