import Mathlib.Tactic.Ring
import Mathlib.Tactic.ByContra
import Mathlib.Tactic.Tauto

/-
Model of base/time/time_delta.{h,cc}, time_base.h and of the checked and clamped 64-bit operations of
base/numerics they use (C94).  A `TimeDelta` (and a `Time`, a `TimeTicks`) is its `int64_t`; a failed
`LTCHECK` (prtime.h:258-265, ends the process) is `none`.  Functions of `double` are not modelled.
`int` is 32 bits.
-/
namespace Ltio.Time

/-- The largest `int64_t`. -/
def MAX : Int := 9223372036854775807
/-- The smallest `int64_t`. -/
def MIN : Int := -9223372036854775808

/-- Values of an `int64_t`. -/
abbrev I64 (x : Int) : Prop := MIN ≤ x ∧ x ≤ MAX

/-- Conversion to `int64_t` modulo 2^64 (also what the compiled code does on signed overflow). -/
def wrap (x : Int) : Int := (x + 9223372036854775808) % 18446744073709551616 - 9223372036854775808

/-- `CheckedAddOp`, `CheckedSubOp`, `CheckedMulOp` (checked_math_impl.h, safe_math_clang_gcc_impl.h:67-107):
the exact result if it can be represented. -/
def checked (x : Int) : Option Int := if MIN ≤ x ∧ x ≤ MAX then some x else none

/-- `CheckedDivOp` (checked_math_impl.h:219-255) for 64-bit signed operands. -/
def checkedDiv (x y : Int) : Option Int :=
  if y = 0 then none else if x = MIN ∧ y = -1 then none else some (x.tdiv y)

/-- `CommonMaxOrMin` (safe_conversions_impl.h). -/
def maxOrMin (neg : Bool) : Int := if neg then MIN else MAX

/-- `ClampAdd` (clamped_math_impl.h:74-94). -/
def clampAdd (x y : Int) : Int := (checked (x + y)).getD (maxOrMin (y < 0))

/-- `ClampSub` (clamped_math_impl.h:99-120). -/
def clampSub (x y : Int) : Int := (checked (x - y)).getD (maxOrMin (!(y < 0)))

/-- `ClampMul` (clamped_math_impl.h:125-145). -/
def clampMul (x y : Int) : Int := (checked (x * y)).getD (maxOrMin ((x < 0) != (y < 0)))

/-- `saturated_cast<int>` (safe_conversions.h:141-152, 204-218) of an `int64_t`. -/
def satInt (x : Int) : Int := if x > 2147483647 then 2147483647 else if x < -2147483648 then -2147483648 else x

/-- `is_inf` (time_delta.h:113-116). -/
abbrev isInf (x : Int) : Prop := x = MIN ∨ x = MAX

/-- `operator+` (time_delta.h:265-272). -/
def add (x y : Int) : Option Int :=
  if ¬ isInf y then some (clampAdd x y) else if ¬ isInf x ∨ x = y then some y else none

/-- `operator-` (time_delta.h:274-281). -/
def sub (x y : Int) : Option Int :=
  if ¬ isInf y then some (clampSub x y)
  else if x ≠ y then some (if y < 0 then MAX else MIN) else none

/-- Unary `operator-` (time_delta.h:154-158). -/
def neg (x : Int) : Int := if ¬ isInf x then -x else if x < 0 then MAX else MIN

/-- `magnitude` (time_delta.h:96-106): `(delta + mask) ^ mask` is the absolute value. -/
def magnitude (x : Int) : Int := if x = MIN then MAX else if x < 0 then -x else x

/-- `operator*` (time_delta.h:160-166) by an integer. -/
def mul (x a : Int) : Int := (checked (x * a)).getD (if (x < 0) = (a < 0) then MAX else MIN)

/-- `operator/` (time_delta.h:168-175) by an integer. -/
def div (x a : Int) : Int := (checkedDiv x a).getD (if (x < 0) = (a < 0) then MAX else MIN)

/-- `IntDiv` (time_delta.h:199-209). -/
def intDiv (x a : Int) : Option Int :=
  if ¬ isInf x ∧ a ≠ 0 then some (x.tdiv a)
  else if (x ≠ 0 ∨ a ≠ 0) ∧ (¬ isInf x ∨ ¬ isInf a) then
    some (if (x < 0) = (a < 0) then MAX else MIN)
  else none

/-- `operator%` (time_delta.h:211-215). -/
def mod (x a : Int) : Int := if isInf x ∨ a = 0 ∨ isInf a then x else x.tmod a

/-- `FromSeconds` (time_delta.h:289-291). -/
def fromSeconds (s : Int) : Int := clampMul s 1000000
/-- `FromMilliseconds` (time_delta.h:299-301). -/
def fromMilliseconds (ms : Int) : Int := clampMul ms 1000
/-- `FromNanoseconds` (time_delta.h:309-311). -/
def fromNanoseconds (ns : Int) : Int := ns.tdiv 1000
/-- `InHours` (time_delta.h:318-322). -/
def inHours (x : Int) : Int := satInt (x.tdiv 3600000000)
/-- `InMinutes` (time_delta.h:324-328). -/
def inMinutes (x : Int) : Int := satInt (x.tdiv 60000000)
/-- `InSeconds` (time_delta.h:337-339). -/
def inSeconds (x : Int) : Int := if isInf x then x else x.tdiv 1000000
/-- `InNanoseconds` (time_delta.h:341-343). -/
def inNanoseconds (x : Int) : Int := clampMul x 1000
/-- `InMilliseconds` (time_delta.cc:51-56). -/
def inMilliseconds (x : Int) : Int := if ¬ isInf x then x.tdiv 1000 else if x < 0 then MIN else MAX
/-- `InMillisecondsRoundedUp` (time_delta.cc:58-66). -/
def inMillisecondsRoundedUp (x : Int) : Int :=
  if ¬ isInf x then (if x > x.tdiv 1000 * 1000 then x.tdiv 1000 + 1 else x.tdiv 1000) else x
/-- Conversion to `int`. -/
def toInt32 (x : Int) : Int := (x + 2147483648) % 4294967296 - 2147483648
/-- `InDays` (time_delta.cc:27-32). -/
def inDays (x : Int) : Int :=
  if ¬ isInf x then toInt32 (x.tdiv 86400000000) else if x < 0 then -2147483648 else 2147483647
/-- `InDaysFloored` (time_delta.cc:34-42). -/
def inDaysFloored (x : Int) : Int :=
  if ¬ isInf x then
    (if toInt32 (x.tdiv 86400000000) * 86400000000 > x then toInt32 (x.tdiv 86400000000) - 1
     else toInt32 (x.tdiv 86400000000))
  else if x < 0 then -2147483648 else 2147483647

/-- `CeilToMultiple` (time_delta.cc:75-83). -/
def ceilTo (x i : Int) : Option Int :=
  if isInf x ∨ i = 0 then some x
  else if x < 0 then sub x (mod x i)
  else if mod x i = 0 then some x
  else (sub x (mod x i)).bind (fun y => add y (magnitude i))

/-- `FloorToMultiple` (time_delta.cc:85-94). -/
def floorTo (x i : Int) : Option Int :=
  if isInf x ∨ i = 0 then some x
  else if x < 0 then
    (if mod x i = 0 then some x else (sub x (mod x i)).bind (fun y => sub y (magnitude i)))
  else sub x (mod x i)

/-- `RoundToMultiple` (time_delta.cc:96-104). -/
def roundTo (x i : Int) : Option Int :=
  if isInf x ∨ i = 0 then some x
  else if isInf i then some 0
  else if x < 0 then (sub x (div (magnitude i) 2)).bind (fun y => ceilTo y i)
  else (add x (div (magnitude i) 2)).bind (fun y => floorTo y i)

/-- `TimeBase::operator-(TimeClass)` (time_base.h:73-75): no check for overflow. -/
def timeSub (a b : Int) : Int := wrap (a - b)

/-- A `timespec`. -/
structure TimeSpec where
  sec : Int
  nsec : Int
deriving DecidableEq

/-- `FromTimeSpec` (time_delta.cc:10-13). -/
def fromTimeSpec (t : TimeSpec) : Int := wrap (wrap (t.sec * 1000000) + t.nsec.tdiv 1000)

/-- `ToTimeSpec` (time_delta.cc:15-26). -/
def toTimeSpec (x : Int) : TimeSpec :=
  if x ≥ 1000000 then ⟨inSeconds x, wrap (wrap (x - wrap (inSeconds x * 1000000)) * 1000)⟩
  else ⟨0, wrap (x * 1000)⟩

/-! ### Specification -/

/-- The nearest number an `int64_t` can represent. -/
def clamp (x : Int) : Int := max MIN (min x MAX)

/-- `q` is `x / d` rounded towards zero. -/
def IsTrunc (x d q : Int) : Prop :=
  (0 ≤ x → 0 ≤ q * d ∧ q * d ≤ x ∧ x - q * d < d.natAbs) ∧
  (x ≤ 0 → q * d ≤ 0 ∧ x ≤ q * d ∧ q * d - x < d.natAbs)

/-- `r` is the largest multiple of `i` that is at most `x`. -/
def IsFloor (x i r : Int) : Prop := i ∣ r ∧ r ≤ x ∧ x < r + i.natAbs

/-- `r` is the smallest multiple of `i` that is at least `x`. -/
def IsCeil (x i r : Int) : Prop := i ∣ r ∧ x ≤ r ∧ r - i.natAbs < x

/-- `r` is a multiple of `i` nearest to `x`, and the one farther from zero if there are two. -/
def IsRound (x i r : Int) : Prop :=
  i ∣ r ∧ 2 * (x - r).natAbs ≤ i.natAbs ∧ (2 * (x - r).natAbs = i.natAbs → x.natAbs < r.natAbs)

/-! ### Basic facts -/

theorem wrap_id {x : Int} (h : I64 x) : wrap x = x := by
  simp only [I64, MIN, MAX] at h; simp only [wrap]; omega

theorem checked_some {x : Int} (h : I64 x) : checked x = some x := if_pos h

theorem tmod_bounds (x : Int) {d : Int} (hd : d ≠ 0) :
    (0 ≤ x → 0 ≤ x.tmod d ∧ x.tmod d ≤ x ∧ x.tmod d < d.natAbs) ∧
    (x ≤ 0 → x.tmod d ≤ 0 ∧ x ≤ x.tmod d ∧ -(x.tmod d) < d.natAbs) := by
  have ha := Int.natAbs_tmod x d
  have h1 := Nat.mod_lt x.natAbs (y := d.natAbs) (by omega)
  have h2 := Nat.mod_le x.natAbs d.natAbs
  constructor
  · intro hx
    have := Int.tmod_nonneg d hx
    omega
  · intro hx
    have := Int.tmod_nonneg d (a := -x) (by omega)
    rw [Int.neg_tmod] at this
    omega

theorem tdiv_isTrunc (x : Int) {d : Int} (hd : d ≠ 0) : IsTrunc x d (x.tdiv d) := by
  have h := Int.tdiv_mul_add_tmod x d
  have ht := tmod_bounds x hd
  constructor
  · intro hx
    have := ht.1 hx
    omega
  · intro hx
    have := ht.2 hx
    omega

theorem clamp_id {x : Int} (h : I64 x) : clamp x = x := by
  simp only [I64, MIN, MAX] at h; simp only [clamp, MIN, MAX]; omega

theorem clampAdd_eq {x y : Int} (hx : I64 x) (hy : I64 y) : clampAdd x y = clamp (x + y) := by
  simp only [clampAdd, checked, I64, clamp, maxOrMin] at *
  split
  · simp only [Option.getD_some]; omega
  · simp only [Option.getD_none, decide_eq_true_eq]; split <;> simp only [MIN, MAX] at * <;> omega

theorem clampSub_eq {x y : Int} (hx : I64 x) (hy : I64 y) : clampSub x y = clamp (x - y) := by
  simp only [clampSub, checked, I64, clamp, maxOrMin] at *
  split
  · simp only [Option.getD_some]; omega
  · simp only [Option.getD_none, Bool.not_eq_true', decide_eq_false_iff_not]
    split <;> simp only [MIN, MAX] at * <;> omega

theorem sign_mul (x y : Int) : (0 < x * y → (x < 0 ↔ y < 0)) ∧ (x * y < 0 → ¬ (x < 0 ↔ y < 0)) := by
  constructor
  · intro h
    rcases Int.lt_trichotomy x 0 with hx | hx | hx
    · rcases Int.lt_trichotomy y 0 with hy | hy | hy
      · omega
      · subst hy; simp at h
      · have := Int.mul_neg_of_neg_of_pos hx hy; omega
    · subst hx; simp at h
    · rcases Int.lt_trichotomy y 0 with hy | hy | hy
      · have := Int.mul_neg_of_pos_of_neg hx hy; omega
      · subst hy; simp at h
      · omega
  · intro h
    rcases Int.lt_trichotomy x 0 with hx | hx | hx
    · rcases Int.lt_trichotomy y 0 with hy | hy | hy
      · have := Int.mul_pos_of_neg_of_neg hx hy; omega
      · subst hy; simp at h
      · omega
    · subst hx; simp at h
    · rcases Int.lt_trichotomy y 0 with hy | hy | hy
      · omega
      · subst hy; simp at h
      · have := Int.mul_pos hx hy; omega

theorem mul_eq (x a : Int) : mul x a = clamp (x * a) := by
  have hs := sign_mul x a
  simp only [mul, checked, clamp, eq_iff_iff] at *
  have hA : MAX = 9223372036854775807 := rfl
  have hI : MIN = -9223372036854775808 := rfl
  generalize x * a = p at *
  by_cases hp : MIN ≤ p ∧ p ≤ MAX
  · rw [if_pos hp]; simp only [Option.getD_some]; omega
  · rw [if_neg hp]; simp only [Option.getD_none]
    by_cases h : (x < 0 ↔ a < 0)
    · rw [if_pos h]; omega
    · rw [if_neg h]; omega

theorem clampMul_eq (x a : Int) : clampMul x a = clamp (x * a) := by
  rw [← mul_eq]
  simp only [clampMul, mul, maxOrMin]
  congr 1
  by_cases h1 : x < 0 <;> by_cases h2 : a < 0 <;> simp [h1, h2]

/-! ### Theorems -/

/-- **C94.** The sum and the difference of finite deltas are exact, and the nearest value that can be
represented when they overflow. -/
theorem c94_add_sub {x y : Int} (hx : I64 x) (hy : I64 y) (hf : ¬ isInf y) :
    add x y = some (clamp (x + y)) ∧ sub x y = some (clamp (x - y)) := by
  simp only [add, sub, hf, not_false_eq_true, if_true, clampAdd_eq hx hy, clampSub_eq hx hy, and_self]

/-- **C94.** Infinity swallows finite deltas on either side of the sign, and infinities that cancel
are refused (the process ends). -/
theorem c94_infinite {x : Int} (hx : ¬ isInf x) :
    add x MAX = some MAX ∧ add x MIN = some MIN ∧ sub x MAX = some MIN ∧ sub x MIN = some MAX ∧
    add MAX MIN = none ∧ add MIN MAX = none ∧ sub MAX MAX = none ∧ sub MIN MIN = none ∧
    add MAX MAX = some MAX ∧ add MIN MIN = some MIN ∧ neg MAX = MIN ∧ neg MIN = MAX := by
  have h1 : x ≠ MAX := fun h => hx (Or.inr h)
  have h2 : x ≠ MIN := fun h => hx (Or.inl h)
  refine ⟨?_, ?_, ?_, ?_, ?_⟩
  · simp [add, isInf, h1, h2]
  · simp [add, isInf, h1, h2]
  · simp [sub, isInf, MAX, MIN] at h1 ⊢; exact h1
  · simp [sub, isInf, MAX, MIN] at h2 ⊢; exact h2
  · decide

theorem div_eq {x a : Int} (hx : I64 x) (ha : a ≠ 0) : div x a = clamp (x.tdiv a) := by
  simp only [div, checkedDiv, ha, if_false]
  by_cases h : x = MIN ∧ a = -1
  · rw [h.1, h.2]; decide
  · rw [if_neg h, Option.getD_some]
    symm; apply clamp_id
    have hn : (x.tdiv a).natAbs = x.natAbs / a.natAbs := Int.natAbs_tdiv x a
    generalize hq : x.tdiv a = q at hn ⊢
    simp only [I64, MIN, MAX] at hx h ⊢
    by_cases h1 : a = 1
    · subst h1; rw [Int.tdiv_one] at hq; omega
    · by_cases h2 : a = -1
      · subst h2; rw [Int.tdiv_neg, Int.tdiv_one] at hq; omega
      · have : x.natAbs / a.natAbs ≤ x.natAbs / 2 := Nat.div_le_div_left (by omega) (by omega)
        omega

/-- **C94.** Multiplication and division (towards zero) by a number are exact, and saturate. -/
theorem c94_mul_div {x : Int} (hx : I64 x) (a : Int) :
    mul x a = clamp (x * a) ∧ (a ≠ 0 → ∃ q, IsTrunc x a q ∧ div x a = clamp q) :=
  ⟨mul_eq x a, fun ha => ⟨_, tdiv_isTrunc x ha, div_eq hx ha⟩⟩

/-- **C94.** A quotient by zero saturates: it is the infinite delta of the sign of the dividend, the positive one for zero. -/
theorem c94_div_zero (x : Int) : (0 ≤ x → div x 0 = 9223372036854775807) ∧ (x < 0 → div x 0 = -9223372036854775808) := by
  constructor
  · intro h
    have h' : ¬ x < 0 := by omega
    simp [div, checkedDiv, h', MAX]
  · intro h
    simp [div, checkedDiv, h, MIN]

/-- **C94.** Negation and absolute value of every delta but the two infinities are exact; the absolute
value of both infinities is infinity. -/
theorem c94_neg_magnitude {x : Int} (hx : I64 x) (hf : ¬ isInf x) :
    neg x = -x ∧ magnitude x = x.natAbs ∧ magnitude MIN = MAX ∧ magnitude MAX = MAX ∧
    I64 (neg x) := by
  simp only [I64, isInf, not_or, MIN, MAX] at hx hf
  simp only [neg, magnitude, isInf, MIN, MAX, hf, or_self, not_false_eq_true, if_true, if_false, I64]
  refine ⟨trivial, ?_, by decide, by decide, ?_⟩
  · split <;> omega
  · omega

/-- **C94.** Conversions from seconds and milliseconds are exact and saturate: the extreme numbers give
the infinite deltas. -/
theorem c94_from (n : Int) :
    fromSeconds n = clamp (n * 1000000) ∧ fromMilliseconds n = clamp (n * 1000) ∧
    fromSeconds MAX = MAX ∧ fromSeconds MIN = MIN ∧
    fromMilliseconds MAX = MAX ∧ fromMilliseconds MIN = MIN :=
  ⟨clampMul_eq _ _, clampMul_eq _ _, by decide, by decide, by decide, by decide⟩

/-- **C94.** `InSeconds`, `InMilliseconds`, `InDays` are rounded towards zero, `InNanoseconds` is exact
and saturates, `InMillisecondsRoundedUp` and `InDaysFloored` are rounded as they say, for every finite
delta; `InHours` and `InMinutes` are rounded towards zero and saturate at the limits of an `int`. -/
theorem c94_in {x : Int} (hx : I64 x) (hf : ¬ isInf x) :
    IsTrunc x 1000000 (inSeconds x) ∧ IsTrunc x 1000 (inMilliseconds x) ∧
    IsTrunc x 86400000000 (inDays x) ∧ inNanoseconds x = clamp (x * 1000) ∧
    (inMillisecondsRoundedUp x - 1) * 1000 < x ∧ x ≤ inMillisecondsRoundedUp x * 1000 ∧
    inDaysFloored x * 86400000000 ≤ x ∧ x < (inDaysFloored x + 1) * 86400000000 ∧
    (∃ h, IsTrunc x 3600000000 h ∧ inHours x = max (-2147483648) (min h 2147483647)) ∧
    (∃ m, IsTrunc x 60000000 m ∧ inMinutes x = max (-2147483648) (min m 2147483647)) := by
  have t1 := tdiv_isTrunc x (d := 1000000) (by decide)
  have t2 := tdiv_isTrunc x (d := 1000) (by decide)
  have t3 := tdiv_isTrunc x (d := 86400000000) (by decide)
  have t4 := tdiv_isTrunc x (d := 3600000000) (by decide)
  have t5 := tdiv_isTrunc x (d := 60000000) (by decide)
  have hd : toInt32 (x.tdiv 86400000000) = x.tdiv 86400000000 := by
    simp only [IsTrunc, I64, MIN, MAX] at t3 hx
    simp only [toInt32]; omega
  have hd' : inDays x = x.tdiv 86400000000 := by rw [inDays, if_pos hf, hd]
  refine ⟨?_, ?_, ?_, clampMul_eq _ _, ?_, ?_, ?_, ?_, ⟨_, t4, ?_⟩, ⟨_, t5, ?_⟩⟩
  · rw [inSeconds, if_neg hf]; exact t1
  · rw [inMilliseconds, if_pos hf]; exact t2
  · rw [hd']; exact t3
  · rw [inMillisecondsRoundedUp, if_pos hf]
    simp only [IsTrunc] at t2
    split <;> omega
  · rw [inMillisecondsRoundedUp, if_pos hf]
    simp only [IsTrunc] at t2
    split <;> omega
  · rw [inDaysFloored, if_pos hf, hd]
    simp only [IsTrunc] at t3
    split <;> omega
  · rw [inDaysFloored, if_pos hf, hd]
    simp only [IsTrunc] at t3
    split <;> omega
  · simp only [inHours, satInt]; split <;> (try split) <;> omega
  · simp only [inMinutes, satInt]; split <;> (try split) <;> omega

/-- **C94.** The conversions of the infinite deltas are the extreme numbers. -/
theorem c94_in_infinite :
    inSeconds MAX = MAX ∧ inSeconds MIN = MIN ∧ inMilliseconds MAX = MAX ∧ inMilliseconds MIN = MIN ∧
    inNanoseconds MAX = MAX ∧ inNanoseconds MIN = MIN ∧ inMillisecondsRoundedUp MAX = MAX ∧
    inMillisecondsRoundedUp MIN = MIN ∧ inDays MAX = 2147483647 ∧ inDays MIN = -2147483648 ∧
    inDaysFloored MAX = 2147483647 ∧ inDaysFloored MIN = -2147483648 ∧ inHours MAX = 2147483647 ∧
    inHours MIN = -2147483648 ∧ inMinutes MAX = 2147483647 ∧ inMinutes MIN = -2147483648 := by
  decide

theorem dvd_sub_tmod (x i : Int) : i ∣ x - x.tmod i :=
  ⟨x.tdiv i, by have := Int.tdiv_mul_add_tmod x i; rw [Int.mul_comm] at this; omega⟩

theorem mag_fin {i : Int} (hi : I64 i) (hf : ¬ isInf i) : magnitude i = i.natAbs :=
  (c94_neg_magnitude hi hf).2.1

theorem dvd_natAbs_add {i r : Int} (h : i ∣ r) : i ∣ r + i.natAbs ∧ i ∣ r - i.natAbs := by
  have : i ∣ (i.natAbs : Int) := Int.dvd_natAbs.2 (Int.dvd_refl i)
  exact ⟨Int.dvd_add h this, Int.dvd_sub h this⟩

theorem sub_mod {x i : Int} (hx : I64 x) (hx' : ¬ isInf x) (h0 : i ≠ 0) (hi' : ¬ isInf i) :
    mod x i = x.tmod i ∧ sub x (x.tmod i) = some (x - x.tmod i) ∧ I64 (x - x.tmod i) := by
  have hb := tmod_bounds x h0
  have hm : mod x i = x.tmod i := by simp only [mod]; rw [if_neg]; simp only [hx', h0, hi', or_self, not_false_eq_true]
  simp only [I64, isInf, MIN, MAX] at hx hx'
  have h1 : I64 (x.tmod i) := by simp only [I64, MIN, MAX]; omega
  have h2 : ¬ isInf (x.tmod i) := by simp only [isInf, MIN, MAX]; omega
  have h3 : I64 (x - x.tmod i) := by simp only [I64, MIN, MAX]; omega
  have h4 := (c94_add_sub (x := x) (y := x.tmod i) (by simp only [I64, MIN, MAX]; omega) h1 h2).2
  rw [clamp_id h3] at h4
  exact ⟨hm, h4, h3⟩

theorem interval {i : Int} (h : (i.natAbs : Int) < MAX) :
    I64 i ∧ ¬ isInf i ∧ I64 (i.natAbs : Int) ∧ ¬ isInf (i.natAbs : Int) := by
  have hA : MAX = 9223372036854775807 := rfl
  have hI : MIN = -9223372036854775808 := rfl
  unfold I64 isInf
  omega

/-- **C94.** `FloorToMultiple` and `CeilToMultiple` are the multiples of the interval below and above,
for every finite delta and interval; saturated if they cannot be represented. -/
theorem c94_floor_ceil {x i : Int} (hx : I64 x) (hx' : ¬ isInf x) (hi : (i.natAbs : Int) < MAX)
    (h0 : i ≠ 0) :
    (∃ r, IsFloor x i r ∧ floorTo x i = some (clamp r)) ∧
    (∃ r, IsCeil x i r ∧ ceilTo x i = some (clamp r)) := by
  obtain ⟨hi, hi', hmi, hmf⟩ := interval hi
  obtain ⟨hm, hs, hr⟩ := sub_mod hx hx' h0 hi'
  have hb := tmod_bounds x h0
  have hd := dvd_sub_tmod x i
  have hmag := mag_fin hi hi'
  have hc := c94_add_sub hr hmi hmf
  constructor
  · simp only [floorTo, hx', h0, or_self, if_false, hm, hs, hmag, Option.bind_some]
    by_cases hneg : x < 0
    · rw [if_pos hneg]
      by_cases hz : x.tmod i = 0
      · rw [if_pos hz]
        refine ⟨x, ⟨by rw [hz] at hd; simpa using hd, by omega, by omega⟩, by rw [clamp_id hx]⟩
      · rw [if_neg hz]
        exact ⟨x - x.tmod i - i.natAbs, ⟨(dvd_natAbs_add hd).2, by omega, by omega⟩, hc.2⟩
    · rw [if_neg hneg]
      exact ⟨x - x.tmod i, ⟨hd, by omega, by omega⟩, by rw [clamp_id hr]⟩
  · simp only [ceilTo, hx', h0, or_self, if_false, hm, hs, hmag, Option.bind_some]
    by_cases hneg : x < 0
    · rw [if_pos hneg]
      exact ⟨x - x.tmod i, ⟨hd, by omega, by omega⟩, by rw [clamp_id hr]⟩
    · rw [if_neg hneg]
      by_cases hz : x.tmod i = 0
      · rw [if_pos hz]
        refine ⟨x, ⟨by rw [hz] at hd; simpa using hd, by omega, by omega⟩, by rw [clamp_id hx]⟩
      · rw [if_neg hz]
        exact ⟨x - x.tmod i + i.natAbs, ⟨(dvd_natAbs_add hd).1, by omega, by omega⟩, hc.1⟩

theorem dvd_lt_zero {i r : Int} (h : i ∣ r) (h1 : -(i.natAbs : Int) < r) (h2 : r < i.natAbs) : r = 0 := by
  obtain ⟨k, rfl⟩ := h
  by_contra hne
  have := Int.natAbs_dvd_natAbs.2 (⟨k, rfl⟩ : i ∣ i * k)
  have := Nat.le_of_dvd (by omega) this
  omega

/-- **C94.** `RoundToMultiple` is the nearest multiple of the interval, the one farther from zero on a
tie, if delta and half the interval are below the largest value together. -/
theorem c94_round {x i : Int} (hx : I64 x) (hx' : ¬ isInf x) (hi : (i.natAbs : Int) < MAX)
    (h0 : i ≠ 0) (hsum : (x.natAbs : Int) + i.natAbs / 2 < MAX) :
    ∃ r, IsRound x i r ∧ roundTo x i = some (clamp r) := by
  have hN := hi
  obtain ⟨hi, hi', hmi, hmf⟩ := interval hi
  have hmag := mag_fin hi hi'
  have hhalf : div (magnitude i) 2 = (i.natAbs : Int) / 2 := by
    rw [hmag, div_eq hmi (by decide), Int.tdiv_eq_ediv_of_nonneg (by omega)]
    apply clamp_id
    simp only [I64, MIN, MAX] at hmi ⊢; omega
  have hh : I64 ((i.natAbs : Int) / 2) ∧ ¬ isInf ((i.natAbs : Int) / 2) := by
    simp only [I64, isInf, MIN, MAX] at hmi ⊢; omega
  have hc := c94_add_sub hx hh.1 hh.2
  simp only [roundTo, hx', h0, or_self, if_false, hi', hhalf, hc.1, hc.2, Option.bind_some]
  have hM : MAX = 9223372036854775807 := rfl
  by_cases hneg : x < 0
  · rw [if_pos hneg]
    have h1 : I64 (x - (i.natAbs : Int) / 2) := by simp only [I64, MIN, MAX]; omega
    have h2 : ¬ isInf (x - (i.natAbs : Int) / 2) := by simp only [isInf, MIN, MAX]; omega
    obtain ⟨r, ⟨r1, r2, r3⟩, r4⟩ := (c94_floor_ceil h1 h2 hN h0).2
    rw [clamp_id h1]
    refine ⟨r, ⟨r1, by omega, ?_⟩, r4⟩
    intro ht
    by_cases hr0 : r ≤ x
    · omega
    · omega
  · rw [if_neg hneg]
    have h1 : I64 (x + (i.natAbs : Int) / 2) := by simp only [I64, MIN, MAX]; omega
    have h2 : ¬ isInf (x + (i.natAbs : Int) / 2) := by simp only [isInf, MIN, MAX]; omega
    obtain ⟨r, ⟨r1, r2, r3⟩, r4⟩ := (c94_floor_ceil h1 h2 hN h0).1
    rw [clamp_id h1]
    refine ⟨r, ⟨r1, by omega, ?_⟩, r4⟩
    intro ht
    omega

/-- **C94.** Differences of times that can be represented are exact, and so is adding a finite delta to a time. -/
theorem c94_time {a b : Int} (ha : I64 a) (hb : I64 b) :
    (I64 (a - b) → timeSub a b = a - b) ∧ (¬ isInf b → add a b = some (clamp (a + b))) :=
  ⟨fun h => wrap_id h, fun h => (c94_add_sub ha hb h).1⟩

/-- **C94.** A finite delta that is not negative converts to a valid `timespec` and back. -/
theorem c94_timespec {x : Int} (hx : I64 x) (hf : ¬ isInf x) (h0 : 0 ≤ x) :
    0 ≤ (toTimeSpec x).nsec ∧ (toTimeSpec x).nsec < 1000000000 ∧
    (toTimeSpec x).sec * 1000000000 + (toTimeSpec x).nsec = x * 1000 ∧
    fromTimeSpec (toTimeSpec x) = x := by
  have hs : inSeconds x = x / 1000000 := by
    rw [inSeconds, if_neg hf, Int.tdiv_eq_ediv_of_nonneg h0]
  simp only [I64, MIN, MAX] at hx
  have w : ∀ y, -9223372036854775808 ≤ y → y ≤ 9223372036854775807 → wrap y = y :=
    fun y h1 h2 => wrap_id ⟨h1, h2⟩
  have key : toTimeSpec x = ⟨x / 1000000, x % 1000000 * 1000⟩ := by
    simp only [toTimeSpec, hs]
    split
    · rw [w (x / 1000000 * 1000000) (by omega) (by omega),
        w (x - x / 1000000 * 1000000) (by omega) (by omega), w _ (by omega) (by omega)]
      simp only [TimeSpec.mk.injEq, true_and]; omega
    · rw [w _ (by omega) (by omega)]
      simp only [TimeSpec.mk.injEq]; omega
  rw [key]
  refine ⟨by simp only []; omega, by simp only []; omega, by simp only []; omega, ?_⟩
  simp only [fromTimeSpec]
  rw [Int.tdiv_eq_ediv_of_nonneg (by omega), w (x / 1000000 * 1000000) (by omega) (by omega),
    w _ (by omega) (by omega)]
  omega

/-- **C94, violation.** The largest number of nanoseconds is not the infinite delta, unlike those of
the other units. -/
theorem c94_nanoseconds_finite : fromNanoseconds MAX = 9223372036854775 ∧ fromNanoseconds MAX ≠ MAX := by
  decide

/-- **C94, violation.** Every negative delta above -2^53 seconds or so converts to an invalid
`timespec`: no seconds and a negative number of nanoseconds. -/
theorem c94_negative_timespec {x : Int} (h : x < 0) (hl : -9000000000000000 ≤ x) :
    toTimeSpec x = ⟨0, x * 1000⟩ ∧ (toTimeSpec x).nsec < 0 := by
  have : toTimeSpec x = ⟨0, x * 1000⟩ := by
    rw [toTimeSpec, if_neg (by omega), wrap_id (by simp only [I64, MIN, MAX]; omega)]
  rw [this]; exact ⟨rfl, by simp only []; omega⟩

/-- **C94, violation.** The difference of two times wraps around: a later time minus an earlier one
can be negative. -/
theorem c94_time_wraps : timeSub MAX (-1) = MIN ∧ timeSub 9000000000000000000 (-9000000000000000000) < 0 := by
  decide

/-- **C94, violation.** Rounding the largest finite delta, which is even, to a multiple of two
microseconds gives the infinite delta. -/
theorem c94_round_overflows : roundTo (MAX - 1) 2 = some MAX ∧ IsRound (MAX - 1) 2 (MAX - 1) := by
  refine ⟨by decide, ⟨4611686018427387903, by decide⟩, by decide, by decide⟩

/-- **C94, violation.** Infinity does not stay infinite: minus one microsecond, times minus one and
halved it is finite. -/
theorem c94_infinity_lost : add MAX (-1) = some (MAX - 1) ∧ mul MAX (-1) = MIN + 1 ∧
    div MAX 2 = 4611686018427387903 := by decide

/-- **C94, violation.** The smallest finite delta has an infinite opposite and an infinite magnitude. -/
theorem c94_opposite_infinite : ¬ isInf (MIN + 1) ∧ isInf (neg (MIN + 1)) ∧
    isInf (magnitude (MIN + 1)) := by decide

/-- **C94.** `IntDiv` and `%` are quotient (towards zero) and remainder for finite deltas; nothing is lost
between them.  Dividing a delta that is not zero by zero, or an infinite one by a finite one, gives the
infinity of the right sign. -/
theorem c94_int_div {x a : Int} (hx : ¬ isInf x) (ha : ¬ isInf a) :
    (a ≠ 0 → ∃ q, intDiv x a = some q ∧ IsTrunc x a q ∧ mod x a = x - q * a) ∧
    (0 < x → intDiv x 0 = some MAX) ∧ (x < 0 → intDiv x 0 = some MIN) ∧
    (0 ≤ a → intDiv MAX a = some MAX ∧ intDiv MIN a = some MIN) ∧
    (a < 0 → intDiv MAX a = some MIN ∧ intDiv MIN a = some MAX) ∧ intDiv 0 0 = none := by
  have hA : MAX = 9223372036854775807 := rfl
  have hB : MIN = -9223372036854775808 := rfl
  have iM : isInf MAX := Or.inr rfl
  have im : isInf MIN := Or.inl rfl
  refine ⟨?_, ?_, ?_, ?_, ?_, ?_⟩
  · intro h0
    refine ⟨x.tdiv a, by unfold intDiv; rw [if_pos ⟨hx, h0⟩], tdiv_isTrunc x h0, ?_⟩
    have hm : mod x a = x.tmod a := by unfold mod; rw [if_neg (by rintro (h | h | h); exact hx h; exact h0 h; exact ha h)]
    have := Int.tdiv_mul_add_tmod x a
    rw [hm]; omega
  · intro h
    unfold intDiv
    rw [if_neg (by rintro ⟨_, h0⟩; exact h0 rfl), if_pos ⟨Or.inl (by omega), Or.inl hx⟩,
      if_pos (by simp only [eq_iff_iff]; omega)]
  · intro h
    unfold intDiv
    rw [if_neg (by rintro ⟨_, h0⟩; exact h0 rfl), if_pos ⟨Or.inl (by omega), Or.inl hx⟩,
      if_neg (by simp only [eq_iff_iff]; omega)]
  · intro h
    constructor
    · unfold intDiv
      rw [if_neg (by rintro ⟨h0, _⟩; exact h0 iM), if_pos ⟨Or.inl (by omega), Or.inr ha⟩,
        if_pos (by simp only [eq_iff_iff]; omega)]
    · unfold intDiv
      rw [if_neg (by rintro ⟨h0, _⟩; exact h0 im), if_pos ⟨Or.inl (by omega), Or.inr ha⟩,
        if_neg (by simp only [eq_iff_iff]; omega)]
  · intro h
    constructor
    · unfold intDiv
      rw [if_neg (by rintro ⟨h0, _⟩; exact h0 iM), if_pos ⟨Or.inl (by omega), Or.inr ha⟩,
        if_neg (by simp only [eq_iff_iff]; omega)]
    · unfold intDiv
      rw [if_neg (by rintro ⟨h0, _⟩; exact h0 im), if_pos ⟨Or.inl (by omega), Or.inr ha⟩,
        if_pos (by simp only [eq_iff_iff]; omega)]
  · decide

/-- The hypotheses of the theorems above are met, with results away from zero. -/
theorem w_c94 : add (MAX - 1) 5 = some MAX ∧ roundTo (-7500) 5000 = some (-10000) ∧
    floorTo (-7) 5 = some (-10) ∧ ceilTo (-7) 5 = some (-5) ∧ ceilTo 7 (-5) = some 10 ∧
    toTimeSpec 1500000 = ⟨1, 500000000⟩ ∧ inDaysFloored (-1) = -1 ∧ mul (MIN + 1) 2 = MIN := by
  decide

end Ltio.Time
