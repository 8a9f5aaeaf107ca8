import Mathlib.Data.Int.Basic
import Mathlib.Tactic.Common

/-
base/numerics/safe_conversions_impl.h and safe_conversions.h, for the integer types: conversions that check or
saturate, and comparisons between different integer types.

An integer type is one of the eight fixed-width types, the value of an expression is an `Int`; `wrap t v` is
`static_cast<T>(v)` (modulo 2^bits: the standard for unsigned types, gcc and clang's documented choice for signed
ones).  `int` has 32 bits.  The platform is one without the ARM assembler paths
(safe_conversions_arm_impl.h is not modelled), floating point is not modelled.
`DstRangeRelationToSrcRange` is used with `std::numeric_limits` as bounds, and `NarrowingRange::Adjust` is the
identity then: `kShift` (244-249) is 0 between integers whose `MaxExponent` grows with their `digits`.
-/
namespace Ltio.Num

/-- The integer types. -/
inductive ITy | i8 | u8 | i16 | u16 | i32 | u32 | i64 | u64
deriving DecidableEq, Repr

namespace ITy

/-- `std::is_signed`. -/
def sg : ITy → Bool
  | i8 | i16 | i32 | i64 => true
  | u8 | u16 | u32 | u64 => false

/-- `IntegerBitsPlusSign` (34-40). -/
def bits : ITy → Nat
  | i8 | u8 => 8
  | i16 | u16 => 16
  | i32 | u32 => 32
  | i64 | u64 => 64

/-- `std::numeric_limits<T>::digits`. -/
def digits (t : ITy) : Nat := if t.sg then t.bits - 1 else t.bits

/-- `MaxExponent` (24-32) of an integer type. -/
def maxExp (t : ITy) : Nat := t.digits + 1

/-- `std::numeric_limits<T>::lowest()`. -/
def lo : ITy → Int
  | i8 => -128
  | i16 => -32768
  | i32 => -2147483648
  | i64 => -9223372036854775808
  | u8 | u16 | u32 | u64 => 0

/-- `std::numeric_limits<T>::max()`. -/
def hi : ITy → Int
  | i8 => 127
  | u8 => 255
  | i16 => 32767
  | u16 => 65535
  | i32 => 2147483647
  | u32 => 4294967295
  | i64 => 9223372036854775807
  | u64 => 18446744073709551615

/-- The number of values of the type. -/
def card : ITy → Int
  | i8 | u8 => 256
  | i16 | u16 => 65536
  | i32 | u32 => 4294967296
  | i64 | u64 => 18446744073709551616

/-- `std::make_unsigned`. -/
def uns : ITy → ITy
  | i8 | u8 => u8
  | i16 | u16 => u16
  | i32 | u32 => u32
  | i64 | u64 => u64

/-- `IntegerForDigitsAndSign` (417-436). -/
def ofBits (b : Nat) (s : Bool) : ITy :=
  if b = 8 then (if s then i8 else u8) else if b = 16 then (if s then i16 else u16)
  else if b = 32 then (if s then i32 else u32) else (if s then i64 else u64)

/-- `static_cast<T>(v)`. -/
def wrap (t : ITy) (v : Int) : Int := (v - t.lo) % t.card + t.lo

/-- The integral promotion. -/
def promote (t : ITy) : ITy := if t.bits < 32 then i32 else t

/-- `decltype(L() + R())`: the usual arithmetic conversions. -/
def common (l r : ITy) : ITy :=
  if l.promote.sg = r.promote.sg then (if l.promote.bits ≥ r.promote.bits then l.promote else r.promote)
  else if l.promote.sg then (if r.promote.bits ≥ l.promote.bits then r.promote else l.promote)
  else (if l.promote.bits ≥ r.promote.bits then l.promote else r.promote)

end ITy
open ITy

/-- The value is one of the type. -/
def In (t : ITy) (v : Int) : Prop := t.lo ≤ v ∧ v ≤ t.hi

instance (t : ITy) (v : Int) : Decidable (In t v) := inferInstanceAs (Decidable (_ ∧ _))

/-- The nearest value of the type. -/
def clamp (t : ITy) (v : Int) : Int := if v < t.lo then t.lo else if v > t.hi then t.hi else v

/-- `StaticDstRangeRelationToSrcRange` (144-190). -/
def contained (dst src : ITy) : Bool :=
  if dst.sg = src.sg then decide (dst.maxExp ≥ src.maxExp)
  else if dst.sg then decide (dst.maxExp > src.maxExp)
  else false

/-- `RangeCheck` (192-218): the underflow and the overflow flag. -/
structure RangeCheck where
  under : Bool
  over : Bool
deriving DecidableEq, Repr

/-- `RangeCheck(is_in_lower_bound, is_in_upper_bound)` (194-195). -/
def mkRange (inLower inUpper : Bool) : RangeCheck := ⟨!inLower, !inUpper⟩

/-- `DstRangeRelationToSrcRange<Dst>(value)` for a `Src` value (278-396, 406-415). -/
def rangeCheck (dst src : ITy) (v : Int) : RangeCheck :=
  if contained dst src then
    mkRange (decide (dst.wrap src.lo ≥ dst.lo) || decide (dst.wrap v ≥ dst.lo))
      (decide (dst.wrap src.hi ≤ dst.hi) || decide (dst.wrap v ≤ dst.hi))
  else if dst.sg then
    if src.sg then mkRange (decide (v ≥ dst.lo)) (decide (v ≤ dst.hi))
    else mkRange (decide (dst.lo ≤ 0) || decide ((common src dst).wrap v ≥ (common src dst).wrap dst.lo))
      (decide ((common src dst).wrap v ≤ (common src dst).wrap dst.hi))
  else
    if src.sg then mkRange (decide (v ≥ 0) && (decide (dst.lo = 0) || decide (dst.wrap v ≥ dst.lo)))
      (decide ((common src dst).wrap src.hi ≤ (common src dst).wrap dst.hi) ||
        decide ((common src dst).wrap v ≤ (common src dst).wrap dst.hi))
    else mkRange (decide (dst.lo = 0) || decide (v ≥ dst.lo)) (decide (v ≤ dst.hi))

/-- `RangeCheck::IsValid`, `IsOverflow`, `IsUnderflow` (197-200). -/
def RangeCheck.isValid (c : RangeCheck) : Bool := !c.over && !c.under
/-- `IsOverflow` (199). -/
def RangeCheck.isOverflow (c : RangeCheck) : Bool := c.over && !c.under
/-- `IsUnderflow` (200). -/
def RangeCheck.isUnderflow (c : RangeCheck) : Bool := !c.over && c.under

/-- The six comparisons. -/
inductive Cmp | lt | le | gt | ge | eq | ne
deriving DecidableEq, Repr

/-- The built-in comparison of two values of one type. -/
def Cmp.test : Cmp → Int → Int → Bool
  | lt, a, b => decide (a < b)
  | le, a, b => decide (a ≤ b)
  | gt, a, b => decide (a > b)
  | ge, a, b => decide (a ≥ b)
  | eq, a, b => decide (a = b)
  | ne, a, b => decide (a ≠ b)

/-- `IsLess`, `IsLessOrEqual`, `IsGreater`, `IsGreaterOrEqual`, `IsEqual`, `IsNotEqual` (698-802). -/
def isCmp (c : Cmp) (l r : ITy) (x y : Int) : Bool :=
  match c with
  | .lt | .le => (rangeCheck r l x).isUnderflow || (rangeCheck l r y).isOverflow ||
      (decide (rangeCheck r l x = rangeCheck l r y) && c.test ((common l r).wrap x) ((common l r).wrap y))
  | .gt | .ge => (rangeCheck r l x).isOverflow || (rangeCheck l r y).isUnderflow ||
      (decide (rangeCheck r l x = rangeCheck l r y) && c.test ((common l r).wrap x) ((common l r).wrap y))
  | .eq => decide (rangeCheck r l x = rangeCheck l r y) && c.test ((common l r).wrap x) ((common l r).wrap y)
  | .ne => decide (rangeCheck r l x ≠ rangeCheck l r y) || c.test ((common l r).wrap x) ((common l r).wrap y)

/-- `MaxExponentPromotion` (455-472). -/
def mep (l r : ITy) : ITy := if l.maxExp > r.maxExp then l else r

/-- `LowestValuePromotion` (474-499). -/
def lvp (l r : ITy) : ITy :=
  if l.sg then (if r.sg then (if l.maxExp > r.maxExp then l else r) else l)
  else if r.sg then r else (if l.maxExp < r.maxExp then l else r)

/-- `BigEnoughPromotion` (501-541): the type and `is_contained`. -/
def bigEnough (l r : ITy) : ITy × Bool :=
  if contained (mep l r) l && contained (mep l r) r then (mep l r, true)
  else if (mep l r).bits = 64 then (mep l r, false)
  else (ofBits ((mep l r).bits * 2) (l.sg || r.sg), true)

/-- `SafeCompare` (806-819), the comparison of `StrictNumeric`s. -/
def safeCompare (c : Cmp) (l r : ITy) (x y : Int) : Bool :=
  if (bigEnough l r).2 then isCmp c (bigEnough l r).1 (bigEnough l r).1 ((bigEnough l r).1.wrap x) ((bigEnough l r).1.wrap y)
  else isCmp c l r x y

/-- `IsMaxInRangeForNumericType` (821-825) and `IsMinInRangeForNumericType` (827-831). -/
def isMaxInRange (dst src : ITy) : Bool := isCmp .ge dst src dst.hi src.hi
/-- `IsMinInRangeForNumericType` (827-831). -/
def isMinInRange (dst src : ITy) : Bool := isCmp .le dst src dst.lo src.lo

/-- `CommonMaxOrMin` (833-853). -/
def commonMaxOrMin (dst src : ITy) (isMin : Bool) : Int :=
  if isMin then (if !isMinInRange dst src then dst.lo else dst.wrap src.lo)
  else (if !isMaxInRange dst src then dst.hi else dst.wrap src.hi)

/-- `IsValueInRangeForNumericType<Dst>(value)` (safe_conversions.h:42-99), with the fast paths. -/
def isValueInRange (dst src : ITy) (v : Int) : Bool :=
  if dst.sg && src.sg && !contained dst src then decide (v = (common src dst).wrap (dst.wrap v))
  else if !dst.sg && src.sg && !contained dst src then decide (src.uns.wrap v ≤ src.uns.wrap (commonMaxOrMin src dst false))
  else (rangeCheck dst src v).isValid

/-- `checked_cast` (safe_conversions.h:101-115); `none` is the failure handler (the process is ended). -/
def checkedCast (dst src : ITy) (v : Int) : Option Int := if isValueInRange dst src v then some (dst.wrap v) else none

/-- `IsValueNegative` (safe_conversions_impl.h:49-62). -/
def isNeg (t : ITy) (v : Int) : Bool := t.sg && decide (v < 0)

/-- `SaturateFastOp::Do` (safe_conversions.h:179-198). -/
def saturateFast (dst src : ITy) (v : Int) : Int :=
  if isValueInRange dst src v then dst.wrap v
  else commonMaxOrMin dst src (isMaxInRange dst src || (!isMinInRange dst src && isNeg src v))

/-- `saturated_cast_impl` (safe_conversions.h:144-156). -/
def saturateSlow (dst src : ITy) (v : Int) : Int :=
  if !(rangeCheck dst src v).over then (if !(rangeCheck dst src v).under then dst.wrap v else dst.lo) else dst.hi

/-- `saturated_cast` (safe_conversions.h:200-219): the fast path, or for a value the compiler knows the slow one. -/
def saturatedCast (known : Bool) (dst src : ITy) (v : Int) : Int := if known then saturateSlow dst src v else saturateFast dst src v

/-! ### Proofs -/

theorem wrap_in (t : ITy) (v : Int) : In t (t.wrap v) := by
  unfold In wrap
  cases t <;> simp only [lo, hi, card] <;> omega

theorem wrap_id (t : ITy) (v : Int) (h : In t v) : t.wrap v = v := by
  unfold In at h
  unfold wrap
  cases t <;> simp only [lo, hi, card] at * <;> omega

theorem clamp_id (t : ITy) (v : Int) (h : In t v) : clamp t v = v := by
  unfold In at h
  unfold clamp
  rw [if_neg (by omega), if_neg (by omega)]

theorem in_of (a b : ITy) (v : Int) (h1 : a.lo ≤ b.lo) (h2 : b.hi ≤ a.hi) (h : In b v) : In a v := by
  unfold In at *
  omega

theorem contained_iff (dst src : ITy) : contained dst src = true ↔ dst.lo ≤ src.lo ∧ src.hi ≤ dst.hi := by
  cases dst <;> cases src <;> decide

theorem range_eq (a b c d : Bool) (h1 : a = c) (h2 : b = d) : (⟨a, b⟩ : RangeCheck) = ⟨c, d⟩ := by rw [h1, h2]

theorem common_us (dst src : ITy) (h1 : dst.sg = true) (h2 : src.sg = false) (h3 : contained dst src = false) :
    (common src dst).lo ≤ src.lo ∧ src.hi ≤ (common src dst).hi ∧ In (common src dst) dst.hi ∧ src.lo = 0 ∧ dst.lo < 0 := by
  revert h1 h2 h3
  cases dst <;> cases src <;> decide

theorem common_su (dst src : ITy) (h1 : dst.sg = false) (h2 : src.sg = true) :
    In (common src dst) src.hi ∧ In (common src dst) dst.hi ∧ dst.lo = 0 ∧
    (dst.hi < src.hi → (common src dst).lo ≤ src.lo ∧ src.hi ≤ (common src dst).hi) := by
  revert h1 h2
  cases dst <;> cases src <;> decide

theorem sign_lo (t : ITy) : (t.sg = true → t.lo < 0) ∧ (t.sg = false → t.lo = 0) ∧ 0 < t.hi := by
  cases t <;> decide

theorem rangeCheck_exact (dst src : ITy) (v : Int) (h : In src v) :
    rangeCheck dst src v = ⟨decide (v < dst.lo), decide (v > dst.hi)⟩ := by
  unfold rangeCheck mkRange
  by_cases hc : contained dst src = true
  · rw [if_pos hc]
    obtain ⟨h1, h2⟩ := (contained_iff dst src).1 hc
    have e := wrap_id dst v (in_of dst src v h1 h2 h)
    have hv := in_of dst src v h1 h2 h
    unfold In at h hv
    rw [e]
    apply range_eq
    · have : decide (v ≥ dst.lo) = true := by simpa using hv.1
      rw [this]; simp; omega
    · have : decide (v ≤ dst.hi) = true := by simpa using hv.2
      rw [this]; simp; omega
  · rw [if_neg hc]
    have hc' : contained dst src = false := by simpa using hc
    by_cases hd : dst.sg = true
    · rw [if_pos hd]
      by_cases hs : src.sg = true
      · rw [if_pos hs]
        apply range_eq <;> rw [Bool.eq_iff_iff] <;> simp
      · rw [if_neg hs]
        obtain ⟨h1, h2, h3, h4, h5⟩ := common_us dst src hd (by simpa using hs) hc'
        rw [wrap_id _ v (in_of _ src v h1 h2 h), wrap_id _ dst.hi h3]
        unfold In at h
        apply range_eq <;> rw [Bool.eq_iff_iff] <;> simp <;> omega
    · rw [if_neg hd]
      have hd' : dst.sg = false := by simpa using hd
      by_cases hs : src.sg = true
      · rw [if_pos hs]
        obtain ⟨h1, h2, h3, h4⟩ := common_su dst src hd' hs
        rw [wrap_id _ _ h1, wrap_id _ _ h2]
        by_cases hb : src.hi ≤ dst.hi
        · unfold In at h
          apply range_eq <;> rw [Bool.eq_iff_iff] <;> simp [h3, hb] <;> omega
        · obtain ⟨h5, h6⟩ := h4 (by omega)
          rw [wrap_id _ v (in_of _ src v h5 h6 h)]
          apply range_eq <;> rw [Bool.eq_iff_iff] <;> simp [h3, hb]
      · rw [if_neg hs]
        have := (sign_lo dst).2.1 hd'
        have h2 := (sign_lo src).2.1 (by simpa using hs)
        unfold In at h
        apply range_eq <;> rw [Bool.eq_iff_iff] <;> simp [this] <;> omega

/-- If neither value is outside the other's type, or both are in the same way, the common type keeps their order:
only a negative value compared with an unsigned type of at least its width is changed by the conversion. -/
theorem common_keeps (l r : ITy) (x y : Int) (hx : In l x) (hy : In r y)
    (h : ¬ (x < r.lo) ∧ ¬ (y < l.lo)) : (common l r).wrap x = x ∧ (common l r).wrap y = y := by
  have key : (common l r).hi ≥ l.hi ∧ (common l r).hi ≥ r.hi ∧ ((common l r).lo ≤ l.lo ∨ (common l r).lo ≤ r.lo) ∧
      (common l r).lo ≤ max l.lo r.lo := by
    cases l <;> cases r <;> decide
  unfold In at *
  constructor <;> apply wrap_id <;> unfold In <;> omega

theorem isCmp_exact (c : Cmp) (l r : ITy) (x y : Int) (hx : In l x) (hy : In r y) : isCmp c l r x y = c.test x y := by
  have e1 := rangeCheck_exact r l x hx
  have e2 := rangeCheck_exact l r y hy
  have hk := common_keeps l r x y hx hy
  unfold isCmp
  rw [e1, e2]
  unfold In at *
  by_cases hb : ¬ (x < r.lo) ∧ ¬ (y < l.lo)
  · obtain ⟨k1, k2⟩ := hk hb
    rw [k1, k2]
    obtain ⟨b1, b2⟩ := hb
    cases c <;> simp only [RangeCheck.isUnderflow, RangeCheck.isOverflow, Cmp.test, RangeCheck.mk.injEq, b1, b2, decide_false] <;>
      rw [Bool.eq_iff_iff] <;> simp <;> omega
  · have hno : ¬ (x < r.lo ∧ y < l.lo) := by omega
    cases c <;> simp only [RangeCheck.isUnderflow, RangeCheck.isOverflow, Cmp.test] <;> rw [Bool.eq_iff_iff] <;>
      simp only [Bool.or_eq_true, Bool.and_eq_true, decide_eq_true_eq, RangeCheck.mk.injEq, decide_eq_decide, Bool.not_eq_true',
        decide_eq_false_iff_not, ne_eq] <;> omega

theorem bigEnough_contains (l r : ITy) (h : (bigEnough l r).2 = true) :
    (bigEnough l r).1.lo ≤ l.lo ∧ l.hi ≤ (bigEnough l r).1.hi ∧ (bigEnough l r).1.lo ≤ r.lo ∧ r.hi ≤ (bigEnough l r).1.hi := by
  revert h
  cases l <;> cases r <;> decide

theorem max_min (dst src : ITy) : (isMaxInRange dst src = true ↔ src.hi ≤ dst.hi) ∧ (isMinInRange dst src = true ↔ dst.lo ≤ src.lo) := by
  have h : ∀ t : ITy, In t t.hi ∧ In t t.lo := by intro t; cases t <;> decide
  unfold isMaxInRange isMinInRange
  rw [isCmp_exact _ _ _ _ _ (h dst).1 (h src).1, isCmp_exact _ _ _ _ _ (h dst).2 (h src).2]
  simp [Cmp.test]

theorem commonMaxOrMin_exact (dst src : ITy) : commonMaxOrMin dst src false = min dst.hi src.hi ∧
    commonMaxOrMin dst src true = max dst.lo src.lo := by
  cases dst <;> cases src <;> decide +kernel

/-- **C131 (in range)**: `IsValueInRangeForNumericType` holds exactly for the values of the destination type. -/
theorem c131_in_range (dst src : ITy) (v : Int) (h : In src v) : isValueInRange dst src v = true ↔ In dst v := by
  unfold isValueInRange
  by_cases h1 : (dst.sg && src.sg && !contained dst src) = true
  · rw [if_pos h1, decide_eq_true_eq]
    have hc : (common src dst).lo ≤ dst.lo ∧ dst.hi ≤ (common src dst).hi := by
      revert h1; cases dst <;> cases src <;> decide
    have hw := wrap_in dst v
    rw [wrap_id _ _ (in_of _ dst _ hc.1 hc.2 hw)]
    constructor
    · intro e; rw [e]; exact hw
    · intro e; exact (wrap_id dst v e).symm
  · rw [if_neg h1]
    by_cases h2 : (!dst.sg && src.sg && !contained dst src) = true
    · rw [if_pos h2, decide_eq_true_eq, (commonMaxOrMin_exact src dst).1]
      unfold In at *
      clear h1
      revert h h2
      cases dst <;> cases src <;> intro h h2 <;> first | (exfalso; revert h2; decide) | (clear h2; simp only [uns, wrap, lo, hi, card] at *; omega)
    · rw [if_neg h2, rangeCheck_exact dst src v h]
      unfold RangeCheck.isValid In
      simp
      omega

/-- **C131 (checked_cast)**: it gives the value itself exactly if the destination type has it, and ends the process
otherwise. -/
theorem c131_checked_cast (dst src : ITy) (v : Int) (h : In src v) : checkedCast dst src v = if In dst v then some v else none := by
  unfold checkedCast
  by_cases hi : In dst v
  · rw [if_pos ((c131_in_range dst src v h).2 hi), if_pos hi, wrap_id dst v hi]
  · rw [if_neg (fun hc => hi ((c131_in_range dst src v h).1 hc)), if_neg hi]

/-- **C131 (saturated_cast)**: it gives the nearest value of the destination type, whether or not the compiler
knows the value. -/
theorem c131_saturated_cast (known : Bool) (dst src : ITy) (v : Int) (h : In src v) : saturatedCast known dst src v = clamp dst v := by
  unfold saturatedCast
  cases known with
  | true =>
    rw [if_pos rfl]
    unfold saturateSlow clamp
    rw [rangeCheck_exact dst src v h]
    have := (sign_lo dst).2.2
    have hl : dst.lo ≤ 0 := by cases dst <;> decide
    by_cases h1 : v < dst.lo
    · have : ¬ v > dst.hi := by omega
      simp [h1, this]
    · by_cases h2 : v > dst.hi
      · simp [h1, h2]
      · simp [h1, h2, wrap_id dst v ⟨by omega, by omega⟩]
  | false =>
    rw [if_neg (by decide)]
    unfold saturateFast
    have hmm := max_min dst src
    have hs := sign_lo src
    have hd := sign_lo dst
    by_cases hi : In dst v
    · rw [if_pos ((c131_in_range dst src v h).2 hi), wrap_id dst v hi, clamp_id dst v hi]
    · rw [if_neg (fun hc => hi ((c131_in_range dst src v h).1 hc))]
      have hl : ∀ t : ITy, t.lo ≤ 0 := by intro t; cases t <;> decide
      have hld := hl dst
      have hls := hl src
      unfold In at h hi
      unfold clamp
      by_cases h1 : v < dst.lo
      · rw [if_pos h1]
        have hneg : v < 0 := by omega
        have hsg : src.sg = true := by
          cases hq : src.sg with
          | true => rfl
          | false => have := hs.2.1 hq; omega
        have e : (isMaxInRange dst src || (!isMinInRange dst src && isNeg src v)) = true := by
          have : isMinInRange dst src = false := by
            cases hq : isMinInRange dst src with
            | false => rfl
            | true => have := hmm.2.1 hq; omega
          rw [this]
          unfold isNeg
          simp [hsg, hneg]
        rw [e, (commonMaxOrMin_exact dst src).2]
        omega
      · have h2 : v > dst.hi := by omega
        rw [if_neg h1, if_pos h2]
        have e : (isMaxInRange dst src || (!isMinInRange dst src && isNeg src v)) = false := by
          have e1 : isMaxInRange dst src = false := by
            cases hq : isMaxInRange dst src with
            | false => rfl
            | true => have := hmm.1.1 hq; omega
          have e2 : isNeg src v = false := by
            unfold isNeg
            have : ¬ v < 0 := by omega
            simp [this]
          rw [e1, e2]
          simp
        rw [e, (commonMaxOrMin_exact dst src).1]
        omega

/-- **C131 (comparisons)**: comparing values of any two integer types gives the comparison of the numbers. -/
theorem c131_compare (c : Cmp) (l r : ITy) (x y : Int) (hx : In l x) (hy : In r y) :
    isCmp c l r x y = c.test x y ∧ safeCompare c l r x y = c.test x y := by
  refine ⟨isCmp_exact c l r x y hx hy, ?_⟩
  unfold safeCompare
  by_cases hb : (bigEnough l r).2 = true
  · rw [if_pos hb]
    obtain ⟨h1, h2, h3, h4⟩ := bigEnough_contains l r hb
    have ix := in_of _ l x h1 h2 hx
    have iy := in_of _ r y h3 h4 hy
    rw [wrap_id _ x ix, wrap_id _ y iy]
    exact isCmp_exact c _ _ x y ix iy
  · rw [if_neg hb]
    exact isCmp_exact c l r x y hx hy

/-- **C131 (containment)**: a type is contained in another, for `strict_cast` and `StrictNumeric`, exactly if all its
values are values of the other. -/
theorem c131_contained (dst src : ITy) : contained dst src = true ↔ ∀ v, In src v → In dst v := by
  rw [contained_iff]
  constructor
  · intro h v hv; exact in_of dst src v h.1 h.2 hv
  · intro h
    have a : In src src.lo ∧ In src src.hi := by cases src <;> decide
    exact ⟨(h _ a.1).1, (h _ a.2).2⟩

/-! ### Examples -/

/-- -1 is less than 0u; 300 saturates to 255; -5 is not in range for uint64; the built-in comparison is wrong. -/
example : isCmp .lt .i32 .u32 (-1) 0 = true ∧ Cmp.test .lt ((common .i32 .u32).wrap (-1)) ((common .i32 .u32).wrap 0) = false ∧
    saturatedCast false .u8 .i32 300 = 255 ∧ saturatedCast false .u8 .i32 (-300) = 0 ∧ saturatedCast false .i8 .u64 (2 ^ 63) = 127 ∧
    isValueInRange .u64 .i64 (-5) = false ∧ checkedCast .i16 .i64 (-32768) = some (-32768) ∧ checkedCast .i16 .i64 32768 = none := by
  decide +kernel

end Ltio.Num
