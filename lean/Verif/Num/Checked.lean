import Verif.Num.Conv
import Mathlib.Tactic.Ring
import Mathlib.Tactic.Positivity
import Mathlib.Tactic.ByContra
import Mathlib.Algebra.Order.Ring.Int

/-
base/numerics/checked_math.h and checked_math_impl.h for the integer types, with the built-in overflow checks of gcc
(safe_math_clang_gcc_impl.h:66-103; `__builtin_{add,sub,mul}_overflow` by their documentation: the operation in
infinite precision, failure if the result type does not have the value).

A `CheckedNumeric<T>` is `some v` with `v` of type `T` if it is valid and `none` otherwise: the value of an invalid
one is not available to a user (checked_math.h:72-80).
-/
namespace Ltio.Num
open ITy

/-- The binary operations. -/
inductive Op | add | sub | mul | div | mod | lsh | rsh | and | or | xor | max | min
deriving DecidableEq, Repr

/-- `!__builtin_add_overflow(x, y, result)` with the exact result `v`. -/
def builtin (V : ITy) (v : Int) : Option Int := if In V v then some v else none

/-- `if (!IsValueInRangeForNumericType<V>(presult)) return false; *result = static_cast<V>(presult)`. -/
def store (V P : ITy) (p : Int) : Option Int := if isValueInRange V P p then some (V.wrap p) else none

/-- The check of `lowest / -1` (checked_math_impl.h:236-242, 275-281). -/
def minByMinusOne (T U : ITy) (x y : Int) : Bool :=
  T.sg && U.sg && contained T (bigEnough T U).1 && decide ((bigEnough T U).1.wrap x = (bigEnough T U).1.lo) && decide (y = U.wrap (-1))

/-- `CheckedDivOp::Do` (216-257). -/
def divDo (T U V : ITy) (x y : Int) : Option Int :=
  if y = 0 then none
  else if minByMinusOne T U x y then none
  else if (!isValueInRange (bigEnough T U).1 T x || !isValueInRange (bigEnough T U).1 U y) && decide (x ≠ 0) then none
  else store V (bigEnough T U).1 ((bigEnough T U).1.wrap (((bigEnough T U).1.wrap x).tdiv ((bigEnough T U).1.wrap y)))

/-- `CheckedModOp::Do` (262-292). -/
def modDo (T U V : ITy) (x y : Int) : Option Int :=
  if y = 0 then none
  else if minByMinusOne T U x y then some 0
  else store V (bigEnough T U).1 ((bigEnough T U).1.wrap (((bigEnough T U).1.wrap x).tmod ((bigEnough T U).1.wrap y)))

/-- `CheckedLshOp::Do` (300-327); the destination is of type `T` in all uses. -/
def lshDo (T U : ITy) (x s : Int) : Option Int :=
  if (!isNeg T x && decide (U.uns.wrap s < T.digits)) = true then
    (if T.wrap (T.uns.promote.wrap (T.uns.wrap x * 2 ^ s.toNat)) / 2 ^ s.toNat = x
      then some (T.wrap (T.uns.promote.wrap (T.uns.wrap x * 2 ^ s.toNat))) else none)
  else if (!T.sg || decide (x ≠ 0) || decide (U.uns.wrap s ≠ T.digits)) = true then none else some 0

/-- `CheckedRshOp::Do` (335-355). -/
def rshDo (T U V : ITy) (x s : Int) : Option Int :=
  if U.uns.wrap s ≥ T.bits then none else store V T (T.wrap (x / 2 ^ s.toNat))

/-- `CheckedAndOp`, `CheckedOrOp` and `CheckedXorOp::Do` (361-422). -/
def bitDo (f : Nat → Nat → Nat) (T U V : ITy) (x y : Int) : Option Int :=
  store V (mep T U).uns (f ((mep T U).uns.wrap x).toNat ((mep T U).uns.wrap y).toNat : Nat)

/-- `CheckedMaxOp::Do` (429-446). -/
def maxDo (T U V : ITy) (x y : Int) : Option Int :=
  store V (mep T U) (if isCmp .gt T U x y then (mep T U).wrap x else (mep T U).wrap y)

/-- `CheckedMinOp::Do` (453-470). -/
def minDo (T U V : ITy) (x y : Int) : Option Int :=
  store V (lvp T U) (if isCmp .lt T U x y then (lvp T U).wrap x else (lvp T U).wrap y)

/-- `Checked*Op<T, U>::Do<V>(x, y, &result)`: the result, `none` if it returns false. -/
def doOp (op : Op) (T U V : ITy) (x y : Int) : Option Int :=
  match op with
  | .add => builtin V (x + y)
  | .sub => builtin V (x - y)
  | .mul => builtin V (x * y)
  | .div => divDo T U V x y
  | .mod => modDo T U V x y
  | .lsh => lshDo T U x y
  | .rsh => rshDo T U V x y
  | .and => bitDo (· &&& ·) T U V x y
  | .or => bitDo (· ||| ·) T U V x y
  | .xor => bitDo (· ^^^ ·) T U V x y
  | .max => maxDo T U V x y
  | .min => minDo T U V x y

/-- `result_type` of the operations. -/
def resultType (op : Op) (T U : ITy) : ITy :=
  match op with
  | .add | .sub | .mul | .div | .mod | .max => mep T U
  | .lsh | .rsh => T
  | .and | .or | .xor => (mep T U).uns
  | .min => lvp T U

/-- A checked expression: a value, a conversion (`CheckedNumeric<T>(e)`, `Cast<T>`), a binary operator or `Check*`
call, a compound assignment (whose result is kept in the left operand's type), negation, absolute value. -/
inductive Expr
  | lit (t : ITy) (v : Int)
  | cast (t : ITy) (e : Expr)
  | bin (op : Op) (a b : Expr)
  | asg (op : Op) (a b : Expr)
  | neg (a : Expr)
  | abs (a : Expr)
  | uabs (a : Expr)

/-- The type of the `CheckedNumeric`. -/
def Expr.ty : Expr → ITy
  | lit t _ => t
  | cast t _ => t
  | bin op a b => resultType op a.ty b.ty
  | asg _ a _ => a.ty
  | neg a => a.ty
  | abs a => a.ty
  | uabs a => a.ty.uns

/-- `CheckedNumeric<T>(value, is_valid)` and `CheckedNumeric<T>(CheckedNumeric<Src>)` (checked_math.h:32-45,
checked_math_impl.h:528-537). -/
def conv (t src : ITy) (v : Option Int) : Option Int := v.bind (fun x => if isValueInRange t src x then some (t.wrap x) else none)

/-- `NegateWrapper` (safe_math_shared_impl.h:140-146). -/
def negateWrapper (t : ITy) (x : Int) : Int := t.wrap (t.uns.wrap (0 - t.uns.wrap x))

/-- `operator-` (checked_math.h:136-148). -/
def negDo (t : ITy) (x : Int) : Option Int :=
  conv t t (if (!t.sg || decide (negateWrapper t x ≠ t.lo)) = true then some (negateWrapper t x) else none)

/-- `SafeUnsignedAbs` (safe_conversions_impl.h:78-86). -/
def safeUnsignedAbs (t : ITy) (x : Int) : Int := if isNeg t x then t.uns.wrap (0 - t.uns.wrap x) else t.uns.wrap x

/-- `MathOp` (checked_math.h:206-231), for both forms: both operands valid and `Do` true. -/
def mathOp (op : Op) (T U V : ITy) (x y : Option Int) : Option Int :=
  x.bind (fun x => y.bind (fun y => conv V V (doOp op T U V x y)))

/-- The value of a checked expression. -/
def Expr.eval : Expr → Option Int
  | lit t v => conv t t (some v)
  | cast t e => conv t e.ty e.eval
  | bin op a b => mathOp op a.ty b.ty (resultType op a.ty b.ty) a.eval b.eval
  | asg op a b => mathOp op a.ty b.ty a.ty a.eval b.eval
  | neg a => a.eval.bind (negDo a.ty)
  | abs a => a.eval.bind (fun x => if !isNeg a.ty x then some x else negDo a.ty x)
  | uabs a => conv a.ty.uns a.ty.uns (a.eval.map (safeUnsignedAbs a.ty))

/-- `operator~` (checked_math.h:150-153) of a valid number. -/
def notDo (t : ITy) (x : Int) : Option Int := conv t t.uns (some (t.uns.wrap (-x - 1)))

/-- `AssignIfValid<Dst>` (checked_math.h:63-77): what is assigned. -/
def assignIfValid (dst src : ITy) (x : Option Int) : Option Int :=
  x.bind (fun v => if isValueInRange dst src v then some (dst.wrap v) else none)

/-! ### Specification -/

/-- The mathematical operation on integers, `none` where it has no result: division by zero, shifts by negative
amounts or by at least the width, left shifts of negative numbers. -/
def exact (op : Op) (width : Nat) (x y : Int) : Option Int :=
  match op with
  | .add => some (x + y)
  | .sub => some (x - y)
  | .mul => some (x * y)
  | .div => if y = 0 then none else some (x.tdiv y)
  | .mod => if y = 0 then none else some (x.tmod y)
  | .lsh => if 0 ≤ x ∧ 0 ≤ y ∧ y < width then some (x * 2 ^ y.toNat) else none
  | .rsh => if 0 ≤ y ∧ y < width then some (x / 2 ^ y.toNat) else none
  | .and => some (x.toNat &&& y.toNat : Nat)
  | .or => some (x.toNat ||| y.toNat : Nat)
  | .xor => some (x.toNat ^^^ y.toNat : Nat)
  | .max => some (if x > y then x else y)
  | .min => some (if x < y then x else y)

/-- The result if the type has it. -/
def fit (V : ITy) (r : Option Int) : Option Int := r.bind (fun v => if In V v then some v else none)

/-- The operands the theorems below are about: division and remainder not between a signed type and uint64 (see
`c132_mod_violated`, `c132_div_violated`) unless both numbers are nonnegative; bit operations on nonnegative
numbers. -/
def Fine (op : Op) (T U : ITy) (x y : Int) : Prop :=
  match op with
  | .div | .mod => (bigEnough T U).2 = true ∨ (0 ≤ x ∧ 0 ≤ y)
  | .and | .or | .xor => 0 ≤ x ∧ 0 ≤ y
  | _ => True

/-! ### Proofs -/

theorem store_exact (V P : ITy) (p : Int) (h : In P p) : store V P p = fit V (some p) := by
  unfold store fit
  show _ = if In V p then some p else none
  by_cases hi : In V p
  · rw [if_pos ((c131_in_range V P p h).2 hi), if_pos hi, wrap_id V p hi]
  · rw [if_neg (fun hc => hi ((c131_in_range V P p h).1 hc)), if_neg hi]

theorem big_in (T U : ITy) (x y : Int) (hx : In T x) (hy : In U y) (h : (bigEnough T U).2 = true ∨ (0 ≤ x ∧ 0 ≤ y)) :
    In (bigEnough T U).1 x ∧ In (bigEnough T U).1 y := by
  rcases h with h | h
  · obtain ⟨h1, h2, h3, h4⟩ := bigEnough_contains T U h
    exact ⟨in_of _ _ _ h1 h2 hx, in_of _ _ _ h3 h4 hy⟩
  · have : T.hi ≤ (bigEnough T U).1.hi ∧ U.hi ≤ (bigEnough T U).1.hi ∧ (bigEnough T U).1.lo ≤ 0 := by
      cases T <;> cases U <;> decide
    unfold In at *
    omega

/-- The smallest number by -1 is the only overflow of a division. -/
theorem tdiv_in (P : ITy) (x y : Int) (hx : In P x) (hy : y ≠ 0) (h : ¬ (P.sg = true ∧ x = P.lo ∧ y = -1)) (hy2 : In P y) :
    In P (x.tdiv y) := by
  have hb : (x.tdiv y).natAbs ≤ x.natAbs := by
    rw [Int.natAbs_tdiv]
    exact Nat.div_le_self _ _
  have hsgn : 0 ≤ x → 0 ≤ y → 0 ≤ x.tdiv y := fun a b => Int.tdiv_nonneg a b
  have hlt : x < 0 → y < 0 → 0 ≤ x.tdiv y := fun a b => Int.tdiv_nonneg_of_nonpos_of_nonpos (by omega) (by omega)
  have hcap : x = P.lo → P.sg = true → y ≠ -1 → (x.tdiv y).natAbs < x.natAbs ∨ y = 1 := by
    intro hxl hsg h1
    by_cases hy1 : y = 1
    · exact Or.inr hy1
    · left
      rw [Int.natAbs_tdiv]
      apply Nat.div_lt_self
      · have := (sign_lo P).1 hsg; omega
      · omega
  cases hq : P.sg with
  | false =>
    have h0 := (sign_lo P).2.1 hq
    unfold In at *
    have := hsgn (by omega) (by omega)
    omega
  | true =>
    have hlo : P.lo = -P.hi - 1 := by
      revert hq; cases P <;> decide
    have hhi := (sign_lo P).2.2
    unfold In at *
    by_cases hxl : x = P.lo
    · have h1 : y ≠ -1 := fun e => h ⟨hq, hxl, e⟩
      rcases hcap hxl hq h1 with hh | hh
      · omega
      · subst hh
        rw [Int.tdiv_one]
        omega
    · omega

theorem tmod_in (P : ITy) (x y : Int) (hx : In P x) : In P (x.tmod y) := by
  have h1 : (x.tmod y).natAbs ≤ x.natAbs := by
    rw [Int.natAbs_tmod]
    exact Nat.mod_le _ _
  have h2 : 0 ≤ x → 0 ≤ x.tmod y := Int.tmod_nonneg y
  have h3 : x ≤ 0 → x.tmod y ≤ 0 := by
    intro h
    have := Int.tmod_nonneg (a := -x) y (by omega)
    rw [Int.neg_tmod] at this
    omega
  have := (sign_lo P).2.2
  have hl : P.lo ≤ 0 := by cases P <;> decide
  unfold In at *
  omega

theorem minBy_iff (T U : ITy) (x y : Int) (hx : In T x) (hy : In U y) : minByMinusOne T U x y = true ↔
    T.sg = true ∧ U.sg = true ∧ (bigEnough T U).1 = T ∧ x = T.lo ∧ y = -1 := by
  unfold minByMinusOne
  simp only [Bool.and_eq_true, decide_eq_true_eq]
  constructor
  · rintro ⟨⟨⟨⟨h1, h2⟩, h3⟩, h4⟩, h5⟩
    have hP : (bigEnough T U).1 = T := by
      revert h1 h2 h3; cases T <;> cases U <;> decide
    have hm : In U (-1) := by revert h2; cases U <;> decide
    rw [hP, wrap_id T x hx] at h4
    rw [wrap_id U _ hm] at h5
    exact ⟨h1, h2, hP, h4, h5⟩
  · rintro ⟨h1, h2, h3, h4, h5⟩
    have hm : In U (-1) := by revert h2; cases U <;> decide
    rw [h3, wrap_id T x hx, wrap_id U _ hm]
    refine ⟨⟨⟨⟨h1, h2⟩, ?_⟩, h4⟩, h5⟩
    cases T <;> decide

theorem big_signed (T U : ITy) (h : (bigEnough T U).1.sg = true) (x y : Int) (hx : In T x) (hy : In U y) (hxl : x = (bigEnough T U).1.lo) :
    T.sg = true ∧ (bigEnough T U).1 = T := by
  subst hxl
  revert h hx
  cases T <;> cases U <;> decide

theorem div_exact (T U V : ITy) (hV : V = mep T U ∨ V = T) (x y : Int) (hx : In T x) (hy : In U y)
    (hf : (bigEnough T U).2 = true ∨ (0 ≤ x ∧ 0 ≤ y)) :
    divDo T U V x y = fit V (exact .div T.bits x y) := by
  unfold divDo exact
  by_cases h0 : y = 0
  · rw [if_pos h0]; simp [h0, fit]
  · rw [if_neg h0]
    simp only [if_neg h0]
    obtain ⟨ix, iy⟩ := big_in T U x y hx hy hf
    by_cases hm : minByMinusOne T U x y = true
    · rw [if_pos hm]
      obtain ⟨h1, h2, h3, h4, h5⟩ := (minBy_iff T U x y hx hy).1 hm
      have hq : x.tdiv y = T.hi + 1 := by
        rw [h4, h5, Int.tdiv_neg, Int.tdiv_one]
        revert h1; cases T <;> decide
      have hVT : V.hi ≤ T.hi := by
        revert h1 h2 h3
        rcases hV with rfl | rfl
        · cases T <;> cases U <;> decide
        · intros; omega
      have hno : ¬ In V (x.tdiv y) := by
        unfold In
        rw [hq]; omega
      simp [fit, hno]
    · rw [if_neg hm]
      have r1 := (c131_in_range (bigEnough T U).1 T x hx).2 ix
      have r2 := (c131_in_range (bigEnough T U).1 U y hy).2 iy
      rw [if_neg (by rw [r1, r2]; simp), wrap_id _ _ ix, wrap_id _ _ iy]
      have hin : In (bigEnough T U).1 (x.tdiv y) := by
        apply tdiv_in _ _ _ ix h0 _ iy
        rintro ⟨a, b, c⟩
        obtain ⟨h1, h3⟩ := big_signed T U a x y hx hy b
        have hU : U.sg = true := by
          cases hq : U.sg with
          | true => rfl
          | false =>
            have := (sign_lo U).2.1 hq
            unfold In at hy
            omega
        exact hm ((minBy_iff T U x y hx hy).2 ⟨h1, hU, h3, by rw [← h3]; exact b, c⟩)
      rw [wrap_id _ _ hin]
      exact store_exact V _ _ hin

theorem mod_exact (T U V : ITy) (x y : Int) (hx : In T x) (hy : In U y) (hf : (bigEnough T U).2 = true ∨ (0 ≤ x ∧ 0 ≤ y)) :
    modDo T U V x y = fit V (exact .mod T.bits x y) := by
  unfold modDo exact
  by_cases h0 : y = 0
  · rw [if_pos h0]; simp [h0, fit]
  · rw [if_neg h0]
    simp only [if_neg h0]
    obtain ⟨ix, iy⟩ := big_in T U x y hx hy hf
    by_cases hm : minByMinusOne T U x y = true
    · rw [if_pos hm]
      obtain ⟨h1, h2, h3, h4, h5⟩ := (minBy_iff T U x y hx hy).1 hm
      have hq : x.tmod y = 0 := by rw [h5, Int.tmod_neg, Int.tmod_one]
      have h0 : In V 0 := by cases V <;> decide
      rw [hq]
      simp [fit, h0]
    · rw [if_neg hm, wrap_id _ _ ix, wrap_id _ _ iy]
      have hin := tmod_in (bigEnough T U).1 x y ix
      rw [wrap_id _ _ hin]
      exact store_exact V _ _ hin

theorem in_iff_wrap (t : ITy) (v : Int) : In t v ↔ t.wrap v = v :=
  ⟨wrap_id t v, fun h => by rw [← h]; exact wrap_in t v⟩

theorem card_pow (t : ITy) : t.card = 2 ^ t.bits := by cases t <;> decide

theorem wrap_shift (t : ITy) (v : Int) : ∃ k : Int, t.wrap v = v - t.card * k := by
  unfold wrap
  refine ⟨(v - t.lo) / t.card, ?_⟩
  have := Int.emod_add_mul_ediv (v - t.lo) t.card
  omega

theorem wrap_sub_mul (t : ITy) (v k : Int) : t.wrap (v - t.card * k) = t.wrap v := by
  unfold wrap
  have : v - t.card * k - t.lo = v - t.lo + t.card * (-k) := by
    rw [Int.mul_neg]; omega
  rw [this, Int.add_mul_emod_self_left]

/-- Shifting in a wider type and cutting is shifting in the type. -/
theorem wrap_wrap (t : ITy) (v : Int) : t.wrap (t.uns.promote.wrap v) = t.wrap v := by
  obtain ⟨k, hk⟩ := wrap_shift t.uns.promote v
  have hc : ∃ m : Int, t.uns.promote.card = t.card * m := by
    cases t
    · exact ⟨16777216, by decide⟩
    · exact ⟨16777216, by decide⟩
    · exact ⟨65536, by decide⟩
    · exact ⟨65536, by decide⟩
    all_goals exact ⟨1, by decide⟩
  obtain ⟨m, hm⟩ := hc
  rw [hk, hm, Int.mul_assoc, wrap_sub_mul]

/-- A shift within the width can be undone exactly if the type has the result. -/
theorem shift_back (t : ITy) (x : Int) (n : Nat) (hn : n < t.bits) : t.wrap (x * 2 ^ n) / 2 ^ n = x ↔ In t (x * 2 ^ n) := by
  have hp : (0 : Int) < 2 ^ n := by positivity
  rw [in_iff_wrap]
  constructor
  · intro h
    obtain ⟨k, hk⟩ := wrap_shift t (x * 2 ^ n)
    have hc : t.card = 2 ^ n * 2 ^ (t.bits - n) := by
      rw [card_pow, ← pow_add, Nat.add_sub_cancel' (by omega)]
    rw [hk] at h ⊢
    have e : x * 2 ^ n - t.card * k = (x - 2 ^ (t.bits - n) * k) * 2 ^ n := by
      rw [hc]; ring
    rw [e, Int.mul_ediv_cancel _ (by omega)] at h
    have hk0 : (2 : Int) ^ (t.bits - n) * k = 0 := by omega
    rw [hc, Int.mul_assoc, hk0]
    omega
  · intro h
    rw [h, Int.mul_ediv_cancel _ (by omega)]

theorem amount_iff (U : ITy) (s : Int) (n : Nat) (hn : n ≤ 64) (hs : In U s) : U.uns.wrap s < n ↔ 0 ≤ s ∧ s < n := by
  unfold In at hs
  unfold wrap
  cases U <;> simp only [uns, lo, hi, card] at * <;> omega

theorem amount_eq (U : ITy) (s : Int) (n : Nat) (hn : n ≤ 64) (hs : In U s) : U.uns.wrap s = n ↔ s = n := by
  unfold In at hs
  unfold wrap
  cases U <;> simp only [uns, lo, hi, card] at * <;> omega

theorem isNeg_iff (t : ITy) (x : Int) (hx : In t x) : isNeg t x = true ↔ x < 0 := by
  unfold isNeg
  rw [Bool.and_eq_true, decide_eq_true_eq]
  constructor
  · exact fun h => h.2
  · intro h
    refine ⟨?_, h⟩
    cases hq : t.sg with
    | true => rfl
    | false =>
      have := (sign_lo t).2.1 hq
      unfold In at hx
      omega

theorem uns_id (t : ITy) (x : Int) (hx : In t x) (h : 0 ≤ x) : t.uns.wrap x = x := by
  apply wrap_id
  unfold In at *
  have : t.uns.lo = 0 ∧ t.hi ≤ t.uns.hi := by cases t <;> decide
  omega

theorem hi_digits (t : ITy) : t.hi = 2 ^ t.digits - 1 ∧ t.digits ≤ 64 ∧ t.bits ≤ 64 := by cases t <;> decide

theorem lsh_exact (T U : ITy) (x s : Int) (hx : In T x) (hs : In U s) : lshDo T U x s = fit T (exact .lsh T.bits x s) := by
  obtain ⟨hh, hd, hb⟩ := hi_digits T
  unfold lshDo exact
  by_cases h1 : (!isNeg T x && decide (U.uns.wrap s < T.digits)) = true
  · rw [if_pos h1]
    rw [Bool.and_eq_true, decide_eq_true_eq, Bool.not_eq_true'] at h1
    obtain ⟨a, b⟩ := h1
    have hx0 : 0 ≤ x := by
      by_contra hc
      have := (isNeg_iff T x hx).2 (by omega)
      rw [this] at a; simp at a
    obtain ⟨s0, s1⟩ := (amount_iff U s _ hd hs).1 b
    have hdb : T.digits ≤ T.bits := by cases T <;> decide
    rw [uns_id T x hx hx0, wrap_wrap]
    have hc : 0 ≤ x ∧ 0 ≤ s ∧ s < T.bits := ⟨hx0, s0, by omega⟩
    simp only [if_pos hc]
    have key := shift_back T x s.toNat (by omega)
    by_cases hi : In T (x * 2 ^ s.toNat)
    · rw [if_pos (key.2 hi), wrap_id _ _ hi]
      simp [fit, hi]
    · rw [if_neg (fun hq => hi (key.1 hq))]
      simp [fit, hi]
  · rw [if_neg h1]
    have hneg : isNeg T x = true ∨ ¬ (0 ≤ s ∧ s < T.digits) := by
      rw [← amount_iff U s _ hd hs]
      by_contra hcc
      apply h1
      simp only [not_or, not_not, Bool.not_eq_true] at hcc
      simp [hcc.1, hcc.2]
    by_cases h2 : (!T.sg || decide (x ≠ 0) || decide (U.uns.wrap s ≠ T.digits)) = true
    · rw [if_pos h2]
      by_cases hc : 0 ≤ x ∧ 0 ≤ s ∧ s < T.bits
      · simp only [if_pos hc]
        have hnn : ¬ isNeg T x = true := fun h => by have := (isNeg_iff T x hx).1 h; omega
        have hsd : ¬ (0 ≤ s ∧ s < T.digits) := by
          rcases hneg with h | h
          · exact absurd h hnn
          · exact h
        -- `digits ≤ s < bits`: signed, `s = digits`
        have hsg : T.sg = true ∧ s = T.digits := by
          unfold digits at hsd ⊢
          cases hq : T.sg with
          | true => rw [hq] at hsd; simp at hsd ⊢; omega
          | false => rw [hq] at hsd; simp at hsd; omega
        have hx1 : x ≠ 0 := by
          intro hx0
          have e := (amount_eq U s _ hd hs).2 hsg.2
          rw [hsg.1, hx0, e] at h2
          simp at h2
        have hs2 : s.toNat = T.digits := by omega
        have hno : ¬ In T (x * 2 ^ s.toNat) := by
          unfold In
          rw [hs2]
          have hp : (0 : Int) < 2 ^ T.digits := by positivity
          have : 1 * 2 ^ T.digits ≤ x * 2 ^ T.digits := Int.mul_le_mul_of_nonneg_right (by omega) (by omega)
          omega
        simp [fit, hno]
      · simp only [if_neg hc]
        rfl
    · rw [if_neg h2]
      simp only [Bool.or_eq_true, Bool.not_eq_true', decide_eq_true_eq, not_or, ne_eq, not_not, Bool.not_eq_false] at h2
      obtain ⟨⟨a, b⟩, c⟩ := h2
      have e := (amount_eq U s _ hd hs).1 c
      have hdb : T.digits < T.bits := by
        revert a; cases T <;> decide
      have hc : 0 ≤ x ∧ 0 ≤ s ∧ s < T.bits := by omega
      simp only [if_pos hc]
      have h0 : In T 0 := by cases T <;> decide
      subst b
      simp [fit, h0]

theorem shr_in (T : ITy) (x : Int) (n : Nat) (hx : In T x) : In T (x / 2 ^ n) := by
  have hp : (0 : Int) < 2 ^ n := by positivity
  have hl : T.lo ≤ 0 := by cases T <;> decide
  have hh := (sign_lo T).2.2
  unfold In at *
  constructor
  · rw [Int.le_ediv_iff_mul_le hp]
    have : T.lo * 2 ^ n ≤ T.lo * 1 := Int.mul_le_mul_of_nonpos_left hl (by omega)
    omega
  · have := Int.ediv_lt_iff_lt_mul (a := x) (b := T.hi + 1) hp
    have h2 : (T.hi + 1) * 1 ≤ (T.hi + 1) * 2 ^ n := Int.mul_le_mul_of_nonneg_left (by omega) (by omega)
    have := this.2 (by omega)
    omega

theorem rsh_exact (T U V : ITy) (x s : Int) (hx : In T x) (hs : In U s) : rshDo T U V x s = fit V (exact .rsh T.bits x s) := by
  obtain ⟨hh, hd, hb⟩ := hi_digits T
  have ha := amount_iff U s _ hb hs
  unfold rshDo exact
  by_cases h : U.uns.wrap s ≥ T.bits
  · rw [if_pos h]
    have : ¬ (0 ≤ s ∧ s < T.bits) := fun hc => by have := ha.2 hc; omega
    simp [this, fit]
  · rw [if_neg h]
    have hc := ha.1 (by omega)
    have hi := shr_in T x s.toNat hx
    simp only [if_pos hc]
    rw [wrap_id _ _ hi]
    exact store_exact V T _ hi

theorem bit_exact (f : Nat → Nat → Nat) (hf : ∀ n a b, a < 2 ^ n → b < 2 ^ n → f a b < 2 ^ n) (T U V : ITy) (x y : Int)
    (hx : In T x) (hy : In U y) (h : 0 ≤ x ∧ 0 ≤ y) : bitDo f T U V x y = fit V (some (f x.toNat y.toNat : Nat)) := by
  unfold bitDo
  have hst : T.hi ≤ (mep T U).uns.hi ∧ U.hi ≤ (mep T U).uns.hi ∧ (mep T U).uns.lo = 0 ∧ (mep T U).uns.hi = 2 ^ (mep T U).bits - 1 := by
    cases T <;> cases U <;> decide
  obtain ⟨s1, s2, s3, s4⟩ := hst
  have ix : In (mep T U).uns x := by unfold In at *; omega
  have iy : In (mep T U).uns y := by unfold In at *; omega
  rw [wrap_id _ _ ix, wrap_id _ _ iy]
  apply store_exact
  have e : ((2 ^ (mep T U).bits : Nat) : Int) = 2 ^ (mep T U).bits := by push_cast; rfl
  have := hf (mep T U).bits x.toNat y.toNat (by unfold In at *; omega) (by unfold In at *; omega)
  unfold In
  omega

theorem max_exact (T U V : ITy) (x y : Int) (hx : In T x) (hy : In U y) : maxDo T U V x y = fit V (some (if x > y then x else y)) := by
  unfold maxDo
  rw [(c131_compare .gt T U x y hx hy).1]
  have hst : T.hi ≤ (mep T U).hi ∧ U.hi ≤ (mep T U).hi ∧ (mep T U).lo ≤ max T.lo U.lo := by
    cases T <;> cases U <;> decide
  obtain ⟨s1, s2, s3⟩ := hst
  have hl : T.lo ≤ 0 ∧ U.lo ≤ 0 := by cases T <;> cases U <;> decide
  unfold Cmp.test
  by_cases h : x > y
  · rw [if_pos (by simpa using h)]
    simp only [if_pos h]
    have ix : In (mep T U) x := by unfold In at *; omega
    rw [wrap_id _ _ ix]
    exact store_exact V _ _ ix
  · rw [if_neg (by simpa using h)]
    simp only [if_neg h]
    have iy : In (mep T U) y := by unfold In at *; omega
    rw [wrap_id _ _ iy]
    exact store_exact V _ _ iy

theorem min_exact (T U V : ITy) (x y : Int) (hx : In T x) (hy : In U y) : minDo T U V x y = fit V (some (if x < y then x else y)) := by
  unfold minDo
  rw [(c131_compare .lt T U x y hx hy).1]
  have hst : (lvp T U).lo ≤ T.lo ∧ (lvp T U).lo ≤ U.lo ∧ min T.hi U.hi ≤ (lvp T U).hi := by
    cases T <;> cases U <;> decide
  obtain ⟨s1, s2, s3⟩ := hst
  unfold Cmp.test
  by_cases h : x < y
  · rw [if_pos (by simpa using h)]
    simp only [if_pos h]
    have ix : In (lvp T U) x := by unfold In at *; omega
    rw [wrap_id _ _ ix]
    exact store_exact V _ _ ix
  · rw [if_neg (by simpa using h)]
    simp only [if_neg h]
    have iy : In (lvp T U) y := by unfold In at *; omega
    rw [wrap_id _ _ iy]
    exact store_exact V _ _ iy

/-- The destination of an operation: the result type of the operator or, in a compound assignment, the type of the
left operand. -/
def Dest (op : Op) (T U V : ITy) : Prop := V = resultType op T U ∨ (V = T ∧ op ≠ .max ∧ op ≠ .min)

/-- **C132 (operations)**: for values of any two integer types every checked operation gives the mathematical result
exactly if that exists and the destination type has it, and fails otherwise (division and remainder: not a
negative number with uint64; bit operations: of nonnegative numbers). -/
theorem c132_op (op : Op) (T U V : ITy) (x y : Int) (hV : Dest op T U V) (hx : In T x) (hy : In U y) (hf : Fine op T U x y) :
    doOp op T U V x y = fit V (exact op T.bits x y) := by
  cases op with
  | add => rfl
  | sub => rfl
  | mul => rfl
  | div => exact div_exact T U V (by rcases hV with h | h <;> [exact Or.inl h; exact Or.inr h.1]) x y hx hy hf
  | mod => exact mod_exact T U V x y hx hy hf
  | lsh =>
    have e : V = T := by rcases hV with h | h <;> [exact h; exact h.1]
    subst e
    exact lsh_exact V U x y hx hy
  | rsh => exact rsh_exact T U V x y hx hy
  | and => exact bit_exact _ (fun n a b ha _ => Nat.and_lt_two_pow a (by assumption)) T U V x y hx hy hf
  | or => exact bit_exact _ (fun n a b ha hb => Nat.or_lt_two_pow ha hb) T U V x y hx hy hf
  | xor => exact bit_exact _ (fun n a b ha hb => Nat.xor_lt_two_pow ha hb) T U V x y hx hy hf
  | max => exact max_exact T U V x y hx hy
  | min => exact min_exact T U V x y hx hy

theorem conv_exact (t src : ITy) (v : Option Int) (h : ∀ x, v = some x → In src x) : conv t src v = fit t v := by
  unfold conv fit
  cases v with
  | none => rfl
  | some x =>
    show (if isValueInRange t src x = true then some (t.wrap x) else none) = if In t x then some x else none
    have hx := h x rfl
    by_cases hi : In t x
    · rw [if_pos ((c131_in_range t src x hx).2 hi), if_pos hi, wrap_id t x hi]
    · rw [if_neg (fun hc => hi ((c131_in_range t src x hx).1 hc)), if_neg hi]

theorem fit_in (t : ITy) (v : Option Int) (x : Int) (h : fit t v = some x) : In t x ∧ v = some x := by
  unfold fit at h
  cases v with
  | none => simp at h
  | some y =>
    simp only [Option.bind_some] at h
    by_cases hi : In t y
    · rw [if_pos hi] at h
      simp only [Option.some.injEq] at h
      subst h
      exact ⟨hi, rfl⟩
    · rw [if_neg hi] at h; simp at h

theorem fit_fit (t : ITy) (v : Option Int) : fit t (fit t v) = fit t v := by
  unfold fit
  cases v with
  | none => rfl
  | some y =>
    simp only [Option.bind_some]
    by_cases hi : In t y
    · rw [if_pos hi]; simp [hi]
    · rw [if_neg hi]; rfl

theorem store_in (V P : ITy) (p r : Int) (h : store V P p = some r) : In V r := by
  unfold store at h
  by_cases hi : isValueInRange V P p = true
  · rw [if_pos hi] at h
    simp only [Option.some.injEq] at h
    rw [← h]; exact wrap_in V p
  · rw [if_neg hi] at h; simp at h

/-- Whatever the operands, the result is a value of the destination type. -/
theorem doOp_in (op : Op) (T U V : ITy) (hV : Dest op T U V) (x y r : Int) (h : doOp op T U V x y = some r) : In V r := by
  have h0 : In V 0 := by cases V <;> decide
  have hb : ∀ v, builtin V v = some r → In V r := by
    intro v h
    unfold builtin at h
    by_cases hi : In V v
    · rw [if_pos hi] at h
      simp only [Option.some.injEq] at h
      rw [← h]; exact hi
    · rw [if_neg hi] at h; simp at h
  cases op with
  | add => exact hb _ h
  | sub => exact hb _ h
  | mul => exact hb _ h
  | div =>
    change divDo T U V x y = some r at h
    unfold divDo at h
    split at h
    · simp at h
    · split at h
      · simp at h
      · split at h
        · simp at h
        · exact store_in _ _ _ _ h
  | mod =>
    change modDo T U V x y = some r at h
    unfold modDo at h
    split at h
    · simp at h
    · split at h
      · simp only [Option.some.injEq] at h; rw [← h]; exact h0
      · exact store_in _ _ _ _ h
  | lsh =>
    have e : V = T := by rcases hV with h | h <;> [exact h; exact h.1]
    subst e
    change lshDo V U x y = some r at h
    unfold lshDo at h
    split at h
    · split at h
      · simp only [Option.some.injEq] at h; rw [← h]; exact wrap_in _ _
      · simp at h
    · split at h
      · simp at h
      · simp only [Option.some.injEq] at h; rw [← h]; exact h0
  | rsh =>
    change rshDo T U V x y = some r at h
    unfold rshDo at h
    split at h
    · simp at h
    · exact store_in _ _ _ _ h
  | and => exact store_in _ _ _ _ h
  | or => exact store_in _ _ _ _ h
  | xor => exact store_in _ _ _ _ h
  | max => exact store_in _ _ _ _ h
  | min => exact store_in _ _ _ _ h

theorem negate_exact (t : ITy) (x : Int) (hx : In t x) : negateWrapper t x = t.wrap (-x) := by
  unfold negateWrapper
  obtain ⟨k, hk⟩ := wrap_shift t.uns x
  obtain ⟨m, hm⟩ := wrap_shift t.uns (0 - t.uns.wrap x)
  have hc : t.uns.card = t.card := by cases t <;> rfl
  rw [hm, hk, hc, show (0 - (x - t.card * k) - t.card * m : Int) = -x - t.card * (m - k) by ring, wrap_sub_mul]

theorem neg_in (t : ITy) (x : Int) (r : Int) (h : negDo t x = some r) : In t r := by
  have hn : In t (negateWrapper t x) := wrap_in t _
  unfold negDo at h
  rw [conv_exact] at h
  · exact (fit_in _ _ _ h).1
  · intro y hy
    split at hy
    · simp only [Option.some.injEq] at hy; rw [← hy]; exact hn
    · simp at hy

theorem neg_exact (t : ITy) (hs : t.sg = true) (x : Int) (hx : In t x) : negDo t x = fit t (some (-x)) := by
  have hlo : t.lo = -t.hi - 1 ∧ t.card = 2 * (t.hi + 1) := by revert hs; cases t <;> decide
  have hh := (sign_lo t).2.2
  have e := negate_exact t x hx
  unfold negDo
  rw [e]
  by_cases hl : x = t.lo
  · have hw : t.wrap (-x) = t.lo := by
      have h1 := wrap_sub_mul t (-x) 1
      rw [← h1, wrap_id]
      · omega
      · unfold In; omega
    have hno : ¬ In t (-x) := by unfold In; omega
    rw [hs, hw]
    simp [conv, fit, hno]
  · have hi : In t (-x) := by unfold In at *; omega
    have hne : -x ≠ t.lo := by unfold In at *; omega
    rw [wrap_id _ _ hi, hs]
    have : (!true || decide (-x ≠ t.lo)) = true := by simpa using hne
    rw [if_pos this]
    exact conv_exact t t _ (by intro y hy; simp only [Option.some.injEq] at hy; rw [← hy]; exact hi)

/-- The operations a `CheckedNumeric` has: no assignment form of Max and Min. -/
def Expr.Wf : Expr → Prop
  | lit t v => In t v
  | cast _ e => e.Wf
  | bin _ a b => a.Wf ∧ b.Wf
  | asg op a b => a.Wf ∧ b.Wf ∧ op ≠ .max ∧ op ≠ .min
  | neg a => a.Wf
  | abs a => a.Wf
  | uabs a => a.Wf

/-- A valid number has a value of its type. -/
theorem c132_in_type (e : Expr) (hw : e.Wf) (r : Int) (h : e.eval = some r) : In e.ty r := by
  induction e generalizing r with
  | lit t v =>
    simp only [Expr.eval] at h
    rw [conv_exact _ _ _ (by intro x hx; simp only [Option.some.injEq] at hx; rw [← hx]; exact hw)] at h
    exact (fit_in _ _ _ h).1
  | cast t e ih =>
    simp only [Expr.eval] at h
    rw [conv_exact _ _ _ (fun x hx => ih hw x hx)] at h
    exact (fit_in _ _ _ h).1
  | bin op a b iha ihb =>
    simp only [Expr.eval, mathOp] at h
    cases ha : a.eval with
    | none => rw [ha] at h; simp at h
    | some x =>
      cases hb : b.eval with
      | none => rw [ha, hb] at h; simp at h
      | some y =>
        rw [ha, hb] at h
        simp only [Option.bind_some] at h
        rw [conv_exact _ _ _ (fun z hz => doOp_in op _ _ _ (Or.inl rfl) x y z hz)] at h
        exact (fit_in _ _ _ h).1
  | asg op a b iha ihb =>
    simp only [Expr.eval, mathOp] at h
    cases ha : a.eval with
    | none => rw [ha] at h; simp at h
    | some x =>
      cases hb : b.eval with
      | none => rw [ha, hb] at h; simp at h
      | some y =>
        rw [ha, hb] at h
        simp only [Option.bind_some] at h
        rw [conv_exact _ _ _ (fun z hz => doOp_in op _ _ _ (Or.inr ⟨rfl, hw.2.2⟩) x y z hz)] at h
        exact (fit_in _ _ _ h).1
  | neg a ih =>
    simp only [Expr.eval] at h
    cases ha : a.eval with
    | none => rw [ha] at h; simp at h
    | some x => rw [ha] at h; exact neg_in _ _ _ h
  | abs a ih =>
    simp only [Expr.eval] at h
    cases ha : a.eval with
    | none => rw [ha] at h; simp at h
    | some x =>
      rw [ha] at h
      simp only [Option.bind_some] at h
      split at h
      · simp only [Option.some.injEq] at h; rw [← h]; exact ih hw x ha
      · exact neg_in _ _ _ h
  | uabs a ih =>
    simp only [Expr.eval] at h
    rw [conv_exact] at h
    · exact (fit_in _ _ _ h).1
    · intro z hz
      cases ha : a.eval with
      | none => rw [ha] at hz; simp at hz
      | some x =>
        rw [ha] at hz
        simp only [Option.map_some, Option.some.injEq] at hz
        rw [← hz]
        unfold safeUnsignedAbs
        split <;> exact wrap_in _ _

/-- The value of the expression in unbounded integers, `none` if it has none. -/
def Expr.num : Expr → Option Int
  | lit _ v => some v
  | cast _ e => e.num
  | bin op a b => a.num.bind (fun x => b.num.bind (fun y => exact op a.ty.bits x y))
  | asg op a b => a.num.bind (fun x => b.num.bind (fun y => exact op a.ty.bits x y))
  | neg a => a.num.map (fun x => -x)
  | abs a => a.num.map (fun x => if x < 0 then -x else x)
  | uabs a => a.num.map (fun x => if x < 0 then -x else x)

/-- The value exists and its type has it. -/
def Expr.Has (e : Expr) : Prop := ∃ r, e.num = some r ∧ In e.ty r

/-- The expression and all its parts have values of their types. -/
def Expr.Fits : Expr → Prop
  | lit t v => (lit t v).Has
  | cast t e => (cast t e).Has ∧ e.Fits
  | bin op a b => (bin op a b).Has ∧ a.Fits ∧ b.Fits
  | asg op a b => (asg op a b).Has ∧ a.Fits ∧ b.Fits
  | neg a => (neg a).Has ∧ a.Fits
  | abs a => (abs a).Has ∧ a.Fits
  | uabs a => (uabs a).Has ∧ a.Fits

/-- The operands are such as `Fine` asks for; only signed numbers are negated. -/
def Expr.Good : Expr → Prop
  | lit _ _ => True
  | cast _ e => e.Good
  | bin op a b => a.Good ∧ b.Good ∧ ∀ x y, a.num = some x → b.num = some y → Fine op a.ty b.ty x y
  | asg op a b => a.Good ∧ b.Good ∧ ∀ x y, a.num = some x → b.num = some y → Fine op a.ty b.ty x y
  | neg a => a.Good ∧ a.ty.sg = true
  | abs a => a.Good
  | uabs a => a.Good

theorem fits_has (e : Expr) (h : e.Fits) : e.Has := by
  cases e with
  | lit t v => exact h
  | cast t e => exact h.1
  | bin op a b => exact h.1
  | asg op a b => exact h.1
  | neg a => exact h.1
  | abs a => exact h.1
  | uabs a => exact h.1

theorem fit_some (t : ITy) (x r : Int) : fit t (some x) = some r ↔ x = r ∧ In t r := by
  unfold fit
  simp only [Option.bind_some]
  by_cases h : In t x
  · rw [if_pos h]
    constructor
    · intro e; simp only [Option.some.injEq] at e; subst e; exact ⟨rfl, h⟩
    · rintro ⟨rfl, _⟩; rfl
  · rw [if_neg h]
    constructor
    · intro e; simp at e
    · rintro ⟨rfl, e⟩; exact absurd e h

theorem fit_iff (t : ITy) (v : Option Int) (r : Int) : fit t v = some r ↔ v = some r ∧ In t r := by
  cases v with
  | none => unfold fit; simp
  | some x => rw [fit_some]; simp

theorem abs_exact (t : ITy) (x : Int) (hx : In t x) :
    (if (!isNeg t x) = true then some x else negDo t x) = fit t (some (if x < 0 then -x else x)) := by
  by_cases h : isNeg t x = true
  · have h0 := (isNeg_iff t x hx).1 h
    have hs : t.sg = true := by
      unfold isNeg at h
      rw [Bool.and_eq_true] at h
      exact h.1
    rw [h, if_neg (by simp), if_pos h0]
    exact neg_exact t hs x hx
  · have h0 : ¬ x < 0 := fun hc => h ((isNeg_iff t x hx).2 hc)
    have h' : isNeg t x = false := by simpa using h
    rw [h', if_pos (by simp), if_neg h0]
    exact ((fit_some t x x).2 ⟨rfl, hx⟩).symm

theorem uabs_exact (t : ITy) (x : Int) (hx : In t x) : safeUnsignedAbs t x = (if x < 0 then -x else x) ∧ In t.uns (if x < 0 then -x else x) := by
  have hst : t.uns.lo = 0 ∧ t.hi ≤ t.uns.hi ∧ -t.lo ≤ t.uns.hi ∧ t.uns.hi + 1 = t.uns.card := by cases t <;> decide
  obtain ⟨s1, s2, s3, s4⟩ := hst
  unfold safeUnsignedAbs
  by_cases h : isNeg t x = true
  · have h0 := (isNeg_iff t x hx).1 h
    have hi : In t.uns (-x) := by unfold In at *; omega
    rw [if_pos h, if_pos h0]
    refine ⟨?_, hi⟩
    obtain ⟨k, hk⟩ := wrap_shift t.uns x
    rw [hk, show (0 - (x - t.uns.card * k) : Int) = -x - t.uns.card * (-k) by ring, wrap_sub_mul, wrap_id _ _ hi]
  · have h0 : ¬ x < 0 := fun hc => h ((isNeg_iff t x hx).2 hc)
    rw [if_neg h, if_neg h0]
    have hi : In t.uns x := by unfold In at *; omega
    exact ⟨wrap_id _ _ hi, hi⟩

/-- The value of an operator, whatever the operands are. -/
theorem mathOp_iff (op : Op) (T U V : ITy) (hV : Dest op T U V) (x y : Option Int) (hx : ∀ v, x = some v → In T v)
    (hy : ∀ v, y = some v → In U v) (hf : ∀ a b, x = some a → y = some b → Fine op T U a b) (r : Int) :
    mathOp op T U V x y = some r ↔ ∃ a b, x = some a ∧ y = some b ∧ exact op T.bits a b = some r ∧ In V r := by
  unfold mathOp
  cases x with
  | none => simp
  | some a =>
    cases y with
    | none => simp
    | some b =>
      simp only [Option.bind_some]
      rw [conv_exact _ _ _ (fun z hz => doOp_in op T U V hV a b z hz), c132_op op T U V a b hV (hx a rfl) (hy b rfl) (hf a b rfl rfl),
        fit_fit, fit_iff]
      simp

/-- **C132 (expressions)**: a checked expression of any size is valid exactly if it and all its parts have a
mathematical value that their types can represent, and its value is the mathematical value. -/
theorem c132_expr (e : Expr) (hw : e.Wf) (hg : e.Good) (r : Int) : e.eval = some r ↔ e.num = some r ∧ e.Fits := by
  induction e generalizing r with
  | lit t v =>
    simp only [Expr.eval, Expr.num, Expr.Fits, Expr.Has, Expr.ty]
    rw [conv_exact _ _ _ (by intro x hx; simp only [Option.some.injEq] at hx; rw [← hx]; exact hw), fit_iff]
    constructor
    · rintro ⟨h1, h2⟩; exact ⟨h1, r, h1, h2⟩
    · rintro ⟨h1, r', h2, h3⟩
      rw [h1] at h2; simp only [Option.some.injEq] at h2; subst h2
      exact ⟨h1, h3⟩
  | cast t e ih =>
    have ie : ∀ x, e.eval = some x → In e.ty x := fun x hx => c132_in_type e hw x hx
    simp only [Expr.eval, Expr.num, Expr.Fits, Expr.Has, Expr.ty]
    rw [conv_exact _ _ _ ie, fit_iff, ih hw hg]
    constructor
    · rintro ⟨⟨h1, h2⟩, h3⟩; exact ⟨h1, ⟨r, h1, h3⟩, h2⟩
    · rintro ⟨h1, ⟨r', h2, h3⟩, h4⟩
      rw [h1] at h2; simp only [Option.some.injEq] at h2; subst h2
      exact ⟨⟨h1, h4⟩, h3⟩
  | bin op a b iha ihb =>
    have iha := iha hw.1 hg.1
    have ihb := ihb hw.2 hg.2.1
    simp only [Expr.eval, Expr.num, Expr.Fits, Expr.Has, Expr.ty]
    rw [mathOp_iff op _ _ _ (Or.inl rfl) _ _ (fun v => c132_in_type a hw.1 v) (fun v => c132_in_type b hw.2 v)
      (fun x y hx hy => hg.2.2 x y ((iha x).1 hx).1 ((ihb y).1 hy).1)]
    constructor
    · rintro ⟨x, y, h1, h2, h3, h4⟩
      have e1 := (iha x).1 h1
      have e2 := (ihb y).1 h2
      have e3 : (a.num.bind fun x => b.num.bind fun y => exact op a.ty.bits x y) = some r := by rw [e1.1, e2.1]; exact h3
      exact ⟨e3, ⟨r, e3, h4⟩, e1.2, e2.2⟩
    · rintro ⟨h1, ⟨r', h2, h3⟩, h4, h5⟩
      rw [h1] at h2; simp only [Option.some.injEq] at h2; subst h2
      obtain ⟨x, hx, _⟩ := fits_has a h4
      obtain ⟨y, hy, _⟩ := fits_has b h5
      rw [hx, hy] at h1
      exact ⟨x, y, (iha x).2 ⟨hx, h4⟩, (ihb y).2 ⟨hy, h5⟩, h1, h3⟩
  | asg op a b iha ihb =>
    have iha := iha hw.1 hg.1
    have ihb := ihb hw.2.1 hg.2.1
    simp only [Expr.eval, Expr.num, Expr.Fits, Expr.Has, Expr.ty]
    rw [mathOp_iff op _ _ _ (Or.inr ⟨rfl, hw.2.2⟩) _ _ (fun v => c132_in_type a hw.1 v) (fun v => c132_in_type b hw.2.1 v)
      (fun x y hx hy => hg.2.2 x y ((iha x).1 hx).1 ((ihb y).1 hy).1)]
    constructor
    · rintro ⟨x, y, h1, h2, h3, h4⟩
      have e1 := (iha x).1 h1
      have e2 := (ihb y).1 h2
      have e3 : (a.num.bind fun x => b.num.bind fun y => exact op a.ty.bits x y) = some r := by rw [e1.1, e2.1]; exact h3
      exact ⟨e3, ⟨r, e3, h4⟩, e1.2, e2.2⟩
    · rintro ⟨h1, ⟨r', h2, h3⟩, h4, h5⟩
      rw [h1] at h2; simp only [Option.some.injEq] at h2; subst h2
      obtain ⟨x, hx, _⟩ := fits_has a h4
      obtain ⟨y, hy, _⟩ := fits_has b h5
      rw [hx, hy] at h1
      exact ⟨x, y, (iha x).2 ⟨hx, h4⟩, (ihb y).2 ⟨hy, h5⟩, h1, h3⟩
  | neg a ih =>
    have ih := ih hw hg.1
    simp only [Expr.eval, Expr.num, Expr.Fits, Expr.Has, Expr.ty]
    constructor
    · intro h
      cases ha : a.eval with
      | none => rw [ha] at h; simp at h
      | some x =>
        rw [ha] at h
        simp only [Option.bind_some] at h
        rw [neg_exact _ hg.2 x (c132_in_type a hw x ha), fit_iff] at h
        obtain ⟨h1, h2⟩ := (ih x).1 ha
        rw [h1]
        exact ⟨h.1, ⟨r, h.1, h.2⟩, h2⟩
    · rintro ⟨h1, ⟨r', h2, h3⟩, h4⟩
      obtain ⟨x, hx, _⟩ := fits_has a h4
      rw [h1] at h2; simp only [Option.some.injEq] at h2; subst h2
      have ha := (ih x).2 ⟨hx, h4⟩
      rw [hx] at h1
      rw [ha]
      simp only [Option.bind_some]
      rw [neg_exact _ hg.2 x (c132_in_type a hw x ha), fit_iff]
      exact ⟨h1, h3⟩
  | abs a ih =>
    have ih := ih hw hg
    simp only [Expr.eval, Expr.num, Expr.Fits, Expr.Has, Expr.ty]
    constructor
    · intro h
      cases ha : a.eval with
      | none => rw [ha] at h; simp at h
      | some x =>
        rw [ha] at h
        simp only [Option.bind_some] at h
        rw [abs_exact _ x (c132_in_type a hw x ha), fit_iff] at h
        obtain ⟨h1, h2⟩ := (ih x).1 ha
        rw [h1]
        exact ⟨h.1, ⟨r, h.1, h.2⟩, h2⟩
    · rintro ⟨h1, ⟨r', h2, h3⟩, h4⟩
      obtain ⟨x, hx, _⟩ := fits_has a h4
      rw [h1] at h2; simp only [Option.some.injEq] at h2; subst h2
      have ha := (ih x).2 ⟨hx, h4⟩
      rw [hx] at h1
      rw [ha]
      simp only [Option.bind_some]
      rw [abs_exact _ x (c132_in_type a hw x ha), fit_iff]
      exact ⟨h1, h3⟩
  | uabs a ih =>
    have ih := ih hw hg
    simp only [Expr.eval, Expr.num, Expr.Fits, Expr.Has, Expr.ty]
    have key : ∀ x, a.eval = some x → conv a.ty.uns a.ty.uns (some (safeUnsignedAbs a.ty x)) = fit a.ty.uns (some (if x < 0 then -x else x)) := by
      intro x ha
      obtain ⟨u1, u2⟩ := uabs_exact a.ty x (c132_in_type a hw x ha)
      rw [conv_exact _ _ _ (by intro z hz; simp only [Option.some.injEq] at hz; rw [← hz, u1]; exact u2), u1]
    constructor
    · intro h
      cases ha : a.eval with
      | none => rw [ha] at h; simp [conv] at h
      | some x =>
        rw [ha] at h
        simp only [Option.map_some] at h
        rw [key x ha, fit_iff] at h
        obtain ⟨h1, h2⟩ := (ih x).1 ha
        rw [h1]
        exact ⟨h.1, ⟨r, h.1, h.2⟩, h2⟩
    · rintro ⟨h1, ⟨r', h2, h3⟩, h4⟩
      obtain ⟨x, hx, _⟩ := fits_has a h4
      rw [h1] at h2; simp only [Option.some.injEq] at h2; subst h2
      have ha := (ih x).2 ⟨hx, h4⟩
      rw [hx] at h1
      rw [ha]
      simp only [Option.map_some]
      rw [key x ha, fit_iff]
      exact ⟨h1, h3⟩

/-- **C132 (reading)**: `AssignIfValid<Dst>` (and `ValueOrDie`, `ValueOrDefault`, `IsValid<Dst>`, whose condition is the
same) gives the value of a valid expression exactly if the destination type has it. -/
theorem c132_read (dst : ITy) (e : Expr) (hw : e.Wf) (hg : e.Good) (r : Int) :
    assignIfValid dst e.ty e.eval = some r ↔ e.num = some r ∧ e.Fits ∧ In dst r := by
  have h : assignIfValid dst e.ty e.eval = conv dst e.ty e.eval := rfl
  rw [h, conv_exact _ _ _ (fun x hx => c132_in_type e hw x hx), fit_iff, c132_expr e hw hg]
  constructor
  · rintro ⟨⟨a, b⟩, c⟩; exact ⟨a, b, c⟩
  · rintro ⟨a, b, c⟩; exact ⟨⟨a, b⟩, c⟩

/-- **C132 (division)**: whatever the types, a quotient that is given is the mathematical one. -/
theorem c132_div_sound (T U V : ITy) (hV : V = mep T U ∨ V = T) (x y r : Int) (hx : In T x) (hy : In U y) (h : divDo T U V x y = some r) :
    exact .div T.bits x y = some r ∧ In V r := by
  by_cases hf : (bigEnough T U).2 = true ∨ (0 ≤ x ∧ 0 ≤ y)
  · rw [div_exact T U V hV x y hx hy hf] at h
    exact (fit_iff V _ r).1 h
  · have hm : (bigEnough T U).2 = false := by
      cases hq : (bigEnough T U).2 with
      | true => exact absurd (Or.inl hq) hf
      | false => rfl
    have hP : (bigEnough T U).1 = .u64 := by
      revert hm; cases T <;> cases U <;> decide
    have hns : ¬ (T.sg = true ∧ U.sg = true) := by
      revert hm; cases T <;> cases U <;> decide
    have hneg : x < 0 ∨ y < 0 := by omega
    unfold divDo at h
    by_cases h0 : y = 0
    · rw [if_pos h0] at h; simp at h
    · rw [if_neg h0] at h
      have hmb : ¬ minByMinusOne T U x y = true := fun hc => hns (by have := (minBy_iff T U x y hx hy).1 hc; exact ⟨this.1, this.2.1⟩)
      rw [if_neg hmb] at h
      have hr : ∀ (S : ITy) (v : Int), In S v → v < 0 → isValueInRange ITy.u64 S v = false := by
        intro S v hS hv
        cases hq : isValueInRange ITy.u64 S v with
        | false => rfl
        | true =>
          have := (c131_in_range _ _ _ hS).1 hq
          unfold In at this
          simp only [lo, hi] at this
          omega
      rw [hP] at h
      have hbad : (!isValueInRange ITy.u64 T x || !isValueInRange ITy.u64 U y) = true := by
        rcases hneg with hn | hn
        · rw [hr T x hx hn]; rfl
        · rw [hr U y hy hn]; simp
      rw [hbad] at h
      by_cases hx0 : x = 0
      · subst hx0
        simp only [ne_eq, not_true_eq_false, decide_false, Bool.and_false, Bool.false_eq_true, if_false] at h
        rw [show ITy.u64.wrap 0 = 0 by decide, Int.zero_tdiv, show ITy.u64.wrap 0 = 0 by decide,
          store_exact V _ _ (by decide : In ITy.u64 0), fit_iff] at h
        unfold exact
        simp only [if_neg h0, Int.zero_tdiv]
        exact h
      · simp [hx0] at h

/-- **C132 (remainder with uint64)**: violation.  The remainder of a negative number by a uint64 is computed from the
number plus 2^64 and given as valid: `CheckMod(-1, uint64_t{10})` is a valid 5, where the remainder is -1. -/
theorem c132_mod_violated (T : ITy) (hs : T.sg = true) (x y : Int) (hx : In T x) (hx0 : x < 0) (hy : In .u64 y) (hy0 : 0 < y) :
    doOp .mod T .u64 (resultType .mod T .u64) x y = some ((x + 2 ^ 64) % y) ∧ x.tmod y ≤ 0 ∧
    doOp .mod .i32 .u64 .u64 (-1) 10 = some 5 ∧ (-1 : Int).tmod 10 = -1 ∧
    doOp .mod .u64 .i32 .u64 7 (-3) = some 7 ∧ (7 : Int).tmod (-3) = 1 := by
  refine ⟨?_, ?_, by decide +kernel, by decide, by decide +kernel, by decide⟩
  · have hP : (bigEnough T .u64).1 = .u64 := by revert hs; cases T <;> decide
    have hR : resultType .mod T .u64 = .u64 := by revert hs; cases T <;> decide
    have hlo : -9223372036854775808 ≤ T.lo := by cases T <;> decide
    unfold doOp modDo minByMinusOne
    simp only
    rw [if_neg (by omega), if_neg (by simp [sg]), hP, hR]
    have hw : ITy.u64.wrap x = x + 2 ^ 64 := by
      unfold In at hx
      unfold wrap
      simp only [lo, card]
      omega
    have e1 : (x + 2 ^ 64).tmod y = (x + 2 ^ 64) % y := by
      rw [Int.tmod_eq_emod_of_nonneg]
      unfold In at hx
      omega
    have hin : In .u64 ((x + 2 ^ 64) % y) := by
      have h1 := Int.emod_nonneg (x + 2 ^ 64) (show y ≠ 0 by omega)
      have h2 := Int.emod_lt_of_pos (x + 2 ^ 64) hy0
      unfold In at *
      simp only [lo, hi] at *
      omega
    rw [hw, wrap_id _ _ hy, e1, wrap_id _ _ hin, store_exact _ _ _ hin, fit_some]
    exact ⟨rfl, hin⟩
  · have := Int.tmod_nonneg (a := -x) y (by omega)
    rw [Int.neg_tmod] at this
    omega

/-- **C132 (division with uint64)**: violation.  A negative number divided by a uint64 is always invalid, in the
assignment form too, where the quotient is always a value of the type: `CheckedNumeric<int64_t>(-100) /=
uint64_t{10}` is invalid. -/
theorem c132_div_violated (T : ITy) (hs : T.sg = true) (x y : Int) (hx : In T x) (hx0 : x < 0) (hy : In .u64 y) (hy0 : 0 < y) :
    doOp .div T .u64 T x y = none ∧ exact .div T.bits x y = some (x.tdiv y) ∧ In T (x.tdiv y) := by
  refine ⟨?_, ?_, ?_⟩
  · cases hq : doOp .div T .u64 T x y with
    | none => rfl
    | some r =>
      exfalso
      have hP : (bigEnough T .u64).1 = .u64 := by revert hs; cases T <;> decide
      unfold doOp divDo minByMinusOne at hq
      simp only at hq
      have hr : isValueInRange ITy.u64 T x = false := by
        cases hq : isValueInRange ITy.u64 T x with
        | false => rfl
        | true =>
          have := (c131_in_range _ _ _ hx).1 hq
          unfold In at this
          simp only [lo, hi] at this
          omega
      have hx1 : x ≠ 0 := by omega
      rw [if_neg (by omega), if_neg (by simp [sg]), hP, hr, if_pos (by simp [hx1])] at hq
      simp at hq
  · unfold exact
    rw [if_neg (by omega)]
  · have hb : (x.tdiv y).natAbs ≤ x.natAbs := by
      rw [Int.natAbs_tdiv]; exact Nat.div_le_self _ _
    have hn : x.tdiv y ≤ 0 := by
      have := Int.tdiv_nonneg (a := -x) (b := y) (by omega) (by omega)
      rw [Int.neg_tdiv] at this
      omega
    have := (sign_lo T).2.2
    unfold In at *
    omega

/-- **C132 (negating unsigned numbers)**: violation.  The negation of a positive unsigned number is valid and wraps. -/
theorem c132_neg_violated (t : ITy) (hs : t.sg = false) (x : Int) (hx : In t x) (h0 : 0 < x) :
    (Expr.neg (.lit t x)).eval = some (t.card - x) ∧ ¬ In t (-x) := by
  have hst : t.lo = 0 ∧ t.card = t.hi + 1 := by revert hs; cases t <;> decide
  obtain ⟨s1, s2⟩ := hst
  have hi : In t (t.card - x) := by unfold In at *; omega
  refine ⟨?_, by unfold In; omega⟩
  simp only [Expr.eval, Expr.ty]
  rw [conv_exact _ _ _ (by intro y hy; simp only [Option.some.injEq] at hy; rw [← hy]; exact hx), (fit_some t x x).2 ⟨rfl, hx⟩]
  simp only [Option.bind_some]
  unfold negDo
  have e : negateWrapper t x = t.card - x := by
    rw [negate_exact t x hx, ← wrap_sub_mul t (-x) (-1), wrap_id]
    · rw [Int.mul_neg]; omega
    · unfold In at *; rw [Int.mul_neg]; omega
  rw [e, hs, if_pos (by simp), conv_exact _ _ _ (by intro y hy; simp only [Option.some.injEq] at hy; rw [← hy]; exact hi), fit_some]
  exact ⟨rfl, hi⟩

/-- **C132 (complement of signed numbers)**: violation.  The complement of a nonnegative signed number is invalid,
though its value -x-1 is in the type. -/
theorem c132_not_violated (t : ITy) (hs : t.sg = true) (x : Int) (hx : In t x) (h0 : 0 ≤ x) : notDo t x = none ∧ In t (-x - 1) := by
  have hst : t.uns.lo = 0 ∧ t.uns.hi = 2 * t.hi + 1 ∧ t.uns.card = t.uns.hi + 1 ∧ t.lo = -t.hi - 1 := by revert hs; cases t <;> decide
  obtain ⟨s1, s2, s3, s4⟩ := hst
  refine ⟨?_, by unfold In at *; omega⟩
  unfold notDo
  have hi : In t.uns (t.uns.card - x - 1) := by unfold In at *; omega
  have e : t.uns.wrap (-x - 1) = t.uns.card - x - 1 := by
    rw [← wrap_sub_mul t.uns (-x - 1) (-1), wrap_id]
    · rw [Int.mul_neg]; omega
    · unfold In at *; rw [Int.mul_neg]; omega
  rw [e, conv_exact _ _ _ (by intro y hy; simp only [Option.some.injEq] at hy; rw [← hy]; exact hi)]
  unfold fit
  simp only [Option.bind_some]
  rw [if_neg]
  unfold In at *
  omega

/-! ### Examples -/

/-- `CheckedNumeric<int32_t>(7) * 3 - uint8_t{200}` is -179; in uint8 it cannot be read; `2147483647 + 1` is
invalid in int32 and stays so when 1 is subtracted again. -/
example : (Expr.bin .sub (.bin .mul (.lit .i32 7) (.lit .i32 3)) (.lit .u8 200)).eval = some (-179) ∧
    assignIfValid .u8 .i32 (Expr.bin .sub (.bin .mul (.lit .i32 7) (.lit .i32 3)) (.lit .u8 200)).eval = none ∧
    (Expr.bin .sub (.bin .add (.lit .i32 2147483647) (.lit .i32 1)) (.lit .i32 1)).eval = none ∧
    (Expr.bin .lsh (.lit .i8 3) (.lit .i32 5)).eval = some 96 ∧ (Expr.bin .lsh (.lit .i8 3) (.lit .i32 6)).eval = none ∧
    (Expr.bin .div (.lit .i8 (-128)) (.lit .i8 (-1))).eval = none ∧ (Expr.bin .div (.lit .i8 (-128)) (.lit .i32 (-1))).eval = some 128 ∧
    (Expr.uabs (.lit .i8 (-128))).eval = some 128 ∧ (Expr.abs (.lit .i8 (-128))).eval = none := by
  decide +kernel

end Ltio.Num
