import Verif.Num.Checked

/-
base/numerics/clamped_math.h and clamped_math_impl.h for the integer types, with gcc's built-in overflow checks and
without the ARM assembler paths (safe_math_clang_gcc_impl.h, safe_math_arm_impl.h is not modelled).

A `ClampedNumeric<T>` is its value.
-/
namespace Ltio.Num
open ITy

/-- `SaturatedNegWrapper` (clamped_math_impl.h:24-40): the built-in subtraction, or for a value the compiler knows
the other way. -/
def clampNeg (known : Bool) (t : ITy) (x : Int) : Int :=
  if t.sg then
    (if known then (if negateWrapper t x ≠ t.lo then negateWrapper t x else t.hi) else (builtin t (0 - x)).getD t.hi)
  else 0

/-- `SaturatedAbsWrapper` (49-62): `IsValueNegative<T>(SafeUnsignedAbs(value))` is evaluated in `T`. -/
def clampAbs (t : ITy) (x : Int) : Int :=
  t.wrap (safeUnsignedAbs t x - (if isNeg t (t.wrap (safeUnsignedAbs t x)) then 1 else 0))

/-- `ClampedAddOp::Do` (74-94). -/
def clampAddDo (U V : ITy) (x y : Int) : Int := (builtin V (x + y)).getD (commonMaxOrMin V V (isNeg U y))

/-- `ClampedSubOp::Do` (99-120). -/
def clampSubDo (U V : ITy) (x y : Int) : Int := (builtin V (x - y)).getD (commonMaxOrMin V V (!isNeg U y))

/-- `ClampedMulOp::Do` (125-143). -/
def clampMulDo (T U V : ITy) (x y : Int) : Int := (builtin V (x * y)).getD (commonMaxOrMin V V (isNeg T x ^^ isNeg U y))

/-- `ClampedDivOp::Do` (148-163). -/
def clampDivDo (T U V : ITy) (x y : Int) : Int :=
  (divDo T U V x y).getD (if x ≠ 0 then commonMaxOrMin V V (isNeg T x ^^ isNeg U y) else 0)

/-- `ClampedModOp::Do` (168-181). -/
def clampModDo (T U V : ITy) (x y : Int) : Int := (modDo T U V x y).getD (V.wrap x)

/-- `ClampedLshOp::Do` (188-207); the destination is of type `T` in all uses, the amount is unsigned. -/
def clampLshDo (T : ITy) (x s : Int) : Int :=
  if s < T.digits ∧ T.wrap (T.uns.promote.wrap (T.uns.wrap x * 2 ^ s.toNat)) / 2 ^ s.toNat = x
  then T.wrap (T.uns.promote.wrap (T.uns.wrap x * 2 ^ s.toNat))
  else if x ≠ 0 then commonMaxOrMin T T (isNeg T x) else 0

/-- `ClampedRshOp::Do` (213-228). -/
def clampRshDo (known : Bool) (T V : ITy) (x s : Int) : Int :=
  if s < T.bits then saturatedCast known V T.promote (T.promote.wrap (x / 2 ^ s.toNat)) else V.wrap (0 - (if isNeg T x then 1 else 0))

/-- `ClampedMaxOp::Do` (280-295). -/
def clampMaxDo (known : Bool) (T U V : ITy) (x y : Int) : Int :=
  if isCmp .gt T U x y then saturatedCast known V T x else saturatedCast known V U y

/-- `ClampedMinOp::Do` (297-312). -/
def clampMinDo (known : Bool) (T U V : ITy) (x y : Int) : Int :=
  if isCmp .lt T U x y then saturatedCast known V T x else saturatedCast known V U y

/-! ### Proofs -/

theorem exact_mod (w : Nat) (x y : Int) (h : y ≠ 0) : exact .mod w x y = some (x.tmod y) := by
  show (if y = 0 then none else some (x.tmod y)) = _
  rw [if_neg h]

theorem sat_exact (V : ITy) (b : Bool) : commonMaxOrMin V V b = if b then V.lo else V.hi := by
  cases V <;> cases b <;> decide +kernel

theorem builtin_getD (V : ITy) (v : Int) (b : Bool) (hlo : v < V.lo → b = true) (hhi : v > V.hi → b = false) :
    (builtin V v).getD (commonMaxOrMin V V b) = clamp V v := by
  unfold builtin
  by_cases h : In V v
  · rw [if_pos h, clamp_id V v h]; rfl
  · rw [if_neg h, sat_exact]
    have := (sign_lo V).2.2
    have hl : V.lo ≤ 0 := by cases V <;> decide
    show (if b = true then V.lo else V.hi) = clamp V v
    unfold clamp
    by_cases h1 : v < V.lo
    · rw [if_pos h1, if_pos (hlo h1)]
    · have h2 : v > V.hi := by unfold In at h; omega
      rw [if_neg h1, if_pos h2, hhi h2]
      rfl

theorem dest_hi (T U V : ITy) (hV : V = mep T U ∨ V = T) : T.hi ≤ V.hi := by
  rcases hV with rfl | rfl
  · cases T <;> cases U <;> decide
  · omega

/-- **C133 (addition)**: the sum is saturated in the right direction unless a negative number is added to a larger
unsigned one's type with a negative sum. -/
theorem c133_add (T U V : ITy) (hV : V = mep T U ∨ V = T) (x y : Int) (hx : In T x) (hy : In U y) (h : V.lo ≤ x ∨ 0 ≤ x + y) :
    clampAddDo U V x y = clamp V (x + y) := by
  unfold clampAddDo
  have hh := dest_hi T U V hV
  have hl : V.lo ≤ 0 := by cases V <;> decide
  have hn := isNeg_iff U y hy
  apply builtin_getD
  · intro h1
    exact hn.2 (by omega)
  · intro h1
    cases hq : isNeg U y with
    | false => rfl
    | true =>
      have := hn.1 hq
      unfold In at hx
      omega

/-- **C133 (addition of mixed signs)**: violation.  A negative signed number plus an unsigned one whose type is at
least as wide saturates to the largest value if the sum is negative, instead of to 0: `ClampAdd(-5, 3u)` is
4294967295; with the operands exchanged it is 0. -/
theorem c133_add_violated (T U : ITy) (hT : T.sg = true) (hU : U.sg = false) (hb : T.bits ≤ U.bits) (x y : Int) (hx : In T x) (hy : In U y)
    (h : x + y < 0) : clampAddDo U (mep T U) x y = U.hi ∧ clamp (mep T U) (x + y) = 0 ∧ clampAddDo T (mep U T) y x = 0 := by
  have hm : mep T U = U ∧ mep U T = U := by
    revert hT hU hb; cases T <;> cases U <;> decide
  have hl := (sign_lo U).2.1 hU
  have hno : ¬ In U (x + y) := by unfold In; omega
  rw [hm.1, hm.2]
  refine ⟨?_, ?_, ?_⟩
  · unfold clampAddDo builtin
    rw [if_neg hno, sat_exact]
    have : isNeg U y = false := by
      cases hq : isNeg U y with
      | false => rfl
      | true => have := (isNeg_iff U y hy).1 hq; unfold In at hy; omega
    rw [this]
    rfl
  · unfold clamp
    rw [if_pos (by omega), hl]
  · unfold clampAddDo builtin
    rw [Int.add_comm, if_neg hno, sat_exact, (isNeg_iff T x hx).2 (by unfold In at hy; omega)]
    exact hl

/-- **C133 (subtraction)**: the difference, saturated. -/
theorem c133_sub (T U V : ITy) (hV : V = mep T U ∨ V = T) (x y : Int) (hx : In T x) (hy : In U y) :
    clampSubDo U V x y = clamp V (x - y) := by
  unfold clampSubDo
  have hh := dest_hi T U V hV
  have hn := isNeg_iff U y hy
  have hl : y < 0 → V.lo ≤ x := by
    intro hy0
    have hs : U.sg = true := by
      cases hq : U.sg with
      | true => rfl
      | false => have := (sign_lo U).2.1 hq; unfold In at hy; omega
    have hVT : V.lo ≤ T.lo := by
      rcases hV with rfl | rfl
      · revert hs; cases T <;> cases U <;> decide
      · omega
    unfold In at hx
    omega
  apply builtin_getD
  · intro h1
    cases hq : isNeg U y with
    | false => rfl
    | true => have := hn.1 hq; have := hl this; omega
  · intro h1
    have : isNeg U y = true := by
      apply hn.2
      unfold In at hx
      omega
    rw [this]; rfl

theorem xor_sign (T U : ITy) (x y : Int) (hx : In T x) (hy : In U y) :
    (x < 0 → 0 ≤ y → (isNeg T x ^^ isNeg U y) = true) ∧ (0 ≤ x → y < 0 → (isNeg T x ^^ isNeg U y) = true) ∧
    (0 ≤ x → 0 ≤ y → (isNeg T x ^^ isNeg U y) = false) ∧ (x < 0 → y < 0 → (isNeg T x ^^ isNeg U y) = false) := by
  have h1 := isNeg_iff T x hx
  have h2 := isNeg_iff U y hy
  cases ha : isNeg T x <;> cases hb : isNeg U y <;> rw [ha] at h1 <;> rw [hb] at h2 <;> simp at h1 h2 <;>
    refine ⟨?_, ?_, ?_, ?_⟩ <;> intro p q <;> first | rfl | omega

/-- **C133 (multiplication)**: the product, saturated. -/
theorem c133_mul (T U V : ITy) (x y : Int) (hx : In T x) (hy : In U y) : clampMulDo T U V x y = clamp V (x * y) := by
  unfold clampMulDo
  obtain ⟨x1, x2, x3, x4⟩ := xor_sign T U x y hx hy
  have hl : V.lo ≤ 0 := by cases V <;> decide
  have hh := (sign_lo V).2.2
  apply builtin_getD
  · intro h1
    have hneg : x * y < 0 := by omega
    rcases Int.lt_or_le x 0 with hx0 | hx0
    · apply x1 hx0
      by_contra hc
      have := Int.mul_nonneg_of_nonpos_of_nonpos (show x ≤ 0 by omega) (show y ≤ 0 by omega)
      omega
    · apply x2 hx0
      by_contra hc
      have := Int.mul_nonneg hx0 (show 0 ≤ y by omega)
      omega
  · intro h1
    rcases Int.lt_or_le x 0 with hx0 | hx0
    · apply x4 hx0
      by_contra hc
      have := Int.mul_nonneg (show 0 ≤ -x by omega) (show 0 ≤ y by omega)
      rw [Int.neg_mul] at this
      omega
    · apply x3 hx0
      by_contra hc
      have := Int.mul_nonneg hx0 (show 0 ≤ -y by omega)
      rw [Int.mul_neg] at this
      omega

/-- The quotient has the sign of the operands. -/
theorem tdiv_sign (x y : Int) : (x < 0 → 0 ≤ y → x.tdiv y ≤ 0) ∧ (0 ≤ x → y < 0 → x.tdiv y ≤ 0) ∧ (0 ≤ x → 0 ≤ y → 0 ≤ x.tdiv y) ∧
    (x < 0 → y < 0 → 0 ≤ x.tdiv y) := by
  refine ⟨fun a b => ?_, fun a b => ?_, fun a b => Int.tdiv_nonneg a b, fun a b => Int.tdiv_nonneg_of_nonpos_of_nonpos (by omega) (by omega)⟩
  · have := Int.tdiv_nonneg (a := -x) (b := y) (by omega) b
    rw [Int.neg_tdiv] at this; omega
  · have := Int.tdiv_nonneg (a := x) (b := -y) a (by omega)
    rw [Int.tdiv_neg] at this; omega

theorem clamp_side (V : ITy) (v : Int) (b : Bool) (h : ¬ In V v) (hlo : v < V.lo → b = true) (hhi : v > V.hi → b = false) :
    commonMaxOrMin V V b = clamp V v := by
  have := builtin_getD V v b hlo hhi
  unfold builtin at this
  rw [if_neg h] at this
  exact this

/-- **C133 (division)**: the quotient, saturated; a division by zero saturates by the sign of the dividend, 0/0 is 0.
In an assignment a negative number must not be divided by a uint64. -/
theorem c133_div (T U V : ITy) (x y : Int) (hV : V = mep T U ∨ (V = T ∧ ((bigEnough T U).2 = true ∨ 0 ≤ x))) (hx : In T x) (hy : In U y) :
    clampDivDo T U V x y = if y = 0 then (if x = 0 then 0 else if x < 0 then V.lo else V.hi) else clamp V (x.tdiv y) := by
  have hV' : V = mep T U ∨ V = T := by rcases hV with h | h <;> [exact Or.inl h; exact Or.inr h.1]
  obtain ⟨x1, x2, x3, x4⟩ := xor_sign T U x y hx hy
  obtain ⟨t1, t2, t3, t4⟩ := tdiv_sign x y
  have hl : V.lo ≤ 0 := by cases V <;> decide
  have hh := (sign_lo V).2.2
  unfold clampDivDo
  by_cases h0 : y = 0
  · rw [if_pos h0]
    have hd : divDo T U V x y = none := by unfold divDo; rw [if_pos h0]
    rw [hd]
    show (if x ≠ 0 then commonMaxOrMin V V (isNeg T x ^^ isNeg U y) else 0) = _
    by_cases hx0 : x = 0
    · rw [if_neg (by simpa using hx0), if_pos hx0]
    · rw [if_pos hx0, if_neg hx0, sat_exact]
      by_cases hn : x < 0
      · rw [x1 hn (by omega), if_pos hn]; rfl
      · rw [x3 (by omega) (by omega), if_neg hn]; rfl
  · rw [if_neg h0]
    cases hd : divDo T U V x y with
    | some r =>
      obtain ⟨h1, h2⟩ := c132_div_sound T U V hV' x y r hx hy hd
      unfold exact at h1
      rw [if_neg h0] at h1
      simp only [Option.some.injEq] at h1
      rw [h1, clamp_id V r h2]
      rfl
    | none =>
      show (if x ≠ 0 then commonMaxOrMin V V (isNeg T x ^^ isNeg U y) else 0) = _
      by_cases hf : (bigEnough T U).2 = true ∨ (0 ≤ x ∧ 0 ≤ y)
      · have hno : ¬ In V (x.tdiv y) := by
          intro hc
          rw [div_exact T U V hV' x y hx hy hf] at hd
          have := (fit_iff V (exact .div T.bits x y) (x.tdiv y)).2 ⟨by unfold exact; rw [if_neg h0], hc⟩
          rw [this] at hd
          simp at hd
        have hx0 : x ≠ 0 := by
          rintro rfl
          apply hno
          rw [Int.zero_tdiv]
          unfold In; omega
        rw [if_pos hx0]
        apply clamp_side V _ _ hno
        · intro h
          rcases Int.lt_or_le x 0 with p | p <;> rcases Int.lt_or_le y 0 with q | q
          · have := t4 p q; omega
          · exact x1 p q
          · exact x2 p q
          · have := t3 p q; omega
        · intro h
          rcases Int.lt_or_le x 0 with p | p <;> rcases Int.lt_or_le y 0 with q | q
          · exact x4 p q
          · have := t1 p q; omega
          · have := t2 p q; omega
          · exact x3 p q
      · have hm : (bigEnough T U).2 = false := by
          cases hq : (bigEnough T U).2 with
          | true => exact absurd (Or.inl hq) hf
          | false => rfl
        have hlo : V.lo = 0 := by
          rcases hV with e | ⟨e, hq⟩
          · subst e; revert hm; cases T <;> cases U <;> decide
          · subst e
            rcases hq with hq | hq
            · rw [hm] at hq; simp at hq
            · have hy0 : y < 0 := by omega
              have hU : U.sg = true := by
                cases hq : U.sg with
                | true => rfl
                | false => have := (sign_lo U).2.1 hq; unfold In at hy; omega
              revert hm hU; cases V <;> cases U <;> decide
        have hboth : ¬ (x < 0 ∧ y < 0) := by
          rintro ⟨p, q⟩
          have a : T.sg = true := by
            cases hq : T.sg with
            | true => rfl
            | false => have := (sign_lo T).2.1 hq; unfold In at hx; omega
          have b : U.sg = true := by
            cases hq : U.sg with
            | true => rfl
            | false => have := (sign_lo U).2.1 hq; unfold In at hy; omega
          revert hm a b; cases T <;> cases U <;> decide
        have hq : x.tdiv y ≤ 0 := by
          rcases Int.lt_or_le x 0 with p | p
          · exact t1 p (by omega)
          · exact t2 p (by omega)
        have hc : clamp V (x.tdiv y) = 0 := by
          unfold clamp
          rw [hlo]
          by_cases hz : x.tdiv y < 0
          · rw [if_pos hz]
          · rw [if_neg hz, if_neg (by omega)]; omega
        rw [hc]
        by_cases hx0 : x = 0
        · rw [if_neg (by simpa using hx0)]
        · rw [if_pos hx0, sat_exact]
          have : (isNeg T x ^^ isNeg U y) = true := by
            rcases Int.lt_or_le x 0 with p | p
            · exact x1 p (by omega)
            · exact x2 p (by omega)
          rw [this, if_pos rfl, hlo]

/-- **C133 (assigned division by uint64)**: violation.  `ClampedNumeric<int64_t>(-100) /= uint64_t{10}` is the lowest
int64, for every negative signed number and every positive uint64. -/
theorem c133_div_violated (T : ITy) (hs : T.sg = true) (x y : Int) (hx : In T x) (hx0 : x < 0) (hy : In .u64 y) (hy0 : 0 < y) :
    clampDivDo T .u64 T x y = T.lo ∧ clamp T (x.tdiv y) = x.tdiv y := by
  obtain ⟨h1, _, h3⟩ := c132_div_violated T hs x y hx hx0 hy hy0
  refine ⟨?_, clamp_id _ _ h3⟩
  unfold clampDivDo
  change divDo T .u64 T x y = none at h1
  rw [h1]
  show (if x ≠ 0 then commonMaxOrMin T T (isNeg T x ^^ isNeg .u64 y) else 0) = _
  rw [if_pos (by omega), sat_exact, (xor_sign T .u64 x y hx hy).1 hx0 (by omega)]
  rfl

/-- **C133 (remainder)**: the remainder if the destination type has it (not a negative number with uint64); a
remainder by zero is the dividend if the destination type has that. -/
theorem c133_mod (T U V : ITy) (x y : Int) (hx : In T x) (hy : In U y) :
    (y = 0 → In V x → clampModDo T U V x y = x) ∧
    (y ≠ 0 → Fine .mod T U x y → In V (x.tmod y) → clampModDo T U V x y = x.tmod y) := by
  unfold clampModDo
  constructor
  · intro h0 hv
    have hd : modDo T U V x y = none := by unfold modDo; rw [if_pos h0]
    rw [hd]
    exact wrap_id V x hv
  · intro h0 hf hv
    rw [mod_exact T U V x y hx hy hf, (fit_iff V (exact .mod T.bits x y) (x.tmod y)).2 ⟨exact_mod _ _ _ h0, hv⟩]
    rfl

/-- **C133 (remainder of mixed signs)**: violation.  If the result type is unsigned and the remainder negative, the
result is not saturated to 0 but the dividend modulo a power of two: `ClampMod(-5, 3u)` is 4294967291. -/
theorem c133_mod_violated (T U V : ITy) (x y : Int) (hx : In T x) (hy : In U y) (h0 : y ≠ 0) (hb : (bigEnough T U).2 = true)
    (hv : V.sg = false) (hn : x.tmod y < 0) : clampModDo T U V x y = V.wrap x ∧ clamp V (x.tmod y) = 0 ∧
    clampModDo .i32 .u32 .u32 (-5) 3 = 4294967291 ∧ (-5 : Int).tmod 3 = -2 := by
  have hl := (sign_lo V).2.1 hv
  refine ⟨?_, ?_, by decide +kernel, by decide⟩
  · unfold clampModDo
    rw [mod_exact T U V x y hx hy (Or.inl hb)]
    have : fit V (exact .mod T.bits x y) = none := by
      rw [exact_mod _ _ _ h0]
      show (if In V (x.tmod y) then some (x.tmod y) else none) = none
      rw [if_neg]
      unfold In; omega
    rw [this]
    rfl
  · unfold clamp
    rw [if_pos (by omega), hl]

theorem pow_pos' (n : Nat) : (0 : Int) < 2 ^ n := by positivity

/-- The lowest value is minus a power of two. -/
theorem lo_pow (t : ITy) (h : t.sg = true) : t.lo = -(2 ^ t.digits) ∧ t.hi = 2 ^ t.digits - 1 := by
  revert h; cases t <;> decide

/-- **C133 (left shift)**: the number times the power of two, saturated, for every amount. -/
theorem c133_lsh (T : ITy) (x s : Int) (hx : In T x) (hs : 0 ≤ s) : clampLshDo T x s = clamp T (x * 2 ^ s.toNat) := by
  have hp := pow_pos' s.toNat
  have hn := isNeg_iff T x hx
  have hh := (sign_lo T).2.2
  have hl : T.lo ≤ 0 := by cases T <;> decide
  have hdb : T.digits ≤ T.bits := by cases T <;> decide
  have hneg : x < 0 → x * 2 ^ s.toNat ≤ x := by
    intro h
    have := Int.mul_le_mul_of_nonpos_left (show x ≤ 0 by omega) (show (1 : Int) ≤ 2 ^ s.toNat by omega)
    omega
  have hpos : 0 < x → x ≤ x * 2 ^ s.toNat := by
    intro h
    have := Int.mul_le_mul_of_nonneg_left (show (1 : Int) ≤ 2 ^ s.toNat by omega) (show 0 ≤ x by omega)
    omega
  have hsat : ¬ In T (x * 2 ^ s.toNat) → (if x ≠ 0 then commonMaxOrMin T T (isNeg T x) else 0) = clamp T (x * 2 ^ s.toNat) := by
    intro hno
    have hx0 : x ≠ 0 := by
      rintro rfl
      apply hno
      rw [Int.zero_mul]; unfold In; omega
    rw [if_pos hx0]
    apply clamp_side T _ _ hno
    · intro h
      apply hn.2
      by_contra hc
      have := hpos (by omega)
      unfold In at hx; omega
    · intro h
      cases hq : isNeg T x with
      | false => rfl
      | true =>
        have := hneg (hn.1 hq)
        unfold In at hx; omega
  have hw : T.wrap (T.uns.promote.wrap (T.uns.wrap x * 2 ^ s.toNat)) = T.wrap (x * 2 ^ s.toNat) := by
    rw [wrap_wrap]
    obtain ⟨k, hk⟩ := wrap_shift T.uns x
    have hc : T.uns.card = T.card := by cases T <;> rfl
    rw [hk, hc, show (x - T.card * k) * 2 ^ s.toNat = x * 2 ^ s.toNat - T.card * (k * 2 ^ s.toNat) by ring, wrap_sub_mul]
  unfold clampLshDo
  rw [hw]
  by_cases hd : s < T.digits
  · have key := shift_back T x s.toNat (by omega)
    by_cases hi : In T (x * 2 ^ s.toNat)
    · rw [if_pos ⟨hd, key.2 hi⟩, wrap_id _ _ hi, clamp_id _ _ hi]
    · rw [if_neg (fun hc => hi (key.1 hc.2))]
      exact hsat hi
  · rw [if_neg (fun hc => hd hc.1)]
    by_cases hi : In T (x * 2 ^ s.toNat)
    · -- only 0, and -1 shifted to the sign bit
      have hge : (2 : Int) ^ T.digits ≤ 2 ^ s.toNat := by
        have : T.digits ≤ s.toNat := by omega
        exact_mod_cast Nat.pow_le_pow_right (by decide) this
      rw [clamp_id _ _ hi]
      by_cases hx0 : x = 0
      · subst hx0; simp
      · rw [if_pos hx0, sat_exact]
        rcases Int.lt_or_le x 0 with p | p
        · rw [hn.2 p]
          have hs : T.sg = true := by
            cases hq : T.sg with
            | true => rfl
            | false => have := (sign_lo T).2.1 hq; unfold In at hx; omega
          obtain ⟨e1, e2⟩ := lo_pow T hs
          have : x * 2 ^ s.toNat ≤ (-1) * 2 ^ s.toNat := Int.mul_le_mul_of_nonneg_right (by omega) (by omega)
          unfold In at hi
          show T.lo = _
          omega
        · exfalso
          have e2 : T.hi = 2 ^ T.digits - 1 := (hi_digits T).1
          have : 1 * 2 ^ s.toNat ≤ x * 2 ^ s.toNat := Int.mul_le_mul_of_nonneg_right (by omega) (by omega)
          unfold In at hi
          omega
    · exact hsat hi

/-- **C133 (right shift)**: the number divided by the power of two and rounded down, for every amount. -/
theorem c133_rsh (known : Bool) (T : ITy) (x s : Int) (hx : In T x) (hs : 0 ≤ s) : clampRshDo known T T x s = x / 2 ^ s.toNat := by
  have hp := pow_pos' s.toNat
  have hi := shr_in T x s.toNat hx
  have hpr : T.promote.lo ≤ T.lo ∧ T.hi ≤ T.promote.hi := by cases T <;> decide
  have hi2 := in_of T.promote T _ hpr.1 hpr.2 hi
  unfold clampRshDo
  by_cases h : s < T.bits
  · rw [if_pos h, wrap_id _ _ hi2, c131_saturated_cast known T T.promote _ hi2, clamp_id _ _ hi]
  · rw [if_neg h]
    have hge : (2 : Int) ^ T.bits ≤ 2 ^ s.toNat := by
      have : T.bits ≤ s.toNat := by omega
      exact_mod_cast Nat.pow_le_pow_right (by decide) this
    have hb : T.hi < 2 ^ T.bits ∧ -(2 ^ T.bits) ≤ T.lo := by cases T <;> decide
    have hn := isNeg_iff T x hx
    rcases Int.lt_or_le x 0 with p | p
    · rw [hn.2 p]
      have hm : In T (-1) := by
        have hs : T.sg = true := by
          cases hq : T.sg with
          | true => rfl
          | false => have := (sign_lo T).2.1 hq; unfold In at hx; omega
        revert hs; cases T <;> decide
      rw [if_pos rfl, show (0 - 1 : Int) = -1 by rfl, wrap_id _ _ hm]
      symm
      rw [Int.ediv_eq_iff_of_pos hp] <;> unfold In at hx <;> omega
    · have hnn : ¬ isNeg T x = true := fun hc => by have := hn.1 hc; omega
      rw [if_neg hnn, show (0 - 0 : Int) = 0 by rfl, wrap_id T 0 (by cases T <;> decide)]
      symm
      apply Int.ediv_eq_zero_of_lt p
      unfold In at hx
      omega

/-- **C133 (maximum and minimum)**: exact. -/
theorem c133_max_min (known : Bool) (T U : ITy) (x y : Int) (hx : In T x) (hy : In U y) :
    clampMaxDo known T U (mep T U) x y = max x y ∧ clampMinDo known T U (lvp T U) x y = min x y := by
  have hst : T.hi ≤ (mep T U).hi ∧ U.hi ≤ (mep T U).hi ∧ (mep T U).lo ≤ max T.lo U.lo := by
    cases T <;> cases U <;> decide
  have hst2 : (lvp T U).lo ≤ T.lo ∧ (lvp T U).lo ≤ U.lo ∧ min T.hi U.hi ≤ (lvp T U).hi := by
    cases T <;> cases U <;> decide
  unfold clampMaxDo clampMinDo
  rw [(c131_compare .gt T U x y hx hy).1, (c131_compare .lt T U x y hx hy).1]
  constructor
  · unfold Cmp.test
    by_cases h : x > y
    · rw [if_pos (by simpa using h), c131_saturated_cast _ _ _ _ hx, clamp_id]
      · omega
      · unfold In at *; omega
    · rw [if_neg (by simpa using h), c131_saturated_cast _ _ _ _ hy, clamp_id]
      · omega
      · unfold In at *; omega
  · unfold Cmp.test
    by_cases h : x < y
    · rw [if_pos (by simpa using h), c131_saturated_cast _ _ _ _ hx, clamp_id]
      · omega
      · unfold In at *; omega
    · rw [if_neg (by simpa using h), c131_saturated_cast _ _ _ _ hy, clamp_id]
      · omega
      · unfold In at *; omega

/-- **C133 (negation and absolute value)**: saturated, for signed and unsigned numbers. -/
theorem c133_neg_abs (known : Bool) (t : ITy) (x : Int) (hx : In t x) :
    clampNeg known t x = clamp t (-x) ∧ clampAbs t x = clamp t (if x < 0 then -x else x) := by
  have hh := (sign_lo t).2.2
  obtain ⟨u1, u2⟩ := uabs_exact t x hx
  cases hs : t.sg with
  | true =>
    have hst : t.lo = -t.hi - 1 ∧ t.card = 2 * (t.hi + 1) ∧ t.uns.card = t.card := by revert hs; cases t <;> decide
    obtain ⟨s1, s2, s3⟩ := hst
    have hnv : x = t.lo → t.wrap (-x) = t.lo := by
      intro hl
      have h1 := wrap_sub_mul t (-x) 1
      rw [← h1, wrap_id]
      · omega
      · unfold In; omega
    constructor
    · unfold clampNeg
      rw [if_pos hs]
      cases known with
      | true =>
        rw [if_pos rfl, negate_exact t x hx]
        by_cases hl : x = t.lo
        · rw [hnv hl, if_neg (by simp)]
          unfold clamp
          rw [if_neg (by omega), if_pos (by omega)]
        · have hi : In t (-x) := by unfold In at *; omega
          rw [wrap_id _ _ hi, if_pos (by unfold In at hx; omega), clamp_id _ _ hi]
      | false =>
        rw [if_neg (by simp)]
        unfold builtin
        by_cases hi : In t (-x)
        · rw [if_pos (by simpa using hi), clamp_id _ _ hi]
          simp
        · rw [if_neg (by simpa using hi)]
          unfold clamp
          unfold In at hi hx
          rw [if_neg (by omega), if_pos (by omega)]
          rfl
    · unfold clampAbs
      rw [u1]
      by_cases hl : x = t.lo
      · have hx0 : x < 0 := by omega
        rw [if_pos hx0, hnv hl]
        have : isNeg t t.lo = true := by unfold isNeg; rw [hs]; simp; omega
        rw [if_pos this]
        unfold clamp
        rw [if_neg (by omega), if_pos (by omega)]
        rw [wrap_id]
        · omega
        · unfold In; omega
      · have hi : In t (if x < 0 then -x else x) := by
          split <;> (unfold In at *; omega)
        rw [wrap_id _ _ hi]
        have : ¬ isNeg t (if x < 0 then -x else x) = true := by
          intro hc
          have := (isNeg_iff t _ hi).1 hc
          split at this <;> omega
        rw [if_neg this, Int.sub_zero, wrap_id _ _ hi, clamp_id _ _ hi]
  | false =>
    have hl := (sign_lo t).2.1 hs
    have hx0 : ¬ x < 0 := by unfold In at hx; omega
    constructor
    · unfold clampNeg
      rw [hs, if_neg (by simp)]
      unfold clamp
      unfold In at hx
      by_cases hz : x = 0
      · subst hz
        rw [if_neg (by omega), if_neg (by omega)]
        simp
      · rw [if_pos (by omega), hl]
    · unfold clampAbs
      rw [u1, if_neg hx0, wrap_id _ _ hx]
      have : isNeg t x = false := by unfold isNeg; rw [hs]; rfl
      rw [this]
      simp only [Bool.false_eq_true, if_false, Int.sub_zero]
      rw [wrap_id _ _ hx, clamp_id _ _ hx]

/-! ### Examples -/

/-- int8: 100 + 100 is 127, -100 - 100 is -128, -128 negated is 127; int32 -5 plus uint32 3 is the largest uint32. -/
example : clampAddDo .i8 .i8 100 100 = 127 ∧ clampSubDo .i8 .i8 (-100) 100 = -128 ∧ clampNeg false .i8 (-128) = 127 ∧
    clampAddDo .u32 .u32 (-5) 3 = 4294967295 ∧ clampAddDo .i32 .u32 3 (-5) = 0 ∧ clampLshDo .i8 (-1) 7 = -128 ∧
    clampRshDo false .i8 .i8 (-5) 100 = -1 ∧ clampDivDo .i8 .i8 .i8 5 0 = 127 ∧ clampAbs .i8 (-128) = 127 ∧
    clampDivDo .i64 .u64 .i64 (-100) 10 = -9223372036854775808 := by
  decide +kernel

end Ltio.Num
