import Verif.Http.Encode

/-
C209, C210: `base::PrettyBytes` (base/sys/sys_info.h:19-30), a size written with two decimals and a unit.

`double count = bytes` rounds to 53 significant bits, half to even; dividing by 1024 is exact then; `std::fixed` with
two decimals rounds the exact value, half to even (IEEE 754; glibc's printf).
-/
namespace Ltio.Text.PrettyBytes
open Ltio.Http

abbrev Str := List Char

/-! ### The program -/

/-- `a / b` to the nearest integer, half to even. -/
def roundEven (a b : Nat) : Nat :=
  if 2 * (a % b) < b then a / b
  else if b < 2 * (a % b) then a / b + 1
  else if a / b % 2 = 0 then a / b else a / b + 1

/-- `double count = bytes` (sys_info.h:23). -/
def toDouble (n : Nat) : Nat :=
  if n < 2 ^ 53 then n else roundEven n (2 ^ (n.log2 - 52)) * 2 ^ (n.log2 - 52)

/-- The loop (sys_info.h:24-26): after `s` divisions the count is `d / 1024^s`; at most four divisions. -/
def unitLoop (d : Nat) : Nat → Nat → Nat
  | 0, s => s
  | k + 1, s => if d ≥ 1024 * 1024 ^ s then unitLoop d k (s + 1) else s

/-- Which suffix is used. -/
def unit (n : Nat) : Nat := unitLoop (toDouble n) 4 0

/-- The number written, in hundredths (sys_info.h:28). -/
def hundredths (n : Nat) : Nat := roundEven (100 * toDouble n) (1024 ^ unit n)

/-- sys_info.h:20. -/
def suffixes : List Str := ["B".toList, "KB".toList, "MB".toList, "GB".toList, "TB".toList]

/-- One decimal digit. -/
def digit (d : Nat) : Char := Char.ofNat (48 + d % 10)

/-- What is returned. -/
def prettyBytes (n : Nat) : Str :=
  dec (hundredths n / 100) ++ '.' :: digit (hundredths n / 10) :: digit (hundredths n) :: suffixes.getD (unit n) []

/-! ### Specification: a reader -/

/-- Reads such a text: hundredths and unit. -/
def readPretty (s : Str) : Option (Nat × Nat) :=
  match readDec (s.takeWhile Char.isDigit), s.dropWhile Char.isDigit with
  | some w, '.' :: x :: y :: suf =>
    match suffixes.findIdx? (fun t => t == suf) with
    | some u => some (100 * w + 10 * (x.toNat - 48) + (y.toNat - 48), u)
    | none => none
  | _, _ => none

/-! ### Proofs -/

theorem round_mul (k b : Nat) (hb : 0 < b) : roundEven (k * b) b = k := by
  unfold roundEven
  rw [Nat.mul_mod_left, Nat.mul_div_cancel _ hb, if_pos (by omega)]

theorem round_mono {a a' : Nat} (b : Nat) (hb : 0 < b) (h : a ≤ a') : roundEven a b ≤ roundEven a' b := by
  have e1 := Nat.div_add_mod a b
  have e2 := Nat.div_add_mod a' b
  have hq : a / b ≤ a' / b := Nat.div_le_div_right h
  by_cases e : a / b = a' / b
  · have hr : a % b ≤ a' % b := by rw [e] at e1; omega
    unfold roundEven
    rw [e]
    repeat' split
    all_goals omega
  · unfold roundEven
    repeat' split
    all_goals omega

theorem round_close (a b : Nat) (hb : 0 < b) : 2 * (roundEven a b * b) ≤ 2 * a + b ∧ 2 * a ≤ 2 * (roundEven a b * b) + b := by
  have e1 := Nat.div_add_mod a b
  have hr := Nat.mod_lt a hb
  have hm : a / b * b = b * (a / b) := Nat.mul_comm _ _
  have hs : (a / b + 1) * b = b * (a / b) + b := by rw [Nat.add_mul, Nat.one_mul, hm]
  unfold roundEven
  repeat' split
  all_goals first | rw [hm] | rw [hs]
  all_goals omega

theorem log2_bounds {n : Nat} (h : 2 ^ 53 ≤ n) : 2 ^ 52 * 2 ^ (n.log2 - 52) ≤ n ∧ n < 2 ^ 53 * 2 ^ (n.log2 - 52) ∧ 53 ≤ n.log2 := by
  have hn : n ≠ 0 := by intro e; rw [e] at h; exact absurd h (by decide)
  have h53 : 53 ≤ n.log2 := (Nat.le_log2 hn).2 h
  have h1 := Nat.log2_self_le hn
  have h2 := @Nat.lt_log2_self n
  rw [← Nat.pow_add, ← Nat.pow_add, show 52 + (n.log2 - 52) = n.log2 by omega, show 53 + (n.log2 - 52) = n.log2 + 1 by omega]
  exact ⟨h1, h2, h53⟩

theorem double_bounds {n : Nat} (h : 2 ^ 53 ≤ n) : 2 ^ 52 * 2 ^ (n.log2 - 52) ≤ toDouble n ∧ toDouble n ≤ 2 ^ 53 * 2 ^ (n.log2 - 52) := by
  obtain ⟨h1, h2, _⟩ := log2_bounds h
  have hp : 0 < 2 ^ (n.log2 - 52) := Nat.two_pow_pos _
  unfold toDouble
  rw [if_neg (by omega)]
  constructor
  · apply Nat.mul_le_mul_right
    calc 2 ^ 52 = roundEven (2 ^ 52 * 2 ^ (n.log2 - 52)) (2 ^ (n.log2 - 52)) := (round_mul _ _ hp).symm
      _ ≤ _ := round_mono _ hp h1
  · apply Nat.mul_le_mul_right
    calc roundEven n (2 ^ (n.log2 - 52)) ≤ roundEven (2 ^ 53 * 2 ^ (n.log2 - 52)) (2 ^ (n.log2 - 52)) := round_mono _ hp (by omega)
      _ = 2 ^ 53 := round_mul _ _ hp

theorem double_mono {m n : Nat} (h : m ≤ n) : toDouble m ≤ toDouble n := by
  by_cases hm : m < 2 ^ 53
  · by_cases hn : n < 2 ^ 53
    · unfold toDouble; rw [if_pos hm, if_pos hn]; exact h
    · have hn' : 2 ^ 53 ≤ n := by omega
      have h53 := (log2_bounds hn').2.2
      have h1 := (double_bounds hn').1
      have : (2:Nat) ^ 53 ≤ 2 ^ 52 * 2 ^ (n.log2 - 52) := by
        rw [← Nat.pow_add]; exact Nat.pow_le_pow_right (by decide) (by omega)
      have e : toDouble m = m := by unfold toDouble; rw [if_pos hm]
      omega
  · have hm' : 2 ^ 53 ≤ m := by omega
    have hn' : 2 ^ 53 ≤ n := by omega
    have hm0 : m ≠ 0 := by intro e; rw [e] at hm'; exact absurd hm' (by decide)
    have hn0 : n ≠ 0 := by intro e; rw [e] at hn'; exact absurd hn' (by decide)
    have hl : m.log2 ≤ n.log2 := (Nat.le_log2 hn0).2 (Nat.le_trans (Nat.log2_self_le hm0) h)
    by_cases he : m.log2 = n.log2
    · unfold toDouble
      rw [if_neg (by omega), if_neg (by omega), he]
      exact Nat.mul_le_mul_right _ (round_mono _ (Nat.two_pow_pos _) h)
    · refine Nat.le_trans (double_bounds hm').2 (Nat.le_trans ?_ (double_bounds hn').1)
      have h53 := (log2_bounds hm').2.2
      rw [← Nat.pow_add, ← Nat.pow_add]
      exact Nat.pow_le_pow_right (by decide) (by omega)

/-- The unit is the largest the (rounded) size reaches. -/
theorem unit_spec (d : Nat) : unitLoop d 4 0 ≤ 4 ∧ (0 < unitLoop d 4 0 → 1024 ^ unitLoop d 4 0 ≤ d) ∧
    (unitLoop d 4 0 < 4 → d < 1024 * 1024 ^ unitLoop d 4 0) := by
  simp only [unitLoop]
  repeat' split
  all_goals simp only [Nat.reduceAdd, Nat.reducePow, Nat.reduceMul] at *
  all_goals omega

theorem unit_mono {d e : Nat} (h : d ≤ e) : unitLoop d 4 0 ≤ unitLoop e 4 0 := by
  simp only [unitLoop]
  repeat' split
  all_goals simp only [Nat.reduceAdd, Nat.reducePow, Nat.reduceMul] at *
  all_goals omega

theorem double_close (n : Nat) (h : n < 2 ^ 64) : toDouble n ≤ n + 1024 ∧ n ≤ toDouble n + 1024 ∧ (n ≤ 2 ^ 53 → toDouble n = n) := by
  by_cases hn : n < 2 ^ 53
  · have : toDouble n = n := by unfold toDouble; rw [if_pos hn]
    rw [this]; exact ⟨by omega, by omega, fun _ => rfl⟩
  · have hn' : 2 ^ 53 ≤ n := by omega
    have hn0 : n ≠ 0 := by intro e; rw [e] at hn'; exact absurd hn' (by decide)
    have hl : n.log2 < 64 := (Nat.log2_lt hn0).2 h
    have hp : 0 < 2 ^ (n.log2 - 52) := Nat.two_pow_pos _
    have hb : 2 ^ (n.log2 - 52) ≤ 2 ^ 11 := Nat.pow_le_pow_right (by decide) (by omega)
    have hc := round_close n _ hp
    have e : toDouble n = roundEven n (2 ^ (n.log2 - 52)) * 2 ^ (n.log2 - 52) := by unfold toDouble; rw [if_neg hn]
    rw [← e] at hc
    have h11 : (2:Nat) ^ 11 = 2048 := by decide
    refine ⟨by omega, by omega, fun hle => ?_⟩
    have : n = 2 ^ 53 := by omega
    subst this
    decide +kernel

/-- **C210: the size written is the size.**  The number written, times its unit, differs from the size by at most half of a hundredth of the unit,
and, for sizes above 2^53, by 1 KiB more. -/
theorem c210_close (n : Nat) (h : n < 2 ^ 64) :
    2 * (hundredths n * 1024 ^ unit n) ≤ 2 * (100 * n) + 1024 ^ unit n + (if n ≤ 2 ^ 53 then 0 else 204800) ∧
    2 * (100 * n) ≤ 2 * (hundredths n * 1024 ^ unit n) + 1024 ^ unit n + (if n ≤ 2 ^ 53 then 0 else 204800) := by
  obtain ⟨h1, h2, h3⟩ := double_close n h
  have hc := round_close (100 * toDouble n) (1024 ^ unit n) (Nat.pow_pos (by decide))
  have e : hundredths n = roundEven (100 * toDouble n) (1024 ^ unit n) := rfl
  rw [← e] at hc
  by_cases hn : n ≤ 2 ^ 53
  · rw [if_pos hn]
    rw [h3 hn] at hc
    exact ⟨by omega, by omega⟩
  · rw [if_neg hn]
    exact ⟨by omega, by omega⟩

/-- **C210: the unit is the largest that fits.**  For sizes a `double` holds exactly. -/
theorem c210_unit (n : Nat) (h : n ≤ 2 ^ 53) :
    unit n ≤ 4 ∧ (0 < unit n → 1024 ^ unit n ≤ n) ∧ (unit n < 4 → n < 1024 ^ (unit n + 1)) := by
  have hs := unit_spec (toDouble n)
  rw [(double_close n (by omega)).2.2 h] at hs
  unfold unit
  rw [(double_close n (by omega)).2.2 h, Nat.pow_succ, Nat.mul_comm]
  exact hs

theorem round_tie (a b k : Nat) (hb : 0 < b) (h : 2 * a = (2 * k + 1) * b) : roundEven a b % 2 = 0 := by
  have e : (2 * k + 1) * b = 2 * (b * k) + b := by rw [Nat.add_mul, Nat.one_mul, Nat.mul_assoc, Nat.mul_comm k b]
  obtain ⟨r, hr⟩ : ∃ r, a = r + b * k := ⟨a - b * k, by omega⟩
  have hq : a / b = k := by rw [hr, Nat.add_mul_div_left _ _ hb, Nat.div_eq_of_lt (by omega), Nat.zero_add]
  have hm : a % b = r := by rw [hr, Nat.add_mul_mod_self_left, Nat.mod_eq_of_lt (by omega)]
  unfold roundEven
  rw [hq, hm, if_neg (by omega), if_neg (by omega)]
  split <;> omega

/-- **C210: halves go to the even hundredth.**  A size exactly halfway between two hundredths of its unit is written as the even one. -/
theorem c210_ties (n k : Nat) (h : n ≤ 2 ^ 53) (ht : 2 * (100 * n) = (2 * k + 1) * 1024 ^ unit n) : hundredths n % 2 = 0 := by
  unfold hundredths
  rw [(double_close n (by omega)).2.2 h]
  exact round_tie _ _ k (Nat.pow_pos (by decide)) ht

/-- **C210: larger sizes never look smaller.** -/
theorem c210_monotone (m n : Nat) (h : m ≤ n) : hundredths m * 1024 ^ unit m ≤ hundredths n * 1024 ^ unit n := by
  have hd := double_mono h
  have hu : unit m ≤ unit n := unit_mono hd
  rcases Nat.lt_or_ge (unit m) (unit n) with hlt | hge
  · have sm := unit_spec (toDouble m)
    have sn := unit_spec (toDouble n)
    have hm : toDouble m < 1024 * 1024 ^ unit m := sm.2.2 (Nat.lt_of_lt_of_le hlt sn.1)
    have hn : 1024 ^ unit n ≤ toDouble n := sn.2.1 (by have : unit n = unitLoop (toDouble n) 4 0 := rfl; omega)
    have pm : 0 < 1024 ^ unit m := Nat.pow_pos (by decide)
    have pn : 0 < 1024 ^ unit n := Nat.pow_pos (by decide)
    have a1 : hundredths m ≤ 102400 := by
      calc hundredths m ≤ roundEven (102400 * 1024 ^ unit m) (1024 ^ unit m) := round_mono _ pm (by omega)
        _ = 102400 := round_mul _ _ pm
    have a2 : 100 ≤ hundredths n := by
      calc 100 = roundEven (100 * 1024 ^ unit n) (1024 ^ unit n) := (round_mul _ _ pn).symm
        _ ≤ _ := round_mono _ pn (by omega)
    have a3 : 1024 ^ (unit m + 1) ≤ 1024 ^ unit n := Nat.pow_le_pow_right (by decide) hlt
    rw [Nat.pow_succ] at a3
    calc hundredths m * 1024 ^ unit m ≤ 102400 * 1024 ^ unit m := Nat.mul_le_mul_right _ a1
      _ = 100 * (1024 ^ unit m * 1024) := by omega
      _ ≤ 100 * 1024 ^ unit n := Nat.mul_le_mul_left _ a3
      _ ≤ _ := Nat.mul_le_mul_right _ a2
  · have e : unit m = unit n := by omega
    unfold hundredths
    rw [e]
    exact Nat.mul_le_mul_right _ (round_mono _ (Nat.pow_pos (by decide)) (by omega))

theorem digit_digit (d : Nat) : (digit d).isDigit = true ∧ (digit d).toNat = 48 + d % 10 := by
  have key : ∀ k < 10, (Char.ofNat (48 + k)).isDigit = true ∧ (Char.ofNat (48 + k)).toNat = 48 + k := by decide
  exact key (d % 10) (Nat.mod_lt _ (by decide))

/-- **C210: the text says this number and unit.** -/
theorem c210_text (n : Nat) : readPretty (prettyBytes n) = some (hundredths n, unit n) := by
  have hdig : ∀ c ∈ dec (hundredths n / 100), c.isDigit = true := fun c hc => (dec_digits _ c hc).1
  have h1 : (prettyBytes n).takeWhile Char.isDigit = dec (hundredths n / 100) := by
    unfold prettyBytes
    rw [List.takeWhile_append_of_pos hdig]
    simp [show Char.isDigit '.' = false by decide]
  have h2 : (prettyBytes n).dropWhile Char.isDigit = '.' :: digit (hundredths n / 10) :: digit (hundredths n) :: suffixes.getD (unit n) [] := by
    unfold prettyBytes
    rw [List.dropWhile_append_of_pos hdig, List.dropWhile_cons_of_neg (by decide)]
  have h3 : ∀ u ≤ 4, suffixes.findIdx? (fun t => t == suffixes.getD u []) = some u := by decide +kernel
  unfold readPretty
  rw [h1, h2, readDec_dec]
  simp only [h3 (unit n) (unit_spec _).1, (digit_digit _).2]
  congr 2
  omega

/-- **C209, violation.**  Sizes just below 1024 of a unit (from KB on) are written as 1024.00 of it, not as 1.00 of the next. -/
theorem c209_next_unit_violated (s n : Nat) (hs : s < 4) (hl : n < 1024 ^ (s + 1)) (h : 200 * (1024 ^ (s + 1) - n) ≤ 1024 ^ s) :
    readPretty (prettyBytes n) = some (102400, s) := by
  have h53 : n ≤ 2 ^ 53 := by
    have : (1024:Nat) ^ (s + 1) ≤ 1024 ^ 4 := Nat.pow_le_pow_right (by decide) (by omega)
    have : (1024:Nat) ^ 4 ≤ 2 ^ 53 := by decide
    omega
  have hd := (double_close n (by omega)).2.2 h53
  rw [c210_text]
  have hu : unit n = s := by
    unfold unit
    rw [hd]
    have : s = 0 ∨ s = 1 ∨ s = 2 ∨ s = 3 := by omega
    rcases this with rfl | rfl | rfl | rfl <;> simp only [unitLoop] <;> repeat' split
    all_goals simp only [Nat.reduceAdd, Nat.reducePow, Nat.reduceMul] at *
    all_goals omega
  have hh : hundredths n = 102400 := by
    have up : hundredths n ≤ 102400 := by
      unfold hundredths
      rw [hd, hu]
      have p : 0 < 1024 ^ s := Nat.pow_pos (by decide)
      calc roundEven (100 * n) (1024 ^ s) ≤ roundEven (102400 * 1024 ^ s) (1024 ^ s) := round_mono _ p (by rw [Nat.pow_succ] at hl; omega)
        _ = 102400 := round_mul _ _ p
    have low : 102400 ≤ hundredths n := by
      unfold hundredths
      rw [hd, hu]
      have : s = 0 ∨ s = 1 ∨ s = 2 ∨ s = 3 := by omega
      rcases this with rfl | rfl | rfl | rfl
      · exact absurd h (by omega)
      · calc 102400 = roundEven (102399 * 1024 + 512) (1024 ^ 1) := by decide +kernel
          _ ≤ _ := round_mono _ (by decide) (by omega)
      · calc 102400 = roundEven (102399 * 1048576 + 524288) (1024 ^ 2) := by decide +kernel
          _ ≤ _ := round_mono _ (by decide) (by omega)
      · calc 102400 = roundEven (102399 * 1073741824 + 536870912) (1024 ^ 3) := by decide +kernel
          _ ≤ _ := round_mono _ (by decide) (by omega)
    omega
  rw [hh, hu]

/-! ### Examples -/

theorem w_c209 : prettyBytes 1048575 = "1024.00KB".toList ∧ (1048575 < 1024 ^ 2 ∧ 200 * (1024 ^ 2 - 1048575) ≤ 1024 ^ 1) := by
  constructor <;> decide +kernel

/-- 1.125 and 1.375 KiB. -/
theorem w_c210_ties : prettyBytes 1152 = "1.12KB".toList ∧ prettyBytes 1408 = "1.38KB".toList ∧
    2 * (100 * 1152) = (2 * 112 + 1) * 1024 ^ unit 1152 := by decide +kernel

theorem w_c210 : prettyBytes 1536 = "1.50KB".toList ∧ prettyBytes 18446744073709551615 = "16777216.00TB".toList ∧ prettyBytes 0 = "0.00B".toList := by
  refine ⟨?_, ?_, ?_⟩ <;> decide +kernel

end Ltio.Text.PrettyBytes
