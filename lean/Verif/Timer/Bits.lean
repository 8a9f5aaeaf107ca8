import Mathlib.Data.Nat.Bitwise
import Mathlib.Data.Nat.Log
import Mathlib.Tactic.Ring

/-
The bit arithmetic of the hierarchical timing wheel, thirdparty/timeout/timeout.c and
thirdparty/timeout/bitops.h (the loop's timers, C26).  64-bit unsigned values are natural numbers
below 2^64; slot sets (`wheel_t`) are 64-bit vectors.
-/
namespace Ltio.Wheel

/-- `WHEEL_BIT` (timeout.c:106-108). -/
abbrev wheelBit : Nat := 6

/-- `WHEEL_NUM` (timeout.c:110-112). -/
abbrev wheelNum : Nat := 4

/-- `TIMEOUT_MAX` (timeout.c:117). -/
def timeoutMax : Nat := 2 ^ (wheelBit * wheelNum) - 1

/-- `fls` (timeout.c:124): index of the highest set bit, plus one. -/
def fls (n : Nat) : Nat := if n = 0 then 0 else Nat.log2 n + 1

/-- `timeout_wheel` (timeout.c:256-260). -/
def timeoutWheel (curtime expires : Nat) : Nat :=
  (fls (min (curtime ^^^ expires) timeoutMax) - 1) / wheelBit

/-- `timeout_slot` (timeout.c:262-265). -/
def timeoutSlot (wheel expires : Nat) : Nat := 63 &&& (expires >>> (wheel * wheelBit))

/-- `rotl64` (bitops.h:174-181); `-c & 63` is `(64 - c) % 64`. -/
def rotl (v : BitVec 64) (c : Nat) : BitVec 64 :=
  (v <<< (c % 64)) ||| (v >>> ((64 - c % 64) % 64))

/-- `rotr64` (bitops.h:183-189). -/
def rotr (v : BitVec 64) (c : Nat) : BitVec 64 :=
  (v >>> (c % 64)) ||| (v <<< ((64 - c % 64) % 64))

/-- `elapsed` (timeout.c:347), a `uint64_t` difference. -/
def elapsed (cur now : Nat) : Nat := (now + 2 ^ 64 - cur) % 2 ^ 64

/-- The slots of a wheel an update passes (timeout.c:356-385). -/
def passed (cur now wheel : Nat) : BitVec 64 :=
  if 63 ≤ elapsed cur now >>> (wheel * wheelBit) then BitVec.allOnes 64
  else
    rotl ((1#64 <<< (63 &&& (64 + (63 &&& (now >>> (wheel * wheelBit))) -
      (63 &&& (cur >>> (wheel * wheelBit)))))) - 1#64)
      ((63 &&& (cur >>> (wheel * wheelBit))) + 1)

/-! ### Facts -/

theorem and63 (n : Nat) : 63 &&& n = n % 64 := by
  rw [Nat.and_comm]; exact Nat.and_two_pow_sub_one_eq_mod n 6

theorem shr (n w : Nat) : n >>> (w * wheelBit) = n / 64 ^ w := by
  rw [Nat.shiftRight_eq_div_pow, show (2 : Nat) ^ (w * wheelBit) = 64 ^ w by
    rw [Nat.mul_comm, Nat.pow_mul]; rfl]

theorem timeoutSlot_eq (w e : Nat) : timeoutSlot w e = e / 64 ^ w % 64 := by
  unfold timeoutSlot; rw [and63, shr]

theorem timeoutSlot_lt (w e : Nat) : timeoutSlot w e < 64 := by
  rw [timeoutSlot_eq]; exact Nat.mod_lt _ (by omega)

theorem log2_lt_pow {n k : Nat} (h : n ≠ 0) : Nat.log2 n < k ↔ n < 2 ^ k := Nat.log2_lt h

theorem xor_div_ne {a b k : Nat} (h : 2 ^ k ≤ a ^^^ b) : a / 2 ^ k ≠ b / 2 ^ k := by
  intro e
  have h1 : (a ^^^ b) >>> k = 0 := by
    rw [Nat.shiftRight_xor_distrib, Nat.shiftRight_eq_div_pow, Nat.shiftRight_eq_div_pow, e, Nat.xor_self]
  rw [Nat.shiftRight_eq_div_pow, Nat.div_eq_zero_iff] at h1
  have := Nat.two_pow_pos k
  omega

theorem xor_div_eq {a b k : Nat} (h : a ^^^ b < 2 ^ k) : a / 2 ^ k = b / 2 ^ k := by
  have h1 : (a ^^^ b) >>> k = 0 := by
    rw [Nat.shiftRight_eq_div_pow, Nat.div_eq_of_lt h]
  rw [Nat.shiftRight_xor_distrib, Nat.shiftRight_eq_div_pow, Nat.shiftRight_eq_div_pow] at h1
  exact Nat.xor_eq_zero_iff.1 h1

theorem pow64 (w : Nat) : (64 : Nat) ^ w = 2 ^ (6 * w) := by rw [Nat.pow_mul]

/-- The wheel chosen for a future expiry: the first digit (base 64, from the top) in which it differs
from the current time, or the top wheel if they differ above. -/
theorem timeoutWheel_spec {cur exp : Nat} (h : cur < exp) :
    timeoutWheel cur exp < 4 ∧
    cur / 64 ^ timeoutWheel cur exp < exp / 64 ^ timeoutWheel cur exp ∧
    (timeoutWheel cur exp < 3 →
      cur / 64 ^ (timeoutWheel cur exp + 1) = exp / 64 ^ (timeoutWheel cur exp + 1)) := by
  have hx : cur ^^^ exp ≠ 0 := fun e => by have := Nat.xor_eq_zero_iff.1 e; omega
  have hlt : ∀ k, cur / 64 ^ k ≠ exp / 64 ^ k → cur / 64 ^ k < exp / 64 ^ k := fun k hne =>
    Nat.lt_of_le_of_ne (Nat.div_le_div_right (Nat.le_of_lt h)) hne
  by_cases hm : cur ^^^ exp ≤ timeoutMax
  · have e : timeoutWheel cur exp = Nat.log2 (cur ^^^ exp) / 6 := by
      unfold timeoutWheel fls
      rw [Nat.min_eq_left hm, if_neg hx]; rfl
    have hl : Nat.log2 (cur ^^^ exp) < 24 := (log2_lt_pow hx).2 (by
      have : timeoutMax = 2 ^ 24 - 1 := rfl
      omega)
    rw [e]
    refine ⟨by omega, hlt _ ?_, fun _ => ?_⟩
    · rw [pow64]
      apply xor_div_ne
      by_contra hc
      have : Nat.log2 (cur ^^^ exp) < 6 * (Nat.log2 (cur ^^^ exp) / 6) := (log2_lt_pow hx).2 (by omega)
      omega
    · rw [pow64]
      apply xor_div_eq
      exact (log2_lt_pow hx).1 (by omega)
  · have e : timeoutWheel cur exp = 3 := by
      unfold timeoutWheel
      rw [Nat.min_eq_right (by omega)]
      decide +kernel
    rw [e]
    refine ⟨by omega, hlt _ ?_, fun h => by omega⟩
    rw [pow64]
    apply xor_div_ne
    have : timeoutMax = 2 ^ 24 - 1 := rfl
    have : (2 : Nat) ^ (6 * 3) ≤ 2 ^ 24 := Nat.pow_le_pow_right (by omega) (by omega)
    omega

theorem getLsbD_rotl (v : BitVec 64) (c s : Nat) (hs : s < 64) :
    (rotl v c).getLsbD s = v.getLsbD ((s + 64 - c % 64) % 64) := by
  unfold rotl
  rw [BitVec.getLsbD_or, BitVec.getLsbD_shiftLeft, BitVec.getLsbD_ushiftRight]
  have hc : c % 64 < 64 := Nat.mod_lt _ (by omega)
  generalize c % 64 = k at hc
  by_cases h0 : k = 0
  · subst h0
    simp [hs, Nat.mod_eq_of_lt hs]
  · rw [Nat.mod_eq_of_lt (show 64 - k < 64 by omega)]
    by_cases hk : s < k
    · rw [show (s + 64 - k) % 64 = 64 - k + s by rw [Nat.mod_eq_of_lt (by omega)]; omega]
      simp [hk]
    · rw [show (s + 64 - k) % 64 = s - k by omega]
      have : v.getLsbD (64 - k + s) = false := BitVec.getLsbD_of_ge _ _ (by omega)
      simp [hk, hs, this]

theorem getLsbD_rotr (v : BitVec 64) (c s : Nat) (hs : s < 64) :
    (rotr v c).getLsbD s = v.getLsbD ((s + c) % 64) := by
  unfold rotr
  rw [BitVec.getLsbD_or, BitVec.getLsbD_shiftLeft, BitVec.getLsbD_ushiftRight]
  have hc : c % 64 < 64 := Nat.mod_lt _ (by omega)
  rw [show (s + c) % 64 = (s + c % 64) % 64 by omega]
  generalize c % 64 = k at hc
  by_cases h0 : k = 0
  · subst h0
    simp [hs, Nat.mod_eq_of_lt hs]
  · rw [Nat.mod_eq_of_lt (show 64 - k < 64 by omega)]
    by_cases hk : s + k < 64
    · have h2 : s < 64 - k := by omega
      rw [Nat.mod_eq_of_lt hk]
      simp [h2, Nat.add_comm]
    · rw [show (s + k) % 64 = s - (64 - k) by omega]
      have : v.getLsbD (k + s) = false := BitVec.getLsbD_of_ge _ _ (by omega)
      have h2 : ¬ s < 64 - k := by omega
      simp [h2, hs, this]

theorem getLsbD_low (e s : Nat) (he : e < 64) : (1#64 <<< e - 1#64).getLsbD s = decide (s < e) := by
  have h1 : (1#64 <<< e - 1#64).toNat = 2 ^ e - 1 := by
    rw [BitVec.toNat_sub, BitVec.toNat_shiftLeft]
    have hlt : 2 ^ e < 2 ^ 64 := Nat.pow_lt_pow_right (by omega) he
    have hp := Nat.two_pow_pos e
    rw [show (1#64).toNat = 1 from rfl, Nat.one_shiftLeft, Nat.mod_eq_of_lt hlt]
    omega
  rw [BitVec.getLsbD, h1, Nat.testBit_two_pow_sub_one]

theorem elapsed_fwd {cur now : Nat} (h : cur ≤ now) (hn : now < 2 ^ 63) : elapsed cur now = now - cur := by
  unfold elapsed
  omega

theorem elapsed_back {cur now : Nat} (h : now < cur) (hn : cur < 2 ^ 63) : 2 ^ 63 < elapsed cur now := by
  unfold elapsed
  omega

/-- Every position of wheel `w` that the clock passes is in the set. -/
theorem passed_hit {cur now w x : Nat} (hn : now < 2 ^ 63)
    (h1 : cur / 64 ^ w < x) (h2 : x ≤ now / 64 ^ w) : (passed cur now w).getLsbD (x % 64) = true := by
  have hle : cur ≤ now := by
    by_contra hlt
    have : now / 64 ^ w ≤ cur / 64 ^ w := Nat.div_le_div_right (by omega)
    omega
  have hxs : x % 64 < 64 := Nat.mod_lt _ (by omega)
  unfold passed
  split
  · rw [BitVec.getLsbD_allOnes]; simp [hxs]
  · rename_i hs
    rw [elapsed_fwd hle hn] at hs
    simp only [and63, shr] at hs ⊢
    have hp : 0 < 64 ^ w := Nat.pow_pos (by omega)
    -- the distance is at most one more than the elapsed quotient
    have hd : now / 64 ^ w ≤ cur / 64 ^ w + (now - cur) / 64 ^ w + 1 := by
      have a1 := Nat.div_add_mod cur (64 ^ w)
      have a2 := Nat.div_add_mod (now - cur) (64 ^ w)
      have b1 := Nat.mod_lt cur hp
      have b2 := Nat.mod_lt (now - cur) hp
      have : now < 64 ^ w * (cur / 64 ^ w + (now - cur) / 64 ^ w + 2) := by
        have e : now = cur + (now - cur) := by omega
        rw [Nat.mul_add, Nat.mul_add]
        omega
      have := (Nat.div_lt_iff_lt_mul hp).2 (by rw [Nat.mul_comm] at this; exact this)
      omega
    generalize now / 64 ^ w = N at *
    generalize cur / 64 ^ w = C at *
    generalize (now - cur) / 64 ^ w = E at *
    rw [getLsbD_rotl _ _ _ hxs, getLsbD_low _ _ (Nat.mod_lt _ (by omega))]
    simp only [decide_eq_true_eq]
    omega

/-- If the clock goes back everything is in the set. -/
theorem passed_back {cur now w : Nat} (hc : cur < 2 ^ 63) (h : now < cur) (hw : w < 4) :
    passed cur now w = BitVec.allOnes 64 := by
  unfold passed
  rw [if_pos]
  rw [shr]
  have := elapsed_back h hc
  have h4 : 64 ^ w ≤ 64 ^ 3 := Nat.pow_le_pow_right (by omega) (by omega)
  have hp : 0 < 64 ^ w := Nat.pow_pos (by omega)
  rw [Nat.le_div_iff_mul_le hp]
  omega

end Ltio.Wheel
