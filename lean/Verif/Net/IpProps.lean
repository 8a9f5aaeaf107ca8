import Verif.Net.IpAddr
import Verif.Url.Props
import Mathlib.Tactic.IntervalCases
import Mathlib.Tactic.Ring

/-
C49: IP addresses – prefixes, order, classification, text and socket forms.
-/
namespace Ltio.Ip
open Ltio.Text

/-! ### Specification -/

/-- The address as a number (big endian). -/
def num (a : List UInt8) : Nat := a.foldl (fun n b => 256 * n + b.toNat) 0

/-- Bit `i` of an address, the most significant first. -/
def bit (a : List UInt8) (i : Nat) : Bool := (a.getD (i / 8) 0).toNat.testBit (7 - i % 8)

/-- The address belongs to the block given by the first `n` bits of `p`. -/
abbrev InBlock (a p : List UInt8) (n : Nat) : Prop :=
  num a / 2 ^ (8 * a.length - n) = num p / 2 ^ (8 * p.length - n)

/-! ### Prefixes -/

theorem foldl_num (l : List UInt8) : ∀ k, l.foldl (fun n b => 256 * n + b.toNat) k =
    k * 256 ^ l.length + l.foldl (fun n b => 256 * n + b.toNat) 0 := by
  induction l with
  | nil => intro k; simp
  | cons x l ih =>
    intro k
    simp only [List.foldl_cons, List.length_cons]
    rw [ih, ih (256 * 0 + x.toNat)]
    ring

theorem num_cons (x : UInt8) (l : List UInt8) : num (x :: l) = x.toNat * 256 ^ l.length + num l := by
  unfold num
  rw [List.foldl_cons, foldl_num]; simp

theorem num_lt (l : List UInt8) : num l < 256 ^ l.length := by
  induction l with
  | nil => simp [num]
  | cons x l ih =>
    rw [num_cons, List.length_cons, Nat.pow_succ]
    have := x.toNat_lt
    have h : x.toNat * 256 ^ l.length ≤ 255 * 256 ^ l.length := Nat.mul_le_mul_right _ (by omega)
    omega

theorem pow256 (k : Nat) : 256 ^ k = 2 ^ (8 * k) := by
  rw [Nat.pow_mul]

theorem checkBytes_cons (x y : UInt8) (a p : List UInt8) : ∀ (k i : Nat),
    checkBytes (x :: a) (y :: p) (i + 1) k = checkBytes a p i k := by
  intro k
  induction k with
  | zero => intro i; rfl
  | succ k ih =>
    intro i
    simp only [checkBytes, List.getElem?_cons_succ]
    rw [ih (i + 1)]

theorem prefixCheck_big (x y : UInt8) (a p : List UInt8) (n : Nat) :
    prefixCheck (x :: a) (y :: p) (n + 8) = if x = y then prefixCheck a p n else some false := by
  have h1 : (n + 8) / 8 = n / 8 + 1 := by omega
  have h2 : (n + 8) % 8 = n % 8 := by omega
  unfold prefixCheck
  rw [h1, h2]
  have h3 : checkBytes (x :: a) (y :: p) 0 (n / 8 + 1) =
      if x = y then checkBytes a p 0 (n / 8) else some false := by
    simp only [checkBytes, List.getElem?_cons_zero, ne_eq, ite_not]
    split
    · exact checkBytes_cons x y a p _ 0
    · rfl
  rw [h3]
  by_cases hxy : x = y
  · simp only [hxy, if_true, List.getElem?_cons_succ]
  · simp only [hxy, if_false]

/-- Comparing the top `r` bits of two bytes through the mask. -/
theorem mask_eq (r : Nat) (h0 : 0 < r) (h8 : r < 8) (x y : UInt8) :
    (x &&& maskOf r == y &&& maskOf r) = decide (x.toNat / 2 ^ (8 - r) = y.toNat / 2 ^ (8 - r)) := by
  have hm : ∀ z : UInt8, (z &&& maskOf r).toNat = z.toNat / 2 ^ (8 - r) * 2 ^ (8 - r) := by
    intro z
    rw [UInt8.toNat_and]
    have hz := z.toNat_lt
    have key : ∀ r < 8, 0 < r → ∀ n < 256,
        n &&& (maskOf r).toNat = n / 2 ^ (8 - r) * 2 ^ (8 - r) := by decide +kernel
    exact key r h8 h0 _ hz
  rw [Bool.eq_iff_iff, beq_iff_eq, decide_eq_true_iff]
  constructor
  · intro h
    have := congrArg UInt8.toNat h
    rw [hm, hm] at this
    exact Nat.eq_of_mul_eq_mul_right (Nat.two_pow_pos _) this
  · intro h
    apply UInt8.toNat_inj.1
    rw [hm, hm, h]

theorem div_split (x m k j : Nat) (hm : m < 2 ^ k) (hj : k ≤ j) :
    (x * 2 ^ k + m) / 2 ^ j = x / 2 ^ (j - k) := by
  obtain ⟨d, rfl⟩ := Nat.exists_eq_add_of_le hj
  rw [Nat.add_sub_cancel_left, Nat.pow_add, ← Nat.div_div_eq_div_mul, Nat.mul_comm x,
    Nat.mul_add_div (Nat.two_pow_pos _), Nat.div_eq_of_lt hm, Nat.add_zero]

theorem div_split_low (x m k j : Nat) (hj : j ≤ k) :
    (x * 2 ^ k + m) / 2 ^ j = x * 2 ^ (k - j) + m / 2 ^ j := by
  obtain ⟨d, rfl⟩ := Nat.exists_eq_add_of_le hj
  rw [Nat.add_sub_cancel_left, Nat.pow_add]
  have : x * (2 ^ j * 2 ^ d) = 2 ^ j * (x * 2 ^ d) := by ring
  rw [this, Nat.mul_add_div (Nat.two_pow_pos _)]

/-- The prefix check of the code is the numeric comparison of the blocks; it stays in bounds. -/
theorem prefixCheck_spec : ∀ (a p : List UInt8) (n : Nat), n ≤ 8 * a.length → n ≤ 8 * p.length →
    prefixCheck a p n = some (decide (InBlock a p n)) := by
  intro a
  induction a with
  | nil =>
    intro p n h1 h2
    have hn : n = 0 := by simpa using h1
    subst hn
    have : num p / 2 ^ (8 * p.length - 0) = 0 := by
      apply Nat.div_eq_of_lt
      rw [Nat.sub_zero, ← pow256]; exact num_lt p
    have hl : prefixCheck [] p 0 = some true := rfl
    have hz : num [] / 2 ^ (8 * ([] : List UInt8).length - 0) = 0 := rfl
    simp only [InBlock, this, hz, hl, decide_true]
  | cons x a ih =>
    intro p n h1 h2
    cases p with
    | nil =>
      have hn : n = 0 := by simpa using h2
      subst hn
      have : num (x :: a) / 2 ^ (8 * (x :: a).length - 0) = 0 := by
        apply Nat.div_eq_of_lt
        rw [Nat.sub_zero, ← pow256]; exact num_lt _
      have hl : prefixCheck (x :: a) [] 0 = some true := rfl
      have hz : num [] / 2 ^ (8 * ([] : List UInt8).length - 0) = 0 := rfl
      simp only [InBlock, this, hz, hl, decide_true]
    | cons y p =>
      simp only [List.length_cons] at h1 h2
      by_cases h8 : 8 ≤ n
      · obtain ⟨m, rfl⟩ : ∃ m, n = m + 8 := ⟨n - 8, by omega⟩
        rw [prefixCheck_big, ih p m (by omega) (by omega)]
        have e1 : num (x :: a) / 2 ^ (8 * (x :: a).length - (m + 8)) =
            x.toNat * 2 ^ m + num a / 2 ^ (8 * a.length - m) := by
          rw [num_cons, pow256, List.length_cons,
            show 8 * (a.length + 1) - (m + 8) = 8 * a.length - m by omega,
            div_split_low _ _ _ _ (by omega),
            show 8 * a.length - (8 * a.length - m) = m by omega]
        have e2 : num (y :: p) / 2 ^ (8 * (y :: p).length - (m + 8)) =
            y.toNat * 2 ^ m + num p / 2 ^ (8 * p.length - m) := by
          rw [num_cons, pow256, List.length_cons,
            show 8 * (p.length + 1) - (m + 8) = 8 * p.length - m by omega,
            div_split_low _ _ _ _ (by omega),
            show 8 * p.length - (8 * p.length - m) = m by omega]
        have b1 : num a / 2 ^ (8 * a.length - m) < 2 ^ m := by
          apply Nat.div_lt_of_lt_mul
          rw [← Nat.pow_add, show 8 * a.length - m + m = 8 * a.length by omega, ← pow256]
          exact num_lt a
        have b2 : num p / 2 ^ (8 * p.length - m) < 2 ^ m := by
          apply Nat.div_lt_of_lt_mul
          rw [← Nat.pow_add, show 8 * p.length - m + m = 8 * p.length by omega, ← pow256]
          exact num_lt p
        simp only [InBlock, e1, e2]
        split
        · rename_i hxy
          subst hxy
          congr 1
          rw [decide_eq_decide]
          omega
        · rename_i hxy
          congr 1
          symm
          rw [decide_eq_false_iff_not]
          intro h
          apply hxy
          apply UInt8.toNat_inj.1
          have h3 := congrArg (· / 2 ^ m) h
          rw [Nat.mul_comm, Nat.mul_add_div (Nat.two_pow_pos _), Nat.div_eq_of_lt b1,
            Nat.mul_comm y.toNat, Nat.mul_add_div (Nat.two_pow_pos _), Nat.div_eq_of_lt b2] at h3
          exact h3
      · have hd : n / 8 = 0 := by omega
        have hmod : n % 8 = n := by omega
        have f1 : num (x :: a) / 2 ^ (8 * (x :: a).length - n) = x.toNat / 2 ^ (8 - n) := by
          rw [num_cons, pow256, List.length_cons, div_split _ _ _ _ (by rw [← pow256]; exact num_lt a)
            (by omega)]
          congr 2; omega
        have f2 : num (y :: p) / 2 ^ (8 * (y :: p).length - n) = y.toNat / 2 ^ (8 - n) := by
          rw [num_cons, pow256, List.length_cons, div_split _ _ _ _ (by rw [← pow256]; exact num_lt p)
            (by omega)]
          congr 2; omega
        unfold prefixCheck
        simp only [InBlock, f1, f2, hd, hmod]
        simp only [checkBytes, List.getElem?_cons_zero]
        by_cases hn : n = 0
        · subst hn
          have := x.toNat_lt
          have := y.toNat_lt
          rw [if_neg (by omega), Nat.div_eq_of_lt (by omega), Nat.div_eq_of_lt (by omega)]
          simp
        · rw [if_pos hn, mask_eq n (by omega) (by omega)]

/-- The IPv4-mapped form of an address: an IPv6 address stays as it is. -/
def asV6 (a : Addr) : Addr := if a.length = 4 then mappedPrefix ++ a else a

/-- **C49 (prefixes).**  `IPAddressMatchesPrefix` answers, without leaving its arrays, exactly
whether the address lies in the block, for every address, block and prefix length; when the
families differ, both are taken in IPv4-mapped form (an IPv4 block's length then counts from bit
96). -/
theorem c49_matches_prefix (a p : Addr) (n : Nat) (ha : a.length = 4 ∨ a.length = 16)
    (hp : p.length = 4 ∨ p.length = 16) (hn : n ≤ 8 * p.length) :
    matchesPrefix a p n = some (decide (
      if a.length = p.length then InBlock a p n
      else InBlock (asV6 a) (asV6 p) (if p.length = 4 then 96 + n else n))) := by
  unfold matchesPrefix
  by_cases he : a.length = p.length
  · simp only [he, if_true]
    exact prefixCheck_spec a p n (by omega) hn
  · rw [if_neg he]
    simp only [he, if_false]
    rcases ha with ha | ha <;> rcases hp with hp | hp
    · omega
    · have h4 : isV4 a = true := by simp [isV4, ha]
      have hl : (mappedPrefix ++ a).length = p.length := by simp [mappedPrefix, ha, hp]
      have ea : asV6 a = mappedPrefix ++ a := by simp [asV6, ha]
      have ep : asV6 p = p := by simp [asV6, hp]
      rw [if_pos h4, toMapped, if_pos h4, Option.bind_some, if_pos hl, ea, ep]
      simp only [show ¬ p.length = 4 by omega, if_false]
      exact prefixCheck_spec _ p n (by omega) hn
    · have h4 : ¬ isV4 a = true := by simp [isV4, ha]
      have h4' : isV4 p = true := by simp [isV4, hp]
      have hl : a.length = (mappedPrefix ++ p).length := by simp [mappedPrefix, ha, hp]
      have ea : asV6 a = a := by simp [asV6, ha]
      have ep : asV6 p = mappedPrefix ++ p := by simp [asV6, hp]
      rw [if_neg h4, toMapped, if_pos h4', Option.bind_some, if_pos hl, ea, ep]
      simp only [hp, if_true]
      exact prefixCheck_spec a _ (96 + n) (by omega) (by rw [← hl]; omega)
    · omega

/-! ### Common prefix -/

theorem firstBit_spec : ∀ d < 256, d ≠ 0 → ∃ j, firstBit d 0 8 = some j ∧ j < 8 ∧
    d.testBit (7 - j) = true ∧ ∀ i < j, d.testBit (7 - i) = false := by
  have key : ∀ d < 256, d ≠ 0 → ∃ j < 8, firstBit d 0 8 = some j ∧
      d.testBit (7 - j) = true ∧ ∀ i < j, d.testBit (7 - i) = false := by decide +kernel
  intro d h1 h2
  obtain ⟨j, a, b, c⟩ := key d h1 h2
  exact ⟨j, b, a, c⟩

theorem commonFrom_spec : ∀ (a b : Addr) (i : Nat), a.length ≤ b.length →
    ∃ r, commonFrom i a b = some (i * 8 + r) ∧ r ≤ 8 * a.length ∧
      (∀ k < r, bit a k = bit b k) ∧ (r < 8 * a.length → bit a r ≠ bit b r) := by
  intro a
  induction a with
  | nil => intro b i _; exact ⟨0, by simp [commonFrom], by simp, by simp, by simp⟩
  | cons x a ih =>
    intro b i hl
    cases b with
    | nil => simp at hl
    | cons y b =>
      simp only [List.length_cons] at hl
      have hhead : ∀ k, k < 8 → ∀ (z : UInt8) (l : List UInt8),
          bit (z :: l) k = z.toNat.testBit (7 - k) := by
        intro k hk z l
        have h1 : k / 8 = 0 := by omega
        have h2 : k % 8 = k := by omega
        simp [bit, h1, h2]
      have htail : ∀ k (z : UInt8) (l : List UInt8), bit (z :: l) (k + 8) = bit l k := by
        intro k z l
        have h1 : (k + 8) / 8 = k / 8 + 1 := by omega
        have h2 : (k + 8) % 8 = k % 8 := by omega
        simp [bit, h1, h2]
      by_cases hd : (x ^^^ y) = 0
      · have hxy : x = y := by
          have := UInt8.xor_eq_zero_iff.1 hd
          exact this
        subst hxy
        obtain ⟨r, h1, h2, h3, h4⟩ := ih b (i + 1) (by omega)
        refine ⟨r + 8, ?_, ?_, ?_, ?_⟩
        · simp only [commonFrom, UInt8.xor_self, if_true]
          rw [h1]; congr 1; omega
        · simp only [List.length_cons]; omega
        · intro k hk
          by_cases hk8 : k < 8
          · rw [hhead k hk8, hhead k hk8]
          · obtain ⟨m, rfl⟩ : ∃ m, k = m + 8 := ⟨k - 8, by omega⟩
            rw [htail, htail]; exact h3 m (by omega)
        · intro hlt
          rw [htail, htail]
          apply h4
          simp only [List.length_cons] at hlt; omega
      · have hn : (x ^^^ y).toNat ≠ 0 := by
          intro h; apply hd; apply UInt8.toNat_inj.1; simpa using h
        obtain ⟨j, h1, h2, h3, h4⟩ := firstBit_spec _ (x ^^^ y).toNat_lt hn
        have hbit : ∀ m, (x ^^^ y).toNat.testBit m = (x.toNat.testBit m).xor (y.toNat.testBit m) := by
          intro m; rw [UInt8.toNat_xor, Nat.testBit_xor]
        refine ⟨j, ?_, ?_, ?_, ?_⟩
        · simp only [commonFrom, hd, if_false, h1]
        · simp only [List.length_cons]; omega
        · intro k hk
          rw [hhead k (by omega), hhead k (by omega)]
          have := h4 k hk
          rw [hbit] at this
          revert this
          cases x.toNat.testBit (7 - k) <;> cases y.toNat.testBit (7 - k) <;> simp
        · intro _
          rw [hhead j h2, hhead j h2]
          rw [hbit] at h3
          revert h3
          cases x.toNat.testBit (7 - j) <;> cases y.toNat.testBit (7 - j) <;> simp

/-- **C49 (common prefix).**  For addresses of one family the result is exactly the number of
matching initial bits. -/
theorem c49_common_prefix (a b : Addr) (h : a.length = b.length) :
    ∃ r, commonPrefixLength a b = some r ∧ r ≤ 8 * a.length ∧ (∀ k < r, bit a k = bit b k) ∧
      (r < 8 * a.length → bit a r ≠ bit b r) := by
  obtain ⟨r, h1, h2, h3, h4⟩ := commonFrom_spec a b 0 (by omega)
  exact ⟨r, by simpa [commonPrefixLength] using h1, h2, h3, h4⟩

/-- **C49 (masks).**  `MaskPrefixLength` (without DCHECKs) is the number of leading one bits, for
IPv4 and IPv6 masks. -/
theorem c49_mask_length (m : Addr) (h : m.length ≤ 16) :
    ∃ r, maskPrefixLength m = some r ∧ r ≤ 8 * m.length ∧ (∀ k < r, bit m k = true) ∧
      (r < 8 * m.length → bit m r = false) := by
  obtain ⟨r, h1, h2, h3, h4⟩ := commonFrom_spec m (List.replicate 16 255) 0 (by simpa using h)
  have hone : ∀ k, k < 8 * m.length → bit (List.replicate 16 255) k = true := by
    intro k hk
    have hk8 : k / 8 < 16 := by omega
    have : (List.replicate 16 (255 : UInt8)).getD (k / 8) 0 = 255 := by
      rw [List.getD_eq_getElem?_getD, List.getElem?_replicate, if_pos hk8]; rfl
    unfold bit
    rw [this]
    have hj : 7 - k % 8 < 8 := by omega
    generalize 7 - k % 8 = j at hj
    revert j; decide
  refine ⟨r, by simpa [maskPrefixLength, commonPrefixLength] using h1, h2, ?_, ?_⟩
  · intro k hk
    rw [h3 k hk]; exact hone k (by omega)
  · intro hr
    have := h4 hr
    rw [hone r hr] at this
    simpa using this

/-! ### Order -/

theorem lexLess_irrefl : ∀ a, lexLess a a = false := by
  intro a
  induction a with
  | nil => rfl
  | cons x a ih => simp [lexLess, ih, UInt8.lt_irrefl]

theorem lexLess_trans : ∀ a b c, lexLess a b = true → lexLess b c = true → lexLess a c = true := by
  intro a
  induction a with
  | nil =>
    intro b c h1 h2
    cases c with
    | nil => cases b <;> simp [lexLess] at h2
    | cons z c => rfl
  | cons x a ih =>
    intro b c h1 h2
    cases b with
    | nil => simp [lexLess] at h1
    | cons y b =>
      cases c with
      | nil => simp [lexLess] at h2
      | cons z c =>
        simp only [lexLess, UInt8.lt_iff_toNat_lt] at h1 h2 ⊢
        split at h1
        · split at h2
          · rw [if_pos (by omega)]
          · split at h2
            · simp at h2
            · rw [if_pos (by omega)]
        · split at h1
          · simp at h1
          · split at h2
            · rw [if_pos (by omega)]
            · split at h2
              · simp at h2
              · rw [if_neg (by omega), if_neg (by omega)]
                exact ih b c h1 h2

theorem lexLess_total : ∀ a b, a ≠ b → lexLess a b = true ∨ lexLess b a = true := by
  intro a
  induction a with
  | nil =>
    intro b h
    cases b with
    | nil => exact absurd rfl h
    | cons y b => left; rfl
  | cons x a ih =>
    intro b h
    cases b with
    | nil => right; rfl
    | cons y b =>
      simp only [lexLess, UInt8.lt_iff_toNat_lt]
      by_cases h1 : x.toNat < y.toNat
      · left; rw [if_pos h1]
      · by_cases h2 : y.toNat < x.toNat
        · right; rw [if_pos h2]
        · have : x = y := UInt8.toNat_inj.1 (by omega)
          subst this
          simp only [h1, if_false]
          exact ih b (fun e => h (by rw [e]))

theorem less_eq (a b : Addr) : less a b = if a.length = b.length then lexLess a b
    else decide (a.length < b.length) := by
  unfold less
  by_cases h : a.length = b.length <;> simp [h]

/-- **C49 (order of addresses).**  `operator<` is a strict total order, compatible with
`operator==`, with every IPv4 address before every IPv6 address. -/
theorem c49_order :
    (∀ a, less a a = false) ∧
    (∀ a b c, less a b = true → less b c = true → less a c = true) ∧
    (∀ a b, eq a b = true ∨ less a b = true ∨ less b a = true) ∧
    (∀ a b, eq a b = true ↔ a = b) ∧
    (∀ a b : Addr, a.length = 4 → b.length = 16 → less a b = true) := by
  refine ⟨?_, ?_, ?_, ?_, ?_⟩
  · intro a; rw [less_eq, if_pos rfl]; exact lexLess_irrefl a
  · intro a b c h1 h2
    rw [less_eq] at h1 h2 ⊢
    split at h1
    · split at h2
      · rw [if_pos (by omega)]; exact lexLess_trans a b c h1 h2
      · rw [if_neg (by omega)]; rw [decide_eq_true_eq] at h2 ⊢; omega
    · split at h2
      · rw [if_neg (by omega)]; rw [decide_eq_true_eq] at h1 ⊢; omega
      · rw [decide_eq_true_eq] at h1 h2; rw [if_neg (by omega)]; rw [decide_eq_true_eq]; omega
  · intro a b
    rw [less_eq, less_eq]
    by_cases h : a.length = b.length
    · by_cases he : a = b
      · left; simp [eq, he]
      · right; rw [if_pos h, if_pos h.symm]; exact lexLess_total a b he
    · right
      rw [if_neg h, if_neg (fun e => h e.symm), decide_eq_true_eq, decide_eq_true_eq]; omega
  · intro a b
    simp only [eq, Bool.and_eq_true, beq_iff_eq]
    exact ⟨fun h => h.2, fun h => ⟨by rw [h], h⟩⟩
  · intro a b h1 h2
    rw [less_eq, if_neg (by omega), decide_eq_true_eq]; omega

/-- **C49 (order of end points).** -/
theorem c49_endpoint_order :
    (∀ a, epLess a a = false) ∧
    (∀ a b c, epLess a b = true → epLess b c = true → epLess a c = true) ∧
    (∀ a b : EndPoint, a = b ∨ epLess a b = true ∨ epLess b a = true) := by
  have irr := c49_order.1
  have trans := c49_order.2.1
  have tot := c49_order.2.2.1
  have eqv := c49_order.2.2.2.1
  have hsz : ∀ a b : Addr, a.length < b.length → less a b = true := by
    intro a b h; rw [less_eq, if_neg (by omega), decide_eq_true_eq]; exact h
  have hE : ∀ a b, epLess a b = true ↔
      less a.addr b.addr = true ∨ (a.addr = b.addr ∧ a.port < b.port) := by
    intro a b
    unfold epLess
    by_cases hl : a.addr.length = b.addr.length
    · rw [if_neg (by simpa using hl)]
      by_cases h1 : less a.addr b.addr = true
      · simp [h1]
      · rw [if_neg h1]
        by_cases h2 : less b.addr a.addr = true
        · rw [if_pos h2]
          have hne : a.addr ≠ b.addr := by
            intro e; rw [e, irr] at h2; simp at h2
          simp [h1, hne]
        · rw [if_neg h2, decide_eq_true_eq]
          have he : a.addr = b.addr := by
            rcases tot a.addr b.addr with h | h | h
            · exact (eqv _ _).1 h
            · exact absurd h h1
            · exact absurd h h2
          simp [he, irr]
    · rw [if_pos hl, decide_eq_true_eq]
      constructor
      · intro h; exact Or.inl (hsz _ _ h)
      · rintro (h | ⟨h, _⟩)
        · rw [less_eq, if_neg hl, decide_eq_true_eq] at h; exact h
        · exact absurd (by rw [h]) hl
  refine ⟨?_, ?_, ?_⟩
  · intro a
    rw [Bool.eq_false_iff]
    intro h
    rcases (hE a a).1 h with h | h
    · rw [irr] at h; simp at h
    · exact absurd h.2 (UInt16.lt_irrefl _)
  · intro a b c h1 h2
    rw [hE] at h1 h2 ⊢
    rcases h1 with h1 | h1 <;> rcases h2 with h2 | h2
    · exact Or.inl (trans _ _ _ h1 h2)
    · left; rw [← h2.1]; exact h1
    · left; rw [h1.1]; exact h2
    · right; exact ⟨h1.1.trans h2.1, UInt16.lt_trans h1.2 h2.2⟩
  · intro a b
    rw [hE, hE]
    rcases tot a.addr b.addr with h | h | h
    · have he := (eqv _ _).1 h
      rcases Nat.lt_trichotomy a.port.toNat b.port.toNat with hp | hp | hp
      · right; left; right; exact ⟨he, UInt16.lt_iff_toNat_lt.2 hp⟩
      · left
        obtain ⟨x, px⟩ := a
        obtain ⟨y, py⟩ := b
        simp only at he hp
        rw [he, UInt16.toNat_inj.1 hp]
      · right; right; right; exact ⟨he.symm, UInt16.lt_iff_toNat_lt.2 hp⟩
    · exact Or.inr (Or.inl (Or.inl h))
    · exact Or.inr (Or.inr (Or.inl h))

end Ltio.Ip
