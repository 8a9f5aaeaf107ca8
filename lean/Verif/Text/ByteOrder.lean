import Verif.Common.LE
/-
Model of base/sys/byteorders.h: byte swapping and host/network conversion, for any width
(16, 32, 64 bits are widths 2, 4, 8) and both kinds of host.
-/
namespace Ltio.ByteOrder

/-- `__builtin_bswap16/32/64` (byteorders.h:15-44): the low byte becomes the high byte. -/
def byteSwap : Nat → Nat → Nat
  | 0, _ => 0
  | k + 1, x => (x % 256) * 256 ^ k + byteSwap k (x / 256)

/-- `HostToNet16/32/64` (byteorders.h:108-129); `little` is `ARCH_CPU_LITTLE_ENDIAN`. -/
def hostToNet (little : Bool) (k x : Nat) : Nat := if little then byteSwap k x else x

/-- `NetToHost16/32/64` (byteorders.h:84-105). -/
def netToHost (little : Bool) (k x : Nat) : Nat := if little then byteSwap k x else x

/-- `ByteSwapToLE16/32/64` (byteorders.h:61-81). -/
def toLE (little : Bool) (k x : Nat) : Nat := if little then x else byteSwap k x

/-! ### Specification -/

/-- The bytes of `x` in memory, lowest address first. -/
def memory (little : Bool) (k x : Nat) : List UInt8 :=
  if little then leBytes k x else (leBytes k x).reverse

/-- Big-endian bytes: byte `i` of `k` is `x / 256^(k-1-i) mod 256`. -/
def bigEndian (k x : Nat) : List UInt8 :=
  (List.range k).map (fun i => UInt8.ofNat (x / 256 ^ (k - 1 - i) % 256))

/-! ### Proofs -/

theorem byteSwap_lt : ∀ (k x : Nat), byteSwap k x < 256 ^ k := by
  intro k
  induction k with
  | zero => intro x; simp [byteSwap]
  | succ k ih =>
    intro x
    have h1 := ih (x / 256)
    have h2 : x % 256 ≤ 255 := by omega
    have h3 : (x % 256) * 256 ^ k ≤ 255 * 256 ^ k := Nat.mul_le_mul_right _ h2
    simp only [byteSwap, Nat.pow_succ]
    omega

theorem leBytes_append : ∀ (k r a : Nat), r < 256 ^ k →
    leBytes (k + 1) (a * 256 ^ k + r) = leBytes k r ++ [UInt8.ofNat (a % 256)] := by
  intro k
  induction k with
  | zero => intro r a h; simp at h; subst h; simp [leBytes]
  | succ k ih =>
    intro r a h
    rw [leBytes]
    have e : a * 256 ^ (k + 1) = 256 * (a * 256 ^ k) := by
      rw [Nat.pow_succ, Nat.mul_comm (256 ^ k) 256, Nat.mul_left_comm]
    have h1 : (a * 256 ^ (k + 1) + r) % 256 = r % 256 := by rw [e]; omega
    have h2 : (a * 256 ^ (k + 1) + r) / 256 = a * 256 ^ k + r / 256 := by rw [e]; omega
    have h3 : r / 256 < 256 ^ k := by rw [Nat.pow_succ] at h; omega
    rw [h1, h2, ih _ _ h3]
    rfl

theorem leBytes_byteSwap : ∀ (k x : Nat), leBytes k (byteSwap k x) = (leBytes k x).reverse := by
  intro k
  induction k with
  | zero => intro x; rfl
  | succ k ih =>
    intro x
    rw [byteSwap, leBytes_append _ _ _ (byteSwap_lt _ _), ih, leBytes]
    simp

theorem bigEndian_eq : ∀ (k x : Nat), bigEndian k x = (leBytes k x).reverse := by
  intro k
  induction k with
  | zero => intro x; rfl
  | succ k ih =>
    intro x
    rw [leBytes, List.reverse_cons, ← ih]
    unfold bigEndian
    rw [List.range_succ, List.map_append]
    congr 1
    · apply List.map_congr_left
      intro i hi
      simp only [List.mem_range] at hi
      have e : k + 1 - 1 - i = (k - 1 - i) + 1 := by omega
      rw [e, Nat.pow_succ, Nat.mul_comm, ← Nat.div_div_eq_div_mul]
    · simp

/-- **C34: network order is big-endian**, whatever the host. -/
theorem c34_network_is_big_endian (little : Bool) (k x : Nat) :
    memory little k (hostToNet little k x) = bigEndian k x := by
  rw [bigEndian_eq]
  cases little
  · rfl
  · exact leBytes_byteSwap k x

/-- **C34: little-endian conversion**. -/
theorem c34_little_endian (little : Bool) (k x : Nat) :
    memory little k (toLE little k x) = leBytes k x := by
  cases little
  · show (leBytes k (byteSwap k x)).reverse = _
    rw [leBytes_byteSwap, List.reverse_reverse]
  · rfl

/-- **C34: round trip**, both ways, for every value of the width. -/
theorem c34_roundtrip (little : Bool) (k x : Nat) (h : x < 256 ^ k) :
    netToHost little k (hostToNet little k x) = x ∧ hostToNet little k (netToHost little k x) = x := by
  have hs : byteSwap k (byteSwap k x) = x := by
    have h1 : leBytes k (byteSwap k (byteSwap k x)) = leBytes k x := by
      rw [leBytes_byteSwap, leBytes_byteSwap, List.reverse_reverse]
    have h2 := congrArg leVal h1
    rwa [leVal_leBytes _ _ (byteSwap_lt _ _), leVal_leBytes _ _ h] at h2
  cases little
  · exact ⟨rfl, rfl⟩
  · exact ⟨hs, hs⟩

example : hostToNet true 4 0x01020304 = 0x04030201 := by decide
example : (0xdeadbeef : Nat) < 256 ^ 4 := by decide

end Ltio.ByteOrder
