/-
Little-endian byte representation of natural numbers (the in-memory representation of unsigned
integers on the x86-64 / little-endian machines the project targets).
-/
namespace Ltio

/-- `k` little-endian bytes of `x`. -/
def leBytes : Nat → Nat → List UInt8
  | 0, _ => []
  | k+1, x => UInt8.ofNat (x % 256) :: leBytes k (x / 256)

/-- Value of a little-endian byte string. -/
def leVal : List UInt8 → Nat
  | [] => 0
  | b :: bs => b.toNat + 256 * leVal bs

@[simp] theorem leBytes_length (k x : Nat) : (leBytes k x).length = k := by
  induction k generalizing x with
  | zero => rfl
  | succ k ih => simp [leBytes, ih]

theorem leVal_leBytes (k x : Nat) (h : x < 256 ^ k) : leVal (leBytes k x) = x := by
  induction k generalizing x with
  | zero => simp at h; simp [leBytes, leVal, h]
  | succ k ih =>
    have h1 : x / 256 < 256 ^ k := by
      rw [Nat.div_lt_iff_lt_mul (by decide)]; rw [Nat.pow_succ] at h; exact h
    simp only [leBytes, leVal, ih _ h1, UInt8.toNat_ofNat']
    omega

theorem leVal_lt (bs : List UInt8) : leVal bs < 256 ^ bs.length := by
  induction bs with
  | nil => simp [leVal]
  | cons b bs ih =>
    simp only [leVal, List.length_cons, Nat.pow_succ]
    have := b.toNat_lt
    omega

theorem leBytes_leVal (bs : List UInt8) : leBytes bs.length (leVal bs) = bs := by
  induction bs with
  | nil => rfl
  | cons b bs ih =>
    simp only [leVal, List.length_cons, leBytes]
    have := b.toNat_lt
    have h1 : (b.toNat + 256 * leVal bs) % 256 = b.toNat := by omega
    have h2 : (b.toNat + 256 * leVal bs) / 256 = leVal bs := by omega
    rw [h1, h2, ih]; simp

end Ltio
