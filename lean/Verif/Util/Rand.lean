import Mathlib.Data.Finset.Card
import Mathlib.Data.Finset.Image
import Mathlib.Order.Interval.Finset.Nat
import Mathlib.Tactic.Ring

/-
Model of base/utils/rand_util.cc and rand_util_posix.cc (C92): random numbers made from a source of
64-bit words and of bytes.  The source is arbitrary: a list of the words it yields (for the numbers)
and of the results of `read` (for the bytes).
-/
namespace Ltio.Rand

/-- 2^64. -/
def W : Nat := 18446744073709551616

/-- `max_acceptable_value` (rand_util.cc:64-65) of a range. -/
def maxAcceptable (range : Nat) : Nat := ((W - 1) / range) * range - 1

/-- `RandGenerator(range)` (rand_util.cc:58-73) on a source of words: the result and the words left;
`none` if the source has no acceptable word. -/
def generator (range : Nat) : List Nat → Option (Nat × List Nat)
  | [] => none
  | v :: vs => if v > maxAcceptable range then generator range vs else some (v % range, vs)

/-- Conversion of an `int` to `uint64_t`. -/
def toU64 (x : Int) : Nat := (x % (W : Int)).toNat

/-- `range` in `RandInt` (rand_util.cc:28), with its wrapping arithmetic. -/
def rangeOf (mn mx : Int) : Nat := (toU64 mx + (W - toU64 mn) + 1) % W

/-- Conversion to `int`. -/
def toInt (x : Int) : Int := (x + 2147483648) % 4294967296 - 2147483648

/-- `RandInt(min, max)` (rand_util.cc:25-36). -/
def randInt (mn mx : Int) (src : List Nat) : Option (Int × List Nat) :=
  (generator (rangeOf mn mx) src).map (fun r => (toInt (mn + r.1), r.2))

/-- `BitsToOpenEndedUnitInterval` (rand_util.cc:42-56): the numerator of the result over 2^53. -/
def unitNumerator (bits : Nat) : Nat := bits % 9007199254740992

/-- A result of `read`: bytes, end of file or an error (a retried `EINTR` does not appear). -/
inductive Rd where
  | bytes (bs : List UInt8)
  | fail

/-- `ReadFromFD` (rand_util_posix.cc:76-86) for the bytes still wanted: what has been written, and
success.  `read` returns at most what is asked for. -/
def readFd : Nat → List Rd → List UInt8 × Bool
  | 0, _ => ([], true)
  | _ + 1, [] => ([], false)
  | _ + 1, .fail :: _ => ([], false)
  | n + 1, .bytes bs :: rs =>
    if bs = [] then ([], false)
    else if bs.length ≤ n + 1 then
      (bs ++ (readFd (n + 1 - bs.length) rs).1, (readFd (n + 1 - bs.length) rs).2)
    else ([], false)

/-! ### Numbers -/

theorem maxAcc_lt {range : Nat} (h : 0 < range) (hr : range < W) :
    maxAcceptable range + 1 = ((W - 1) / range) * range ∧ maxAcceptable range < W := by
  have h1 : 1 ≤ (W - 1) / range := (Nat.le_div_iff_mul_le h).2 (by omega)
  have h2 : 1 * 1 ≤ ((W - 1) / range) * range := Nat.mul_le_mul h1 h
  have h3 := Nat.div_mul_le_self (W - 1) range
  unfold maxAcceptable
  have : 0 < W := by decide
  omega

/-- **C92.** Every generated number is below the range, for every source. -/
theorem c92_in_range {range : Nat} (h : 0 < range) : ∀ (src : List Nat) (r : Nat) (rest : List Nat),
    generator range src = some (r, rest) → r < range := by
  intro src
  induction src with
  | nil => intro r rest hs; simp [generator] at hs
  | cons v vs ih =>
    intro r rest hs
    simp only [generator] at hs
    split at hs
    · exact ih r rest hs
    · simp only [Option.some.injEq, Prod.mk.injEq] at hs
      rw [← hs.1]; exact Nat.mod_lt _ h

/-- The words a single draw accepts with result `r`. -/
def accepted (range r : Nat) : Finset Nat :=
  (Finset.range W).filter (fun v => generator range [v] = some (r, []))

theorem accepted_eq {range r : Nat} (h : 0 < range) (hr : range < W) (hlt : r < range) :
    accepted range r = (Finset.range ((W - 1) / range)).image (fun q => q * range + r) := by
  obtain ⟨h1, h2⟩ := maxAcc_lt h hr
  ext v
  rw [accepted, Finset.mem_filter, Finset.mem_range, Finset.mem_image]
  simp only [Finset.mem_range, generator]
  constructor
  · rintro ⟨hv, hg⟩
    split at hg
    · simp at hg
    · rename_i hle
      simp only [Option.some.injEq, Prod.mk.injEq, and_true] at hg
      refine ⟨v / range, ?_, ?_⟩
      · rw [Nat.div_lt_iff_lt_mul h]; omega
      · rw [← hg]; exact Nat.div_add_mod' v range
  · rintro ⟨q, hq, rfl⟩
    have hb : (q + 1) * range ≤ ((W - 1) / range) * range := Nat.mul_le_mul_right _ hq
    have e : (q + 1) * range = q * range + range := by ring
    have hle : ¬ (q * range + r > maxAcceptable range) := by omega
    refine ⟨by omega, ?_⟩
    rw [if_neg hle]
    have : (q * range + r) % range = r := by
      rw [Nat.mul_comm, Nat.mul_add_mod, Nat.mod_eq_of_lt hlt]
    rw [this]

/-- **C92.** No bias: whatever the range, each of its numbers is the result of equally many words of
the source. -/
theorem c92_uniform {range : Nat} (h : 0 < range) (hr : range < W) {r : Nat} (hlt : r < range) :
    (accepted range r).card = (W - 1) / range := by
  rw [accepted_eq h hr hlt, Finset.card_image_of_injective, Finset.card_range]
  intro a b hab
  simp only [Nat.add_right_cancel_iff] at hab
  exact Nat.eq_of_mul_eq_mul_right h hab

/-- **C92.** More than half of all words are accepted, so the loop needs fewer than two words on
average. -/
theorem c92_accepts_half {range : Nat} (h : 0 < range) (hr : range < W) :
    W ≤ 2 * (maxAcceptable range + 1) := by
  obtain ⟨h1, _⟩ := maxAcc_lt h hr
  rw [h1]
  have h2 := Nat.div_add_mod' (W - 1) range
  have h3 := Nat.mod_lt (W - 1) h
  have h4 : 1 ≤ (W - 1) / range := (Nat.le_div_iff_mul_le h).2 (by omega)
  have h5 : 1 * range ≤ ((W - 1) / range) * range := Nat.mul_le_mul_right _ h4
  have : W = 18446744073709551616 := rfl
  omega

/-- **C92.** A source that yields an acceptable word sooner or later ends the loop. -/
theorem c92_ends {range : Nat} : ∀ (src : List Nat), (∃ v ∈ src, v ≤ maxAcceptable range) →
    ∃ r rest, generator range src = some (r, rest) := by
  intro src
  induction src with
  | nil => rintro ⟨v, hv, _⟩; simp at hv
  | cons v vs ih =>
    rintro ⟨w, hw, hle⟩
    simp only [generator]
    split
    · rename_i hgt
      rcases List.mem_cons.1 hw with rfl | hw
      · omega
      · exact ih ⟨w, hw, hle⟩
    · exact ⟨_, _, rfl⟩

/-- The range of `RandInt` is the number of integers from `min` to `max`. -/
theorem rangeOf_eq {mn mx : Int} (h1 : -2147483648 ≤ mn) (h2 : mn ≤ mx) (h3 : mx ≤ 2147483647) :
    (rangeOf mn mx : Int) = mx - mn + 1 := by
  simp only [rangeOf, toU64, W]
  omega

/-- **C92.** `RandInt(min, max)` is between its bounds, for all bounds and every source; and the
result is `min` plus an unbiased number below `max - min + 1`. -/
theorem c92_randInt {mn mx : Int} (h1 : -2147483648 ≤ mn) (h2 : mn ≤ mx) (h3 : mx ≤ 2147483647)
    {src rest : List Nat} {x : Int} (hr : randInt mn mx src = some (x, rest)) :
    mn ≤ x ∧ x ≤ mx ∧ generator (mx - mn + 1).toNat src = some ((x - mn).toNat, rest) := by
  have he := rangeOf_eq h1 h2 h3
  have hn : rangeOf mn mx = (mx - mn + 1).toNat := by omega
  simp only [randInt] at hr
  cases hg : generator (rangeOf mn mx) src with
  | none => simp [hg] at hr
  | some p =>
    obtain ⟨r, rs⟩ := p
    simp only [hg, Option.map_some, Option.some.injEq, Prod.mk.injEq] at hr
    have hlt := c92_in_range (by omega) src r rs hg
    have hx : x = mn + r := by
      rw [← hr.1]; simp only [toInt]; omega
    refine ⟨by omega, by omega, ?_⟩
    rw [← hn, hg, hr.2]
    congr 2
    omega

/-- **C92.** The result of `BitsToOpenEndedUnitInterval` is a fraction of 2^53 in [0, 1), and every
such fraction is the result of equally many words: 2^11. -/
theorem c92_unit (bits : Nat) : unitNumerator bits < 2 ^ 53 :=
  Nat.mod_lt _ (by decide)

theorem c92_unit_uniform {k : Nat} (hk : k < 2 ^ 53) :
    ((Finset.range W).filter (fun b => unitNumerator b = k)).card = 2 ^ 11 := by
  have e : (Finset.range W).filter (fun b => unitNumerator b = k) =
      (Finset.range (2 ^ 11)).image (fun q => q * 9007199254740992 + k) := by
    ext b
    rw [Finset.mem_filter, Finset.mem_range, Finset.mem_image]
    simp only [Finset.mem_range, unitNumerator]
    have hW : W = 18446744073709551616 := rfl
    constructor
    · rintro ⟨h1, h2⟩
      exact ⟨b / 9007199254740992, by omega, by omega⟩
    · rintro ⟨q, hq, rfl⟩
      omega
  rw [e, Finset.card_image_of_injective, Finset.card_range]
  intro a b hab
  simp only [] at hab
  omega

/-! ### Bytes -/

/-- **C92.** `RandBytes` fills the whole buffer with what the kernel returned, in order, however the
reads are cut; otherwise it reports failure (and the process is ended by the check). -/
theorem c92_bytes : ∀ (n : Nat) (rs : List Rd), (readFd n rs).2 = true →
    (readFd n rs).1.length = n ∧
    ∃ parts : List (List UInt8), (readFd n rs).1 = parts.flatten ∧ parts.length ≤ rs.length ∧
      ∀ (i : Nat) (p : List UInt8), parts[i]? = some p → rs[i]? = some (Rd.bytes p) := by
  intro n
  induction n using Nat.strongRecOn with
  | _ n ih =>
    intro rs h
    cases n with
    | zero => exact ⟨by simp [readFd], [], by simp [readFd], by simp, by simp⟩
    | succ n =>
      cases rs with
      | nil => simp [readFd] at h
      | cons r rs =>
        cases r with
        | fail => simp [readFd] at h
        | bytes bs =>
          simp only [readFd] at h ⊢
          by_cases hb : bs = []
          · simp [hb] at h
          · rw [if_neg hb] at h ⊢
            by_cases hl : bs.length ≤ n + 1
            · rw [if_pos hl] at h ⊢
              have hpos : 0 < bs.length := List.length_pos_iff.2 hb
              obtain ⟨h1, parts, h2, h3, h4⟩ := ih (n + 1 - bs.length) (by omega) rs h
              refine ⟨by simp only [List.length_append, h1]; omega, bs :: parts, by simp [h2],
                by simpa using h3, ?_⟩
              intro i p hp
              cases i with
              | zero => simp only [List.getElem?_cons_zero, Option.some.injEq] at hp ⊢
                        rw [hp]
              | succ i =>
                simp only [List.getElem?_cons_succ] at hp ⊢
                exact h4 i p hp
            · rw [if_neg hl] at h; simp at h

/-- The hypotheses of C92 are met: a word that is refused, then one that is accepted. -/
theorem w_c92 : randInt (-3) 3 [W - 1, 20, 5] = some (3, [5]) ∧ maxAcceptable 7 = W - 3 ∧
    (readFd 3 [.bytes [1], .bytes [2, 3], .fail]) = ([1, 2, 3], true) := by
  refine ⟨?_, by decide, by decide⟩
  decide +kernel

end Ltio.Rand
