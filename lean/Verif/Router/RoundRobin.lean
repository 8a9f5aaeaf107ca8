import Mathlib.Data.Int.CardIntervalMod
/-
Model of `RoundRobinRouter` (net_io/clients/router/roundrobin_router.{h,cc}) and of
`HashRouter` (net_io/clients/router/hash_router.h), with property C20.

`round_index_` is a `std::atomic<uint32_t>`; `fetch_add(1)` is a single atomic step, so for
any interleaving of any number of threads the sequence of values handed out is
`s, s+1, s+2, ...` modulo 2^32; `s` (the initial value) is arbitrary because the constructor
does not initialise it (roundrobin_router.h:26,37).
-/
namespace Ltio.Router

/-- The `j`-th `GetNextClient` (roundrobin_router.cc:27-31) of a router with `n` clients whose
index started at `s`; `none` when `n = 0` (division by zero, undefined behaviour). -/
def rrPick (s n j : Nat) : Option Nat :=
  if n = 0 then none else some ((s + j) % 2 ^ 32 % n)

/-- `HashRouter::GetNextClient` (hash_router.h:41-46). -/
def hashPick (n h : Nat) : Option Nat := if n = 0 then none else some (h % 2 ^ 64 % n)

/-- How often client `i` is chosen by the selections number `a, a+1, ..., a+len-1`. -/
def chosen (s n a len i : Nat) : Nat :=
  ((List.range len).map (fun j => rrPick s n (a + j))).count (some i)

theorem count_range_mod (n i : Nat) (hn : 0 < n) (hi : i < n) (b : Nat) :
    ∀ len, ((List.range len).map (fun j => some ((b + j) % n))).count (some i) +
      (b / n + if i < b % n then 1 else 0) =
      (b + len) / n + if i < (b + len) % n then 1 else 0 := by
  intro len
  have key : ∀ m, Nat.count (fun k => k ≡ i [MOD n]) m = m / n + if i < m % n then 1 else 0 := by
    intro m
    have := Nat.count_modEq_card (r := n) m hn i
    rw [Nat.mod_eq_of_lt hi] at this
    exact this
  rw [← key, ← key]
  induction len with
  | zero => simp
  | succ len ih =>
    rw [List.range_succ, List.map_append, List.count_append,
      show b + (len + 1) = b + len + 1 from by omega, Nat.count_succ, ← ih]
    have hh : (b + len ≡ i [MOD n]) ↔ (b + len) % n = i := by
      unfold Nat.ModEq; rw [Nat.mod_eq_of_lt hi]
    simp only [List.map_cons, List.map_nil, List.count_singleton, hh]
    by_cases hc : (b + len) % n = i
    · simp [hc]; omega
    · simp [hc]

/-- Without a wrap of the 32-bit index in the window, selections are the plain remainders. -/
theorem chosen_eq {s n a len i : Nat} (hn : 0 < n) (hw : s + a + len ≤ 2 ^ 32) :
    chosen s n a len i =
      ((List.range len).map (fun j => some ((s + a + j) % n))).count (some i) := by
  unfold chosen
  congr 1
  apply List.map_congr_left
  intro j hj
  have := List.mem_range.1 hj
  unfold rrPick
  rw [if_neg (by omega), Nat.mod_eq_of_lt (a := s + (a + j)) (by omega), Nat.add_assoc]

/-- **C20 (fairness, partial).**  In any window of consecutive selections that does not cross
the 2^32 wrap of the index, any two clients are chosen equally often up to one.
Missing: windows crossing the wrap, see `c20_wrap_violated`. -/
theorem c20_fair_partial {s n a len i j : Nat} (hi : i < n) (hj : j < n)
    (hw : s + a + len ≤ 2 ^ 32) : chosen s n a len i ≤ chosen s n a len j + 1 := by
  have hn : 0 < n := by omega
  rw [chosen_eq hn hw, chosen_eq hn hw]
  have h1 := count_range_mod n i hn hi (s + a) len
  have h2 := count_range_mod n j hn hj (s + a) len
  generalize ((List.range len).map (fun j => some ((s + a + j) % n))).count (some i) = c1 at *
  generalize ((List.range len).map (fun k => some ((s + a + k) % n))).count (some j) = c2 at *
  split at h1 <;> split at h1 <;> split at h2 <;> split at h2 <;> omega

/-- **C20 (cycle, partial).**  Every `n` consecutive selections not crossing the wrap visit each
of the `n` clients exactly once. -/
theorem c20_cycle_partial {s n a i : Nat} (hi : i < n) (hw : s + a + n ≤ 2 ^ 32) :
    chosen s n a n i = 1 := by
  have hn : 0 < n := by omega
  rw [chosen_eq hn hw]
  have h1 := count_range_mod n i hn hi (s + a) n
  rw [Nat.add_div_right _ hn, Nat.add_mod_right] at h1
  generalize ((List.range n).map (fun j => some ((s + a + j) % n))).count (some i) = c1 at *
  omega

/-- If the number of clients divides 2^32 (1, 2, 4, 8, ...), the wrap is invisible and every
window is fair. -/
theorem c20_power_of_two {s n a len i j : Nat} (hd : n ∣ 2 ^ 32) (hi : i < n) (hj : j < n) :
    chosen s n a len i ≤ chosen s n a len j + 1 ∧ (len = n → chosen s n a len i = 1) := by
  have hn : 0 < n := by omega
  have hc : ∀ k, chosen s n a len k =
      ((List.range len).map (fun j => some ((s + a + j) % n))).count (some k) := by
    intro k
    unfold chosen
    congr 1
    apply List.map_congr_left
    intro j _
    unfold rrPick
    rw [if_neg (by omega), Nat.mod_mod_of_dvd _ hd]
    congr 2
    omega
  rw [hc, hc]
  have h1 := count_range_mod n i hn hi (s + a) len
  have h2 := count_range_mod n j hn hj (s + a) len
  constructor
  · generalize ((List.range len).map (fun j => some ((s + a + j) % n))).count (some i) = c1 at *
    generalize ((List.range len).map (fun k => some ((s + a + k) % n))).count (some j) = c2 at *
    split at h1 <;> split at h1 <;> split at h2 <;> split at h2 <;> omega
  · intro hl
    subst hl
    rw [Nat.add_div_right _ hn, Nat.add_mod_right] at h1
    generalize ((List.range len).map (fun j => some ((s + a + j) % len))).count (some i) = c1 at *
    omega

/-- **C20 violated.**  Whatever the initial value of the index, after some number of selections
a router with three clients picks the same client twice in a row, and three consecutive
selections leave a client out. -/
theorem c20_wrap_violated (s : Nat) (hs : s < 2 ^ 32) :
    ∃ a, rrPick s 3 a = rrPick s 3 (a + 1) ∧ chosen s 3 a 3 2 = 0 := by
  refine ⟨2 ^ 32 - 1 - s, ?_, ?_⟩
  · unfold rrPick
    rw [show s + (2 ^ 32 - 1 - s) = 2 ^ 32 - 1 from by omega,
      show s + (2 ^ 32 - 1 - s + 1) = 2 ^ 32 from by omega]
    decide
  · unfold chosen rrPick
    have h : (List.range 3).map (fun j => if (3:Nat) = 0 then none else
        some ((s + (2 ^ 32 - 1 - s + j)) % 2 ^ 32 % 3)) = [some 0, some 0, some 1] := by
      simp only [List.range, List.range.loop, List.map_cons, List.map_nil]
      rw [show s + (2 ^ 32 - 1 - s + 0) = 2 ^ 32 - 1 from by omega,
        show s + (2 ^ 32 - 1 - s + 1) = 2 ^ 32 from by omega,
        show s + (2 ^ 32 - 1 - s + 2) = 2 ^ 32 + 1 from by omega]
      decide
    rw [h]; decide

/-- With no client configured the selection divides by zero. -/
theorem c20_empty_ub (s j : Nat) : rrPick s 0 j = none := rfl

/-- The hash router always picks a configured client and the same one for the same hash. -/
theorem hashPick_total {n h : Nat} (hn : 0 < n) : ∃ i, i < n ∧ hashPick n h = some i :=
  ⟨h % 2 ^ 64 % n, Nat.mod_lt _ hn, by unfold hashPick; rw [if_neg (by omega)]⟩

/-! Non-vacuity: a window of 8 selections over 3 clients. -/
example : (7 : Nat) + 2 + 8 ≤ 2 ^ 32 ∧ chosen 7 3 2 8 0 = 3 ∧ chosen 7 3 2 8 1 = 3 ∧
    chosen 7 3 2 8 2 = 2 := by decide

end Ltio.Router
