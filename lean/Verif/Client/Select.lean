import Verif.Client.Pool
import Mathlib.Data.Nat.ModEq

/-
Model of `Client::get_ready_channel` (net_io/clients/client.cc:151-165): which channel a request
takes.  Part of C38.

`channels` is the list loaded from `in_use_channels_`; an entry is `true` when the pointer is not
null and the channel is ready.  `vals i` is what the call's i-th `next_index_.fetch_add(1)` returns:
`seqVals` when no other thread selects at the same time, arbitrary otherwise.
-/
namespace Ltio.Pool

/-- The loop (client.cc:157-163): `fuel` is what is left of `max_step`, plus one. -/
def probe (channels : List Bool) (vals : Nat → Nat) : (fuel i : Nat) → Option Nat
  | 0, _ => none
  | fuel + 1, i =>
    if channels[vals i % channels.length]? = some true then some (vals i % channels.length)
    else probe channels vals fuel (i + 1)

/-- `get_ready_channel` (client.cc:151-165); `do … while (max_step--)` makes `max_step + 1` rounds. -/
def select (channels : List Bool) (vals : Nat → Nat) : Option Nat :=
  if channels.length = 0 then none else probe channels vals (min 10 channels.length + 1) 0

/-- The counter read by a call that starts at `next` and is alone: a `uint32_t`. -/
def seqVals (next i : Nat) : Nat := (next + i) % 2 ^ 32

theorem probe_ready {ch : List Bool} {vals : Nat → Nat} :
    ∀ (f i j : Nat), probe ch vals f i = some j → ch[j]? = some true := by
  intro f
  induction f with
  | zero => intro i j h; simp [probe] at h
  | succ f ih =>
    intro i j h
    simp only [probe] at h
    split at h
    · rename_i hc
      simp only [Option.some.injEq] at h; rw [← h]; exact hc
    · exact ih _ _ h

theorem probe_none {ch : List Bool} {vals : Nat → Nat} :
    ∀ (f i : Nat), probe ch vals f i = none ↔ ∀ k, k < f → ch[vals (i + k) % ch.length]? ≠ some true := by
  intro f
  induction f with
  | zero => intro i; simp [probe]
  | succ f ih =>
    intro i
    simp only [probe]
    by_cases hc : ch[vals i % ch.length]? = some true
    · simp only [hc, if_true]
      constructor
      · intro h; simp at h
      · intro h; exact absurd hc (by simpa using h 0 (by omega))
    · simp only [hc, if_false]
      rw [ih]
      constructor
      · intro h k hk
        rcases k with _ | k
        · simpa using hc
        · have := h k (by omega); rwa [show i + (k + 1) = i + 1 + k by omega]
      · intro h k hk
        have := h (k + 1) (by omega); rwa [show i + 1 + k = i + (k + 1) by omega]

/-- **C38 (only a ready channel is handed out)**, whatever other threads do to the counter. -/
theorem c38_select_ready {channels : List Bool} {vals : Nat → Nat} {j : Nat}
    (h : select channels vals = some j) : channels[j]? = some true := by
  unfold select at h
  split at h
  · simp at h
  · exact probe_ready _ _ _ h

/-- Consecutive numbers meet every residue. -/
theorem hits (n next j : Nat) (hj : j < n) : ∃ k, k < n ∧ (next + k) % n = j := by
  have hlt : next % n < n := Nat.mod_lt _ (by omega)
  by_cases h : next % n ≤ j
  · refine ⟨j - next % n, by omega, ?_⟩
    rw [Nat.add_mod, Nat.mod_eq_of_lt (show j - next % n < n by omega)]
    rw [show next % n + (j - next % n) = j by omega, Nat.mod_eq_of_lt hj]
  · refine ⟨j + n - next % n, by omega, ?_⟩
    have h2 : j + n - next % n < n := by omega
    rw [Nat.add_mod, Nat.mod_eq_of_lt h2]
    rw [show next % n + (j + n - next % n) = j + n by omega, Nat.add_mod_right, Nat.mod_eq_of_lt hj]

/-- **C38 (a ready channel is found), for up to eleven channels.**  If the counter does not pass
2^32 during the call and no other thread selects meanwhile, a request is refused only when no channel
is ready. -/
theorem c38_select_complete_partial (channels : List Bool) (next : Nat) (hn : channels.length ≤ 11)
    (hw : next + channels.length ≤ 2 ^ 32) :
    select channels (seqVals next) = none ↔ ∀ j : Nat, channels[j]? ≠ some true := by
  constructor
  · intro h j hj
    have hlt : j < channels.length := (List.getElem?_eq_some_iff.1 hj).1
    unfold select at h
    rw [if_neg (by omega)] at h
    rw [probe_none] at h
    obtain ⟨k, hk, he⟩ := hits channels.length next j hlt
    refine h k (by omega) ?_
    simp only [seqVals, Nat.zero_add]
    rw [Nat.mod_eq_of_lt (show next + k < 2 ^ 32 by omega), he]
    exact hj
  · intro h
    unfold select
    split
    · rfl
    · rw [probe_none]; intro k _; exact h _

/-- **C38 (requests are spread).**  With all channels ready, the channels handed out by any `size`
calls in a row (counter not passing 2^32) are all different, hence each serves exactly one. -/
theorem c38_select_spread (size next : Nat) (hn : 0 < size) (hw : next + size ≤ 2 ^ 32) :
    (∀ k, k < size → select (List.replicate size true) (seqVals (next + k)) = some ((next + k) % size)) ∧
    (∀ j, j < size → ∃ k, k < size ∧ select (List.replicate size true) (seqVals (next + k)) = some j) ∧
    (∀ k k', k < size → k' < size →
      select (List.replicate size true) (seqVals (next + k)) =
        select (List.replicate size true) (seqVals (next + k')) → k = k') := by
  have h1 : ∀ k, k < size →
      select (List.replicate size true) (seqVals (next + k)) = some ((next + k) % size) := by
    intro k hk
    unfold select
    rw [if_neg (by simp; omega)]
    simp only [probe, List.length_replicate, seqVals, Nat.add_zero]
    rw [Nat.mod_eq_of_lt (show next + k < 2 ^ 32 by omega)]
    rw [if_pos]
    rw [List.getElem?_replicate, if_pos (Nat.mod_lt _ hn)]
  refine ⟨h1, ?_, ?_⟩
  · intro j hj
    obtain ⟨k, hk, he⟩ := hits size next j hj
    exact ⟨k, hk, by rw [h1 k hk, he]⟩
  · intro k k' hk hk' he
    rw [h1 k hk, h1 k' hk', Option.some.injEq] at he
    have hm : k ≡ k' [MOD size] := Nat.ModEq.add_left_cancel' next he
    have : k % size = k' % size := hm
    rwa [Nat.mod_eq_of_lt hk, Nat.mod_eq_of_lt hk'] at this

/-- **C38 violated: a request refused although a channel is ready.**  With twelve or more channels a
call looks at eleven consecutive ones only. -/
theorem c38_violation_select_far (n next : Nat) (hn : 12 ≤ n) (hw : next + n ≤ 2 ^ 32) :
    ∃ channels : List Bool, channels.length = n ∧ (∃ j : Nat, channels[j]? = some true) ∧
      select channels (seqVals next) = none := by
  let t := (next + 11) % n
  have ht : t < n := Nat.mod_lt _ (by omega)
  refine ⟨(List.range n).map (fun i => decide (i = t)), by simp, ⟨t, ?_⟩, ?_⟩
  · simp [ht]
  · unfold select
    rw [if_neg (by simp; omega), probe_none]
    intro k hk he
    simp only [List.length_map, List.length_range] at hk he
    simp only [seqVals, Nat.zero_add] at he
    rw [Nat.mod_eq_of_lt (show next + k < 2 ^ 32 by omega)] at he
    rw [List.getElem?_map, List.getElem?_range (Nat.mod_lt _ (by omega))] at he
    simp only [Option.map_some, Option.some.injEq, decide_eq_true_eq] at he
    have hm : k ≡ 11 [MOD n] := Nat.ModEq.add_left_cancel' next he
    have : k % n = 11 % n := hm
    rw [Nat.mod_eq_of_lt (by omega), Nat.mod_eq_of_lt (by omega)] at this
    omega

/-- **C38 violated: the counter wraps.**  With six channels, of which the fifth is ready, the call
during which the 32-bit counter wraps finds none. -/
theorem c38_violation_select_wrap :
    select [false, false, false, false, true, false] (seqVals (2 ^ 32 - 3)) = none := by
  decide +kernel

/-- **C38 violated: two threads select at once.**  With two channels and one of them ready, a call
whose probes alternate with another's finds none. -/
theorem c38_violation_select_race :
    select [false, true] (fun i => 2 * i) = none ∧ select [false, true] (fun i => 2 * i + 1) = some 1 := by
  decide +kernel

/-- Two of three channels ready, counter at 7: channel 1 is not, channel 2 is taken. -/
theorem c38_select_witness : select [true, false, true] (seqVals 7) = some 2 := by decide +kernel

end Ltio.Pool
