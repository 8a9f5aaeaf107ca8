import Verif.Sync.Basic
import Mathlib.Algebra.Group.Defs
import Mathlib.Algebra.Group.Int.Defs

/-
Model of components/utils/data_accumulator.h (C86): `AccumulatorCollector`, whose accumulators are
filled by any number of threads and emptied by its own thread.

`Acc` and `SwapOut` are single steps: they run under the accumulator's spin lock (C79).  The data
are from any commutative monoid: the user's `+=`, with a default constructed value as zero (as
`all_data[key] += …`, line 127, requires).  A missing key is the value zero.
-/
namespace Ltio.Metrics.Acc
open Ltio.Sync

variable {M : Type} [AddCommMonoid M]

/-- Where the collector's thread is in `ContentMain` (lines 117-131). -/
inductive CPC where
  /-- not started -/
  | off
  /-- before the test of `running_` (line 118) -/
  | check
  /-- before the `SwapOut` of accumulator `i`, or the call of the handler (lines 122-129) -/
  | swap (i : Nat)
  /-- returned -/
  | ended
deriving DecidableEq

/-- The collector. -/
structure St (M : Type) where
  /-- `datas_` of each accumulator -/
  acc : Nat → Nat → M
  /-- `all_data` -/
  part : Nat → M
  pc : CPC
  running : Bool
  /-- sum of all maps given to the handler, number of its calls -/
  handed : Nat → M
  calls : Nat
  /-- sum of everything collected (ghost) -/
  coll : Nat → M

/-- A new collector; `running_` and `thread_` are not initialised by the constructors (lines 80-93),
`running` is written by `Start` before it is read. -/
def init : St M := ⟨fun _ _ => 0, fun _ => 0, .off, false, fun _ => 0, 0, fun _ => 0⟩

/-- What can happen. -/
inductive Lab (M : Type) where
  /-- `Collect(key, data)` by a thread whose accumulator is `i` (lines 111-114, 133-136) -/
  | collect (i k : Nat) (v : M)
  | start
  /-- next step of the collector's thread -/
  | go
  /-- `Stop` sets `running_` (line 103); the join is over when the thread has returned -/
  | stop

/-- Add to one key of a map. -/
def addAt (f : Nat → M) (k : Nat) (v : M) : Nat → M := put f k (f k + v)

/-- Sum of two maps (lines 126-128). -/
def addMap (f g : Nat → M) : Nat → M := fun k => f k + g k

/-- The collector's thread (lines 117-131), with `n` accumulators. -/
def go (n : Nat) (s : St M) : CPC → Option (St M)
  | .check =>
    some ⟨s.acc, fun _ => 0, if s.running then .swap 0 else .ended, s.running, s.handed, s.calls, s.coll⟩
  | .swap i =>
    if i < n then
      some ⟨put s.acc i (fun _ => 0), addMap s.part (s.acc i), .swap (i + 1), s.running, s.handed,
        s.calls, s.coll⟩
    else some ⟨s.acc, fun _ => 0, .check, s.running, addMap s.handed s.part, s.calls + 1, s.coll⟩
  | _ => none

/-- One step. -/
def step (n : Nat) (s : St M) : Lab M → Option (St M)
  | .collect i k v =>
    if i < n then
      some ⟨put s.acc i (addAt (s.acc i) k v), s.part, s.pc, s.running, s.handed, s.calls,
        addAt s.coll k v⟩
    else none
  | .start =>
    if s.pc = .off then some ⟨s.acc, s.part, .check, true, s.handed, s.calls, s.coll⟩ else none
  | .go => go n s s.pc
  | .stop => some ⟨s.acc, s.part, s.pc, false, s.handed, s.calls, s.coll⟩

/-- What accumulators `m`, `m+1`, …, `m+c-1` hold of a key. -/
def sumFrom (acc : Nat → Nat → M) (k m : Nat) : Nat → M
  | 0 => 0
  | c + 1 => acc m k + sumFrom acc k (m + 1) c

theorem sumFrom_put_lt (acc : Nat → Nat → M) (k i : Nat) (f : Nat → M) :
    ∀ c m, i < m → sumFrom (put acc i f) k m c = sumFrom acc k m c := by
  intro c
  induction c with
  | zero => intro m _; rfl
  | succ c ih =>
    intro m h
    simp only [sumFrom]
    rw [ih (m + 1) (by omega), put_ne _ _ (by omega)]

theorem sumFrom_collect (acc : Nat → Nat → M) (k i k' : Nat) (v : M) :
    ∀ c m, m ≤ i → i < m + c →
    sumFrom (put acc i (addAt (acc i) k' v)) k m c =
      sumFrom acc k m c + (if k = k' then v else 0) := by
  intro c
  induction c with
  | zero => intro m h1 h2; omega
  | succ c ih =>
    intro m h1 h2
    simp only [sumFrom]
    by_cases hm : m = i
    · subst hm
      rw [sumFrom_put_lt _ _ _ _ _ _ (by omega)]
      simp only [put_same, addAt]
      by_cases hk : k = k'
      · subst hk; simp only [put_same, if_true]; rw [add_assoc, add_comm v, ← add_assoc]
      · rw [put_ne _ _ hk, if_neg hk, add_zero]
    · rw [ih (m + 1) (by omega) (by omega), put_ne _ _ hm, add_assoc]

theorem sumFrom_empty (acc : Nat → Nat → M) (k i : Nat) :
    ∀ c m, m ≤ i → i < m + c →
    acc i k + sumFrom (put acc i (fun _ => 0)) k m c = sumFrom acc k m c := by
  intro c
  induction c with
  | zero => intro m h1 h2; omega
  | succ c ih =>
    intro m h1 h2
    simp only [sumFrom]
    by_cases hm : m = i
    · subst hm
      rw [sumFrom_put_lt _ _ _ _ _ _ (by omega)]
      simp only [put_same, zero_add]
    · rw [put_ne _ _ hm, ← ih (m + 1) (by omega) (by omega), ← add_assoc, ← add_assoc,
        add_comm (acc i k)]

/-- The invariant: nothing is lost or counted twice. -/
def Inv (n : Nat) (s : St M) : Prop :=
  (∀ k, s.coll k = s.handed k + (s.part k + sumFrom s.acc k 0 n)) ∧
  ((∀ i, s.pc ≠ .swap i) → ∀ k, s.part k = 0)

theorem sumFrom_zero (k : Nat) : ∀ c m, sumFrom (fun _ _ => (0 : M)) k m c = 0 := by
  intro c
  induction c with
  | zero => intro m; rfl
  | succ c ih => intro m; simp only [sumFrom, ih, add_zero]

theorem inv_init (n : Nat) : Inv n (init : St M) :=
  ⟨fun k => by simp only [init, sumFrom_zero, add_zero], fun _ _ => rfl⟩

theorem inv_step {n : Nat} (s : St M) (l : Lab M) (s' : St M) (hI : Inv n s)
    (hs : step n s l = some s') : Inv n s' := by
  obtain ⟨h1, h2⟩ := hI
  cases l with
  | collect i k v =>
    simp only [step] at hs
    split at hs
    case isFalse => simp at hs
    rename_i hi
    cases hs
    refine ⟨fun k' => ?_, h2⟩
    show addAt s.coll k v k' = s.handed k' + (s.part k' + sumFrom (put s.acc i _) k' 0 n)
    rw [sumFrom_collect _ _ _ _ _ _ _ (by omega) (by omega), ← add_assoc, ← add_assoc]
    by_cases hk : k' = k
    · subst hk; simp only [addAt, put_same, if_true]; rw [h1, ← add_assoc]
    · simp only [addAt, put_ne _ _ hk, if_neg hk, add_zero]; rw [h1, ← add_assoc]
  | start =>
    simp only [step] at hs
    split at hs
    case isFalse => simp at hs
    rename_i hp
    cases hs
    exact ⟨h1, fun _ => h2 (by rw [hp]; simp)⟩
  | stop =>
    simp only [step] at hs
    cases hs
    exact ⟨h1, h2⟩
  | go =>
    simp only [step] at hs
    cases hp : s.pc with
    | check =>
      simp only [hp, go, Option.some.injEq] at hs
      subst hs
      have h0 := h2 (by rw [hp]; simp)
      refine ⟨fun k => ?_, fun _ _ => rfl⟩
      show s.coll k = s.handed k + (0 + sumFrom s.acc k 0 n)
      rw [h1, h0]
    | swap i =>
      simp only [hp, go] at hs
      split at hs
      · rename_i hi
        cases hs
        refine ⟨fun k => ?_, fun h => absurd rfl (h (i + 1))⟩
        show s.coll k = s.handed k + (s.part k + s.acc i k + sumFrom (put s.acc i (fun _ => 0)) k 0 n)
        rw [add_assoc, sumFrom_empty _ _ _ _ _ (by omega) (by omega)]
        exact h1 k
      · cases hs
        refine ⟨fun k => ?_, fun _ _ => rfl⟩
        show s.coll k = s.handed k + s.part k + (0 + sumFrom s.acc k 0 n)
        rw [zero_add, add_assoc]
        exact h1 k
    | off => simp [hp, go] at hs
    | ended => simp [hp, go] at hs

/-- Reachable states. -/
abbrev R (n : Nat) (s : St M) : Prop := Reach (step n) init s

/-- **C86.** Nothing is lost or counted twice: of every key, what has been collected is what the
handler has been given, plus what is on its way to it, plus what the accumulators hold. -/
theorem c86_conservation {n : Nat} {s : St M} (h : R n s) (k : Nat) :
    s.coll k = s.handed k + (s.part k + sumFrom s.acc k 0 n) :=
  (inv_reach (I := Inv n) (inv_init n) inv_step h).1 k

/-- The state of the round that began at a state whose collected sums were `c`. -/
def Round (n : Nat) (c : Nat → M) (calls : Nat) (s : St M) : Prop :=
  (s.calls = calls ∧ ∃ i, i ≤ n ∧ s.pc = .swap i ∧
    ∀ k, ∃ x, s.handed k + (s.part k + sumFrom s.acc k i (n - i)) = c k + x) ∨
  (calls < s.calls ∧ ∀ k, ∃ x, s.handed k = c k + x)

theorem round_step {n : Nat} {c : Nat → M} {m : Nat} (s : St M) (l : Lab M) (s' : St M)
    (hR : Round n c m s) (hs : step n s l = some s') : Round n c m s' := by
  rcases hR with ⟨h1, i, hi, hp, h2⟩ | ⟨h1, h2⟩
  · cases l with
    | collect j k v =>
      simp only [step] at hs
      split at hs
      case isFalse => simp at hs
      rename_i hj
      cases hs
      refine Or.inl ⟨h1, i, hi, hp, fun k' => ?_⟩
      obtain ⟨x, hx⟩ := h2 k'
      show ∃ x, s.handed k' + (s.part k' + sumFrom (put s.acc j _) k' i (n - i)) = c k' + x
      by_cases hji : j < i
      · exact ⟨x, by rw [sumFrom_put_lt _ _ _ _ _ _ hji]; exact hx⟩
      · refine ⟨x + (if k' = k then v else 0), ?_⟩
        rw [sumFrom_collect _ _ _ _ _ _ _ (by omega) (by omega), ← add_assoc, ← add_assoc,
          ← add_assoc, ← hx, ← add_assoc]
    | start =>
      simp only [step, hp] at hs
      simp at hs
    | stop =>
      simp only [step] at hs
      cases hs
      exact Or.inl ⟨h1, i, hi, hp, h2⟩
    | go =>
      simp only [step, hp, go] at hs
      split at hs
      · rename_i hlt
        cases hs
        refine Or.inl ⟨h1, i + 1, hlt, rfl, fun k => ?_⟩
        obtain ⟨x, hx⟩ := h2 k
        refine ⟨x, ?_⟩
        show s.handed k + (s.part k + s.acc i k +
          sumFrom (put s.acc i (fun _ => 0)) k (i + 1) (n - (i + 1))) = c k + x
        rw [sumFrom_put_lt _ _ _ _ _ _ (by omega), ← hx]
        have : n - i = (n - (i + 1)) + 1 := by omega
        rw [this, sumFrom, ← add_assoc (s.part k)]
      · rename_i hlt
        cases hs
        refine Or.inr ⟨by simp only []; omega, fun k => ?_⟩
        obtain ⟨x, hx⟩ := h2 k
        refine ⟨x, ?_⟩
        have : n - i = 0 := by omega
        rw [this, sumFrom, add_zero] at hx
        exact hx
  · cases l with
    | collect j k v =>
      simp only [step] at hs
      split at hs
      case isFalse => simp at hs
      cases hs
      exact Or.inr ⟨h1, h2⟩
    | start =>
      simp only [step] at hs
      split at hs
      case isFalse => simp at hs
      cases hs
      exact Or.inr ⟨h1, h2⟩
    | stop =>
      simp only [step] at hs
      cases hs
      exact Or.inr ⟨h1, h2⟩
    | go =>
      simp only [step] at hs
      cases hp : s.pc with
      | check =>
        simp only [hp, go, Option.some.injEq] at hs
        subst hs
        exact Or.inr ⟨h1, h2⟩
      | swap i =>
        simp only [hp, go] at hs
        split at hs
        · cases hs
          exact Or.inr ⟨h1, h2⟩
        · cases hs
          refine Or.inr ⟨by simp only []; omega, fun k => ?_⟩
          obtain ⟨x, hx⟩ := h2 k
          exact ⟨x + s.part k, by
            show s.handed k + s.part k = c k + (x + s.part k)
            rw [hx, add_assoc]⟩
      | off => simp [hp, go] at hs
      | ended => simp [hp, go] at hs

/-- **C86.** Everything collected before a round of the collector begins has been handed over when
that round's call of the handler has returned, whatever is collected meanwhile: the handler's total
is the total collected then plus something. -/
theorem c86_delivered {n : Nat} {s s' : St M} (h : R n s) (hp : s.pc = .swap 0)
    (ls : List (Lab M)) (hr : runs (step n) s ls = some s') (hc : s.calls < s'.calls) (k : Nat) :
    ∃ x, s'.handed k = s.coll k + x := by
  have hcons := c86_conservation h
  have h0 : Round n s.coll s.calls s :=
    Or.inl ⟨rfl, 0, Nat.zero_le _, hp, fun k => ⟨0, by rw [add_zero, hcons]; rfl⟩⟩
  have := inv_runs (step := step n) (I := Round n s.coll s.calls) round_step ls s s' h0 hr
  rcases this with ⟨h1, _⟩ | ⟨_, h2⟩
  · omega
  · exact h2 k

/-- The collector's thread is never stuck while it runs: a round takes `n + 1` of its steps. -/
theorem c86_round {n : Nat} : ∀ (c : Nat) (s : St M) (i : Nat), s.pc = .swap i → n - i = c → i ≤ n →
    ∃ s', runs (step n) s (List.replicate (c + 1) .go) = some s' ∧ s'.calls = s.calls + 1 ∧
      s'.pc = .check := by
  intro c
  induction c with
  | zero =>
    intro s i hp hc hi
    refine ⟨⟨s.acc, fun _ => 0, .check, s.running, addMap s.handed s.part, s.calls + 1, s.coll⟩,
      ?_, rfl, rfl⟩
    simp only [List.replicate, runs, step, hp, go, if_neg (show ¬ i < n by omega), Option.bind_some]
  | succ c ih =>
    intro s i hp hc hi
    have hlt : i < n := by omega
    obtain ⟨s', h1, h2, h3⟩ := ih ⟨put s.acc i (fun _ => 0), addMap s.part (s.acc i), .swap (i + 1),
      s.running, s.handed, s.calls, s.coll⟩ (i + 1) rfl (by omega) hlt
    refine ⟨s', ?_, h2, h3⟩
    rw [List.replicate_succ]
    simp only [runs, step, hp, go, if_pos hlt, Option.bind_some]
    exact h1

/-- **C86, violation.** `Stop` loses what was collected since the last round: here the value 5 is
collected while the collector runs, then it is stopped, and the handler never gets it, whatever is
done afterwards. -/
theorem c86_stop_loses :
    ∃ s : St Int, runs (step 1) init [.start, .go, .go, .go, .collect 0 7 5, .stop, .go] = some s ∧
      s.pc = .ended ∧ s.coll 7 = 5 ∧ s.handed 7 = 0 ∧
      ∀ ls s', runs (step 1) s ls = some s' → s'.handed 7 = 0 := by
  refine ⟨_, rfl, rfl, rfl, rfl, ?_⟩
  intro ls s' hr
  have key := inv_runs (step := step (M := Int) 1) (I := fun x => x.pc = .ended ∧ x.handed 7 = 0)
    (by
      intro x l x' ⟨hx, hh⟩ hs
      cases l with
      | collect j k v =>
        simp only [step] at hs
        split at hs
        case isFalse => simp at hs
        cases hs; exact ⟨hx, hh⟩
      | start => simp [step, hx] at hs
      | stop => simp only [step] at hs; cases hs; exact ⟨hx, hh⟩
      | go => simp [step, hx, go] at hs) ls _ s' ⟨rfl, rfl⟩ hr
  exact key.2

/-- The hypotheses of C86 are met: two accumulators, data collected before and during a round. -/
theorem w_c86 :
    ((runs (step 2) (init : St Int) [.start, .collect 0 1 10, .go, .collect 1 1 20, .go,
        .collect 0 1 3, .go, .go]).map fun s => (s.handed 1, s.acc 0 1, s.coll 1, s.calls))
      = some (30, 3, 33, 1) ∧
    ((runs (step 2) (init : St Int) [.start, .collect 0 1 10, .go]).map
      fun s => (s.pc, s.coll 1, s.calls)) = some (.swap 0, 10, 0) := by
  constructor <;> rfl

end Ltio.Metrics.Acc
