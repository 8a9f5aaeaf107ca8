import Verif.Coro.RunnerMore
/-
C211, C212: the end of a loop's thread that has coroutines (base/coroutine/co_runner.cc:153-162): the runner is a
`thread_local` (co_runner.cc:348-351) and is destroyed then, whatever has become of the coroutines.  On the model of
Verif/Coro/Runner.lean.  `CoroRunnerImpl::LoopGone` (co_runner.cc:304-307) is never called by the loop.
-/
namespace Ltio.Coro

/-! ### The program -/

/-- `~CoroRunnerImpl` (co_runner.cc:153-162), on the main coroutine: `FreeCoros`, then the free list. -/
def finish (s : St) : Option St :=
  if s.aborted = false ∧ s.cur = none then
    some { s with gc := [], free := [], dead := s.free ++ (s.gc ++ s.dead) }
  else none

/-- A thread with its runner; after its end: what is left, and how often memory of the runner has been read since. -/
inductive Life where
  | live (s : St)
  | over (s : St) (reads : Nat)

/-- What happens: steps of the runner, its end, and resume closures called afterwards.  `Resume` (co_runner.cc:198-219) is bound to the runner
(co_runner.cc:419) and reads its `bind_loop_` (line 212) before anything else. -/
inductive LifeStep : Life → Life → Prop where
  | step {s s' : St} (l : Lab) : step s l = some s' → LifeStep (.live s) (.live s')
  | finish {s s' : St} : finish s = some s' → LifeStep (.live s) (.over s' 0)
  | call {s : St} {k : Nat} (t : Nat × Nat × Nat) : t ∈ s.made → LifeStep (.over s k) (.over s (k + 1))

/-- Any number of steps. -/
inductive LifeRun : Life → Life → Prop where
  | refl (x : Life) : LifeRun x x
  | tail {x y z : Life} : LifeRun x y → LifeStep y z → LifeRun x z

/-! ### Properties -/

/-- The runner stays reachable in its own model until it ends, and nothing of it changes afterwards. -/
def Life.Ok : Life → Prop
  | .live s => Reach s
  | .over s' _ => ∃ s, Reach s ∧ finish s = some s'

theorem life_reach {y : Life} (h : LifeRun (.live init) y) : y.Ok := by
  induction h with
  | refl => exact Reach.init
  | tail _ st ih =>
    cases st with
    | step l hs => exact Reach.step l ih hs
    | finish hf => exact ⟨_, ih, hf⟩
    | call t ht => exact ih

theorem life_stays {y : Life} (s : St) (k : Nat) (h : LifeRun (.over s k) y) : ∃ k', y = .over s k' ∧ k ≤ k' := by
  induction h with
  | refl => exact ⟨k, rfl, Nat.le_refl _⟩
  | tail _ st ih =>
    obtain ⟨k', rfl, hk⟩ := ih
    cases st with
    | call t ht => exact ⟨k' + 1, rfl, by omega⟩

/-- **C212: what the end destroys.**  In every history: when the thread ends, the coroutines that are destroyed, then or before, are exactly those that are
not waiting for something, each once. -/
theorem c212_destroyed {s : St} {k : Nat} (h : LifeRun (.live init) (.over s k)) :
    s.dead.Nodup ∧ ∀ c, c ∈ s.dead ↔ c < s.n ∧ c ∉ s.susp := by
  obtain ⟨r, hr, hf⟩ := life_reach h
  have hi := inv_reach hr
  unfold finish at hf
  split at hf
  · rename_i hc
    simp only [Option.some.injEq] at hf
    subst hf
    have hp := hi.places
    have hb := hi.below
    rw [hc.2] at hp hb
    simp only [Option.toList_none, List.nil_append, List.append_assoc] at hp hb
    rw [List.nodup_append] at hp
    refine ⟨hp.2.1, fun c => ⟨fun hm => ⟨(hb c).1 (List.mem_append_right _ hm), fun hs => hp.2.2 c hs c hm rfl⟩, fun ⟨hn, hs⟩ => ?_⟩⟩
    exact (List.mem_append.1 ((hb c).2 hn)).resolve_left hs
  · cases hf

/-- **C212: a runner that is not inside a coroutine can always end.** -/
theorem c212_can_end {s : St} (ha : s.aborted = false) (hc : s.cur = none) : ∃ s', LifeStep (.live s) (.over s' 0) ∧ s'.made = s.made ∧ s'.susp = s.susp :=
  ⟨{ s with gc := [], free := [], dead := s.free ++ (s.gc ++ s.dead) }, .finish (by unfold finish; rw [if_pos ⟨ha, hc⟩]), rfl, rfl⟩

/-- **C211, violation.**  A coroutine that waits when the thread ends, even one whose wake-up has been called already, is never destroyed and never
goes on: its stack and what it holds are lost. -/
theorem c211_leak_violated {s : St} (hr : Reach s) (ha : s.aborted = false) (hc : s.cur = none) (c : Nat) (hs : c ∈ s.susp) :
    ∃ s', LifeStep (.live s) (.over s' 0) ∧ ∀ y, LifeRun (.over s' 0) y → ∃ k, y = .over s' k ∧ c ∉ s'.dead ∧ s'.cur ≠ some c ∧ c ∈ s'.susp := by
  have hp := (inv_reach hr).places
  rw [hc] at hp
  simp only [Option.toList_none, List.nil_append, List.append_assoc] at hp
  rw [List.nodup_append] at hp
  refine ⟨{ s with gc := [], free := [], dead := s.free ++ (s.gc ++ s.dead) }, .finish (by unfold finish; rw [if_pos ⟨ha, hc⟩]), fun y hy => ?_⟩
  obtain ⟨k, hk, _⟩ := life_stays _ 0 hy
  exact ⟨k, hk, fun hd => hp.2.2 c hs c hd rfl, by rw [hc]; simp, hs⟩

/-- **C211, violation.**  A resume closure that is called after the thread has ended reads the destroyed runner, whichever coroutine it is for, even one
that had long been resumed or destroyed, where the closure is meant to do nothing. -/
theorem c211_touch_violated {s : St} (ha : s.aborted = false) (hc : s.cur = none) (t : Nat × Nat × Nat) (ht : t ∈ s.made) :
    ∃ s', LifeStep (.live s) (.over s' 0) ∧ LifeStep (.over s' 0) (.over s' 1) :=
  ⟨{ s with gc := [], free := [], dead := s.free ++ (s.gc ++ s.dead) }, .finish (by unfold finish; rw [if_pos ⟨ha, hc⟩]), .call t ht⟩

/-! ### Examples -/

/-- One coroutine ends; a second one makes a closure, waits, its closure is called, and the thread ends. -/
theorem w_c211 : ∃ s, Reach s ∧ s.aborted = false ∧ s.cur = none ∧ 1 ∈ s.susp ∧ 1 ∈ s.ready ∧ (1, 1, 0) ∈ s.made ∧ 0 ∈ s.free := by
  have h : ((runLabs init [.spawn, .mk, .yield, .spawn, .mk, .yield, .callHere 0 1, .wake, .exit, .callHere 1 1]).map
      (fun s => decide (s.aborted = false) && (s.cur.isNone && (decide (1 ∈ s.susp) && (decide (1 ∈ s.ready) && (decide ((1, 1, 0) ∈ s.made) &&
        decide (0 ∈ s.free))))))) = some true := by decide +kernel
  rw [Option.map_eq_some_iff] at h
  obtain ⟨s, h1, h2⟩ := h
  simp only [Bool.and_eq_true, decide_eq_true_eq, Option.isNone_iff_eq_none] at h2
  exact ⟨s, reach_run .init _ h1, h2⟩

end Ltio.Coro
