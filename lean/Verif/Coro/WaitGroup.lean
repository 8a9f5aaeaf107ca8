import Verif.Coro.Runner

/-
Model of base/coroutine/wait_group.cc, and C27.

One waiter (a second `Wait` fails a `CHECK`), any number of threads calling `Add` and `Done`, the
loop running the posted wake-ups and the timer.  The waiter's coroutine is represented by its phase:
a wake-up is effective exactly when it is parked (C28: closures of an earlier period, or for a
coroutine already scheduled, do nothing).  `wait_count_` (an `int64_t`) is an integer.
-/
namespace Ltio.Coro.WG

/-- `Result` (wait_group.h:54-57). -/
inductive Res where
  | success
  | timeout
deriving DecidableEq

/-- The waiter. -/
inductive Phase where
  /-- has not called `Wait` -/
  | idle
  /-- in `Wait`, has seen a count that is not zero, has not yielded yet -/
  | entering
  /-- yielded -/
  | parked
  /-- in the runner's ready list -/
  | ready
  /-- `Wait` has returned -/
  | returned (r : Res)
deriving DecidableEq

/-- The wait group and everything in flight for it. -/
structure St where
  /-- `wait_count_` -/
  count : Int
  /-- sum of all `Add`s and number of `Done`s (ghost) -/
  adds : Nat
  dones : Nat
  phase : Phase
  /-- `resumer_` is set -/
  resumer : Bool
  /-- `result_status_` -/
  status : Res
  /-- the timer is installed -/
  armed : Bool
  /-- the timer has fired (ghost) -/
  fired : Bool
  /-- threads in `Done` between the decrement to zero and `PostTask` -/
  leaving : Nat
  /-- wake-up tasks in the loop's queue -/
  posted : Nat

/-- `WaitGroup::New` (wait_group.cc:25-34). -/
def init : St :=
  { count := 0, adds := 0, dones := 0, phase := .idle, resumer := false, status := .success,
    armed := false, fired := false, leaving := 0, posted := 0 }

/-- `wakeup_internal` (wait_group.cc:56-59). -/
def wakeup (s : St) : St :=
  if s.resumer = true ∧ s.phase = .parked then { s with phase := .ready } else s

/-- What can happen. -/
inductive Lab where
  /-- `Add(k)` on any thread (wait_group.cc:46-49) -/
  | add (k : Nat)
  /-- the decrement of `Done` on any thread (wait_group.cc:39) -/
  | done
  /-- the `PostTask` of the `Done` that reached zero (wait_group.cc:42-43) -/
  | post
  /-- the loop runs a posted wake-up -/
  | runPosted
  /-- `Wait`: flag and count (wait_group.cc:61-70) -/
  | wait
  /-- `Wait`: closure, timer if wanted, yield (wait_group.cc:71-84) -/
  | park (timer : Bool)
  /-- the timer fires: `OnTimeOut` (wait_group.cc:51-54) -/
  | timer
  /-- the runner resumes the waiter, `Wait` returns (wait_group.cc:86-89) -/
  | resume
deriving DecidableEq

/-- One step; `none`: not possible now.  `Add` needs a positive amount and `Done` something to be
done (the user's obligations).  The loop runs nothing while the waiter's coroutine is running. -/
def step (s : St) : Lab → Option St
  | .add k => if 0 < k then some { s with count := s.count + k, adds := s.adds + k } else none
  | .done =>
    if 0 < s.count then
      some { s with count := s.count - 1, dones := s.dones + 1,
                    leaving := if s.count = 1 then s.leaving + 1 else s.leaving }
    else none
  | .post => if 0 < s.leaving then some { s with leaving := s.leaving - 1, posted := s.posted + 1 } else none
  | .runPosted =>
    if 0 < s.posted ∧ s.phase ≠ .entering then some (wakeup { s with posted := s.posted - 1 }) else none
  | .wait =>
    if s.phase = .idle then
      if s.count = 0 then some { s with phase := .returned .success }
      else some { s with phase := .entering }
    else none
  | .park t => if s.phase = .entering then some { s with phase := .parked, resumer := true, armed := t } else none
  | .timer =>
    if s.armed = true ∧ s.phase ≠ .entering then
      some (wakeup { s with status := .timeout, armed := false, fired := true }) else none
  | .resume => if s.phase = .ready then some { s with phase := .returned s.status, armed := false } else none

/-- A schedule. -/
def runLabs (s : St) : List Lab → Option St
  | [] => some s
  | l :: ls => (step s l).bind (fun s' => runLabs s' ls)

/-- Executions in which every step satisfies `ok`. -/
inductive Reach (ok : St → Lab → Prop) : St → Prop where
  | init : Reach ok init
  | step {s s' : St} (l : Lab) : Reach ok s → ok s l → step s l = some s' → Reach ok s'

/-- No restriction. -/
def anyStep (_ : St) (_ : Lab) : Prop := True

/-- All `Add`s before the count can come back to zero: no `Add` while everything added so far is
done. -/
def noRestart (s : St) (l : Lab) : Prop := ∀ k, l = .add k → s.dones = 0 ∨ 0 < s.count

/-- Facts that hold in every execution. -/
structure Inv (s : St) : Prop where
  count : s.count = s.adds - s.dones
  le : s.dones ≤ s.adds
  pend : s.phase = .entering ∨ s.phase = .parked → s.count = 0 → 0 < s.leaving + s.posted
  res : s.phase = .parked ∨ s.phase = .ready → s.resumer = true
  stat : s.status = .timeout → s.fired = true
  armed : s.armed = true → s.phase = .parked ∨ s.phase = .ready
  ret : s.phase = .returned .timeout → s.fired = true
  pre : s.phase = .idle ∨ s.phase = .entering → s.fired = false

theorem wakeup_cases (s : St) : wakeup s = s ∨ s.phase = .parked ∧ wakeup s = { s with phase := .ready } := by
  unfold wakeup
  split
  · rename_i h; exact Or.inr ⟨h.2, rfl⟩
  · exact Or.inl rfl

theorem inv_step {s s' : St} (h : Inv s) (l : Lab) (hs : step s l = some s') : Inv s' := by
  obtain ⟨h1, h2, h3, h4, h5, h6, h7, h8⟩ := h
  cases l with
  | add k =>
    simp only [step] at hs
    split at hs
    · simp only [Option.some.injEq] at hs; subst hs
      refine ⟨?_, ?_, ?_, h4, h5, h6, h7, h8⟩
      · simp only []; omega
      · simp only []; omega
      · intro _ hc; simp only [] at hc; omega
    · simp at hs
  | done =>
    simp only [step] at hs
    split at hs
    · rename_i hpos
      simp only [Option.some.injEq] at hs; subst hs
      refine ⟨?_, ?_, ?_, h4, h5, h6, h7, h8⟩
      · simp only []; omega
      · simp only []; omega
      · intro _ hc
        simp only [] at hc ⊢
        rw [if_pos (by omega)]; omega
    · simp at hs
  | post =>
    simp only [step] at hs
    split at hs
    · simp only [Option.some.injEq] at hs; subst hs
      refine ⟨h1, h2, ?_, h4, h5, h6, h7, h8⟩
      intro hp hc
      have := h3 hp hc
      simp only []; omega
    · simp at hs
  | runPosted =>
    simp only [step] at hs
    split at hs
    · rename_i hc
      simp only [Option.some.injEq] at hs; subst hs
      by_cases hp : s.phase = .parked
      · have : wakeup { s with posted := s.posted - 1 } = { s with posted := s.posted - 1, phase := .ready } := by
          unfold wakeup; rw [if_pos ⟨h4 (Or.inl hp), hp⟩]
        rw [this]
        refine ⟨h1, h2, by simp, fun _ => h4 (Or.inl hp), h5, by simp, by simp, by simp⟩
      · have : wakeup { s with posted := s.posted - 1 } = { s with posted := s.posted - 1 } := by
          unfold wakeup; rw [if_neg (fun e => hp e.2)]
        rw [this]
        refine ⟨h1, h2, ?_, h4, h5, h6, h7, h8⟩
        rintro (e | e) _
        · exact absurd e hc.2
        · exact absurd e hp
    · simp at hs
  | wait =>
    simp only [step] at hs
    split at hs
    · rename_i hi
      split at hs
      · simp only [Option.some.injEq] at hs; subst hs
        exact ⟨h1, h2, by simp, by simp, h5, fun e => by have := h6 e; simp [hi] at this, by simp, by simp⟩
      · rename_i hc
        simp only [Option.some.injEq] at hs; subst hs
        exact ⟨h1, h2, fun _ e => absurd e hc, by simp, h5,
          fun e => by have := h6 e; simp [hi] at this, by simp, fun _ => h8 (Or.inl hi)⟩
    · simp at hs
  | park t =>
    simp only [step] at hs
    split at hs
    · rename_i hi
      simp only [Option.some.injEq] at hs; subst hs
      exact ⟨h1, h2, fun _ e => h3 (Or.inl hi) e, fun _ => rfl, h5, fun _ => Or.inl rfl, by simp, by simp⟩
    · simp at hs
  | timer =>
    simp only [step] at hs
    split at hs
    · rename_i hc
      simp only [Option.some.injEq] at hs; subst hs
      have hq := h6 hc.1
      rcases wakeup_cases { s with status := .timeout, armed := false, fired := true } with e | ⟨e, e'⟩
      · rw [e]
        refine ⟨h1, h2, h3, h4, fun _ => rfl, by simp, fun _ => rfl, ?_⟩
        intro hp; rcases hq with hq | hq <;> rcases hp with hp | hp <;> (simp only [] at hp; rw [hq] at hp; simp at hp)
      · rw [e']
        exact ⟨h1, h2, by simp, fun _ => h4 hq, fun _ => rfl, by simp, by simp, by simp⟩
    · simp at hs
  | resume =>
    simp only [step] at hs
    split at hs
    · simp only [Option.some.injEq] at hs; subst hs
      refine ⟨h1, h2, by simp, by simp, h5, by simp, ?_, by simp⟩
      intro e; simp only [Phase.returned.injEq] at e; exact h5 e
    · simp at hs

theorem inv_reach {ok : St → Lab → Prop} {s : St} (h : Reach ok s) : Inv s := by
  induction h with
  | init => exact ⟨rfl, Nat.le_refl _, by simp [init], by simp [init], by simp [init], by simp [init],
      by simp [init], by simp [init]⟩
  | step l _ _ hs ih => exact inv_step ih l hs

/-! ### C27 -/

/-- **C27 (the waiter is not left sleeping).**  In every execution: while the waiter sleeps and
everything added is done, a wake-up for it is under way – and whatever is under way can be
processed at once, after which `Wait` returns. -/
theorem c27_not_left {s : St} (h : Reach anyStep s) (hp : s.phase = .parked) (hd : s.dones = s.adds) :
    0 < s.leaving + s.posted ∧
    ∃ ls s' r, runLabs s ls = some s' ∧ s'.phase = .returned r ∧ (s.armed = false → s.fired = false → r = .success) ∧
      ∀ l ∈ ls, l = .post ∨ l = .runPosted ∨ l = .resume := by
  have hi := inv_reach h
  have hc : s.count = 0 := by have := hi.count; omega
  have hpend := hi.pend (Or.inr hp) hc
  refine ⟨hpend, ?_⟩
  have hres := hi.res (Or.inl hp)
  have fin : ∀ s1 : St, s1.phase = .parked → s1.resumer = true → 0 < s1.posted →
      runLabs s1 [.runPosted, .resume] = some { s1 with posted := s1.posted - 1, phase := .returned s1.status, armed := false } := by
    intro s1 a b c
    have hw : wakeup { s1 with posted := s1.posted - 1 } = { s1 with posted := s1.posted - 1, phase := .ready } := by
      unfold wakeup; rw [if_pos ⟨b, a⟩]
    have h1 : step s1 .runPosted = some { s1 with posted := s1.posted - 1, phase := .ready } := by
      simp only [step]
      rw [if_pos ⟨c, by rw [a]; simp⟩, hw]
    show (step s1 .runPosted).bind _ = _
    rw [h1]
    rfl
  have hstat : s.armed = false → s.fired = false → s.status = .success := by
    intro _ hf
    cases hst : s.status with
    | success => rfl
    | timeout => have := hi.stat hst; rw [hf] at this; simp at this
  by_cases hpo : 0 < s.posted
  · exact ⟨_, _, s.status, fin s hp hres hpo, rfl, hstat, by simp⟩
  · have hl : 0 < s.leaving := by omega
    have h1 : step s .post = some { s with leaving := s.leaving - 1, posted := s.posted + 1 } := by
      simp only [step]; rw [if_pos hl]
    have h2 := fin { s with leaving := s.leaving - 1, posted := s.posted + 1 } hp hres (by simp)
    refine ⟨[.post, .runPosted, .resume],
      { s with leaving := s.leaving - 1, posted := s.posted + 1 - 1, phase := .returned s.status, armed := false },
      s.status, ?_, rfl, hstat, by simp⟩
    show (step s .post).bind _ = _
    rw [h1]
    exact h2

/-- **C27 (resumed once).**  Once `Wait` has returned, nothing that still happens – further `Done`s,
late wake-ups, the timer – changes its result or wakes the coroutine again. -/
theorem c27_once {s s' : St} (r : Res) (hp : s.phase = .returned r) (l : Lab)
    (hs : step s l = some s') : s'.phase = .returned r := by
  have hw : ∀ s0 : St, s0.phase = .returned r → (wakeup s0).phase = .returned r := by
    intro s0 h0
    rcases wakeup_cases s0 with e | ⟨e, -⟩
    · rw [e]; exact h0
    · rw [h0] at e; simp at e
  cases l <;> simp only [step] at hs <;> repeat' split at hs
  all_goals first
    | contradiction
    | (simp only [Option.some.injEq] at hs; subst hs; first | exact hp | exact hw _ hp)
    | (rename_i hc; rw [hp] at hc; contradiction)
    | (rename_i hc _; rw [hp] at hc; contradiction)

/-- **C27 (a timeout is reported only after the timer fired).** -/
theorem c27_timeout {s : St} (h : Reach anyStep s) (hp : s.phase = .returned .timeout) :
    s.fired = true := (inv_reach h).ret hp

/-- Facts about executions without restarts. -/
structure Inv2 (s : St) : Prop where
  /-- a wake-up under way, or a success reported, means that everything is done -/
  wake : 0 < s.leaving + s.posted → s.count = 0 ∧ 0 < s.dones
  ready : s.phase = .ready → s.status = .success → s.count = 0 ∧ 0 < s.dones
  succ : s.phase = .returned .success → s.count = 0

theorem inv2_step {s s' : St} (hi : Inv s) (h : Inv2 s) (l : Lab) (hok : noRestart s l)
    (hnew : ∀ k, l = .add k → s.phase = .idle ∨ s.phase = .parked ∨ s.phase = .entering ∨ s.phase = .ready)
    (hs : step s l = some s') : Inv2 s' := by
  obtain ⟨w, r, g⟩ := h
  have hcnt := hi.count
  have hle := hi.le
  cases l with
  | add k =>
    simp only [step] at hs
    split at hs
    · rename_i hk
      simp only [Option.some.injEq] at hs; subst hs
      have hno := hok k rfl
      refine ⟨?_, ?_, ?_⟩
      · intro hp; have := w hp; omega
      · intro hp hst; have := r hp hst; omega
      · intro hp
        simp only [] at hp
        have := hnew k rfl
        rw [hp] at this; simp at this
    · simp at hs
  | done =>
    simp only [step] at hs
    split at hs
    · rename_i hpos
      simp only [Option.some.injEq] at hs; subst hs
      refine ⟨?_, ?_, ?_⟩
      · intro hp
        simp only [] at hp ⊢
        by_cases hc : s.count = 1
        · omega
        · rw [if_neg hc] at hp
          have := w hp; omega
      · intro hp hst; have := r hp hst; omega
      · intro hp; have := g hp; omega
    · simp at hs
  | post =>
    simp only [step] at hs
    split at hs
    · simp only [Option.some.injEq] at hs; subst hs
      exact ⟨fun hp => w (by simp only [] at hp; omega), r, g⟩
    · simp at hs
  | runPosted =>
    simp only [step] at hs
    split at hs
    · rename_i hc
      simp only [Option.some.injEq] at hs; subst hs
      have hw := w (by omega)
      rcases wakeup_cases { s with posted := s.posted - 1 } with e | ⟨e, e'⟩
      · rw [e]; exact ⟨fun _ => hw, r, g⟩
      · rw [e']; exact ⟨fun _ => hw, fun _ _ => hw, by simp⟩
    · simp at hs
  | wait =>
    simp only [step] at hs
    split at hs
    · split at hs
      · rename_i hc
        simp only [Option.some.injEq] at hs; subst hs
        exact ⟨w, by simp, fun _ => hc⟩
      · simp only [Option.some.injEq] at hs; subst hs
        exact ⟨w, by simp, by simp⟩
    · simp at hs
  | park t =>
    simp only [step] at hs
    split at hs
    · simp only [Option.some.injEq] at hs; subst hs
      exact ⟨w, by simp, by simp⟩
    · simp at hs
  | timer =>
    simp only [step] at hs
    split at hs
    · simp only [Option.some.injEq] at hs; subst hs
      rcases wakeup_cases { s with status := .timeout, armed := false, fired := true } with e | ⟨e, e'⟩
      · rw [e]; exact ⟨w, by simp, g⟩
      · rw [e']; exact ⟨w, by simp, by simp⟩
    · simp at hs
  | resume =>
    simp only [step] at hs
    split at hs
    · rename_i hp
      simp only [Option.some.injEq] at hs; subst hs
      refine ⟨w, by simp, ?_⟩
      intro e; simp only [Phase.returned.injEq] at e; exact (r hp e).1
    · simp at hs

/-- **C27 (success means done), when the count does not come back to zero before the last `Add`.**
`Wait` reports success only when as many `Done`s as `Add`s have happened. -/
theorem c27_success_partial {s : St}
    (h : Reach (fun s l => noRestart s l ∧ ∀ k, l = .add k → ∀ r, s.phase ≠ .returned r) s)
    (hp : s.phase = .returned .success) : s.dones = s.adds := by
  have hi := inv_reach h
  have h2 : Inv2 s := by
    clear hp hi
    induction h with
    | init => exact ⟨by simp [init], by simp [init], by simp [init]⟩
    | step l hr ho hs ih =>
      refine inv2_step (inv_reach hr) ih l ho.1 ?_ hs
      intro k hk
      rename_i s1 s2
      cases hph : s1.phase with
      | returned r => exact absurd hph (ho.2 k hk r)
      | _ => simp
  have := h2.succ hp
  have := hi.count
  omega

/-- **C27 violated: success although work remains.**  The pattern of the header's example: `Add`,
start a task, `Add`, start a task, `Wait`.  If the first task is done before the second `Add`, its
wake-up ends the wait while the second task still runs – for every number of further tasks. -/
theorem c27_violation_early (k : Nat) (hk : 0 < k) :
    ∃ s, Reach anyStep s ∧ s.phase = .returned .success ∧ s.adds = s.dones + k := by
  let s1 : St := { init with count := 1, adds := 1 }
  let s2 : St := { init with count := 0, adds := 1, dones := 1, leaving := 1 }
  let s3 : St := { init with count := k, adds := 1 + k, dones := 1, leaving := 1 }
  let s4 : St := { s3 with phase := .entering }
  let s5 : St := { s3 with phase := .parked, resumer := true }
  let s6 : St := { s5 with leaving := 0, posted := 1 }
  let s7 : St := { s5 with leaving := 0, posted := 0, phase := .ready }
  let s8 : St := { s7 with phase := .returned .success }
  have r1 : Reach anyStep s1 := .step (.add 1) .init trivial (by simp [step, init, s1])
  have r2 : Reach anyStep s2 := .step .done r1 trivial (by simp [step, s1, s2, init])
  have r3 : Reach anyStep s3 := .step (.add k) r2 trivial (by simp [step, s2, s3, init, hk])
  have r4 : Reach anyStep s4 := .step .wait r3 trivial (by
    have : ¬ ((k : Int) = 0) := by omega
    simp [step, s3, s4, init]; omega)
  have r5 : Reach anyStep s5 := .step (.park false) r4 trivial (by simp [step, s3, s4, s5, init])
  have r6 : Reach anyStep s6 := .step .post r5 trivial (by simp [step, s3, s5, s6, init])
  have r7 : Reach anyStep s7 := .step .runPosted r6 trivial (by simp [step, wakeup, s3, s5, s6, s7, init])
  have r8 : Reach anyStep s8 := .step .resume r7 trivial (by simp [step, s3, s5, s7, s8, init])
  exact ⟨s8, r8, rfl, by simp [s8, s7, s5, s3]⟩

/-- **C27 violated: a timeout although everything was done in time.**  The last `Done` happens while
the waiter sleeps and the timer has not fired; the timer runs before the posted wake-up. -/
theorem c27_violation_timeout_done :
    (runLabs init [.add 2, .done, .wait, .park true, .done, .post, .timer, .resume, .runPosted]).map
      (fun s => (s.phase, s.adds, s.dones)) = some (.returned .timeout, 2, 2) := by decide +kernel

/-- The intended use: all three tasks are added, two are done before and one after `Wait`. -/
theorem c27_witness :
    (runLabs init [.add 3, .done, .done, .wait, .park true, .done, .post, .runPosted, .resume]).map
      (fun s => (s.phase, s.adds, s.dones)) = some (.returned .success, 3, 3) := by decide +kernel

end Ltio.Coro.WG
