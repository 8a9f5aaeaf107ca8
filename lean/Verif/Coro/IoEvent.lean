import Verif.Coro.Mutex

/-
Model of base/coroutine/io_event.cc, and C51.  The descriptor stays registered from construction to
destruction, so its events are handled whenever the loop runs, i.e. whenever the coroutine is
suspended – in `Wait` or elsewhere.
-/
namespace Ltio.Coro.IoEv

/-- `Result` (io_event.h:26-31). -/
inductive Res where
  | none
  | ok
  | error
  | timeout
deriving DecidableEq

/-- The coroutine. -/
inductive Ph where
  | running
  /-- suspended in `Wait` -/
  | parked
  /-- scheduled to be resumed in `Wait` -/
  | ready
  /-- suspended somewhere else -/
  | away
  /-- called an empty closure: `std::bad_function_call` -/
  | crashed
  /-- failed the `CHECK` at the end of `Wait` -/
  | aborted
deriving DecidableEq

/-- The object. -/
structure St where
  result : Res
  resumer : Bool
  armed : Bool
  ph : Ph
  /-- the first thing that happened since `Wait` was called (ghost) -/
  first : Option Res
  /-- what the last `Wait` returned, and its first event (ghost) -/
  ret : Option (Res × Option Res)

/-- Constructed (io_event.cc:8-12,21-31) in a running coroutine. -/
def init : St := ⟨.none, false, false, .running, none, none⟩

/-- `set_result` (io_event.h:51-56). -/
def setResult (s : St) (r : Res) : St :=
  if s.result = .none then { s with result := r } else s

/-- `resumer_()`: calling an empty `std::function` throws. -/
def callResumer (s : St) : St :=
  if s.resumer then (if s.ph = .parked then { s with ph := .ready } else s) else { s with ph := .crashed }

/-- Remember the first event of this wait. -/
def note (s : St) (r : Res) : St := if s.first = none then { s with first := some r } else s

/-- What can happen. -/
inductive Lab where
  /-- `Wait(ms)`, with a timer when `ms > 0` (io_event.cc:51-67) -/
  | wait (timer : Bool)
  /-- the descriptor's event, in the monitored set or not: `HandleEvent` (io_event.cc:81-88) -/
  | ev (monitored : Bool)
  /-- the timer (io_event.cc:61-64) -/
  | timer
  /-- resumed: the rest of `Wait` (io_event.cc:69-78) -/
  | resume
  /-- the coroutine suspends elsewhere, and comes back -/
  | leave
  | back
  /-- a closure of the same period made for something else is called while it waits -/
  | stray
deriving DecidableEq

/-- The loop runs (and handles events) only while the coroutine is suspended. -/
def loopRuns (s : St) : Bool := s.ph == .parked || s.ph == .ready || s.ph == .away

/-- One step. -/
def step (s : St) : Lab → Option St
  | .wait t =>
    if s.ph = .running then
      some { s with result := .none, resumer := true, armed := t, ph := .parked, first := none }
    else none
  | .ev m =>
    if loopRuns s = true then
      some (callResumer (setResult (note s (if m then .ok else .error)) (if m then .ok else .error)))
    else none
  | .timer =>
    if loopRuns s = true ∧ s.armed = true then
      some (callResumer (setResult (note { s with armed := false } .timeout) .timeout))
    else none
  | .resume =>
    if s.ph = .ready then
      if s.result = .none then some { s with ph := .aborted, armed := false, resumer := false }
      else some { s with ph := .running, armed := false, resumer := false, ret := some (s.result, s.first) }
    else none
  | .leave => if s.ph = .running then some { s with ph := .away } else none
  | .back => if s.ph = .away then some { s with ph := .running } else none
  | .stray => if s.ph = .parked then some { s with ph := .ready } else none

/-- A schedule. -/
def runLabs (s : St) : List Lab → Option St
  | [] => some s
  | l :: ls => (step s l).bind (fun s' => runLabs s' ls)

/-- Executions in which the coroutine is woken in `Wait` only by this object. -/
inductive Reach : St → Prop where
  | init : Reach init
  | step {s s' : St} (l : Lab) : Reach s → l ≠ .stray → step s l = some s' → Reach s'

structure Inv (s : St) : Prop where
  parked : s.ph = .parked → s.resumer = true ∧ s.result = .none ∧ s.first = none
  ready : s.ph = .ready → s.resumer = true ∧ s.result ≠ .none ∧ s.first = some s.result
  idle : s.ph = .running ∨ s.ph = .away → s.resumer = false ∧ s.armed = false
  ret : ∀ r f, s.ret = some (r, f) → r ≠ .none ∧ f = some r
  sane : s.ph ≠ .aborted
  crash : s.ph = .crashed → s.armed = false ∧ s.resumer = false

/-- An event or the timer, with the loop running. -/
theorem inv_event {s : St} (h : Inv s) (r : Res) (hr : r ≠ .none) (b : Bool) (hb : b = true → s.armed = true)
    (hl : loopRuns s = true) :
    Inv (callResumer (setResult (note { s with armed := b } r) r)) := by
  have hph : s.ph = .parked ∨ s.ph = .ready ∨ s.ph = .away := by
    simpa [loopRuns, or_assoc] using hl
  rcases hph with hp | hp | hp
  · obtain ⟨h1, h2, h3⟩ := h.parked hp
    have e : callResumer (setResult (note { s with armed := b } r) r) =
        { s with armed := b, first := some r, result := r, ph := .ready } := by
      simp [callResumer, setResult, note, h1, h2, h3, hp]
    rw [e]
    exact ⟨by simp, fun _ => ⟨h1, hr, rfl⟩, by simp, h.ret, by simp, by simp⟩
  · obtain ⟨h1, h2, h3⟩ := h.ready hp
    have e : callResumer (setResult (note { s with armed := b } r) r) = { s with armed := b } := by
      simp [callResumer, setResult, note, h1, h2, h3, hp]
    rw [e]
    refine ⟨?_, fun _ => ⟨h1, h2, h3⟩, ?_, h.ret, h.sane, ?_⟩
    · intro e; simp only [] at e; rw [hp] at e; simp at e
    · intro e; simp only [] at e; rw [hp] at e; simp at e
    · intro e; simp only [] at e; rw [hp] at e; simp at e
  · obtain ⟨h1, h2⟩ := h.idle (Or.inr hp)
    have hbf : b = false := by
      cases b with
      | false => rfl
      | true => have := hb rfl; rw [h2] at this; simp at this
    have hsr : (setResult (note { s with armed := b } r) r).resumer = false := by
      unfold setResult note; repeat' split
      all_goals exact h1
    have hsa : (setResult (note { s with armed := b } r) r).armed = false := by
      unfold setResult note; repeat' split
      all_goals exact hbf
    have hst : (setResult (note { s with armed := b } r) r).ret = s.ret := by
      unfold setResult note; repeat' split
      all_goals rfl
    unfold callResumer
    rw [hsr]
    simp only [Bool.false_eq_true, if_false]
    refine ⟨by simp, by simp, by simp, ?_, by simp, fun _ => ⟨hsa, rfl⟩⟩
    intro a f hf; exact h.ret a f (hst ▸ hf)

theorem inv_step {s s' : St} (h : Inv s) (l : Lab) (hl : l ≠ .stray) (hs : step s l = some s') :
    Inv s' := by
  cases l with
  | wait t =>
    simp only [step] at hs
    split at hs
    · simp only [Option.some.injEq] at hs; subst hs
      exact ⟨fun _ => ⟨rfl, rfl, rfl⟩, by simp, by simp, h.ret, by simp, by simp⟩
    · simp at hs
  | ev m =>
    simp only [step] at hs
    split at hs
    · rename_i hlr
      simp only [Option.some.injEq] at hs; subst hs
      exact inv_event (b := s.armed) h _ (by cases m <;> simp) (fun e => e) hlr
    · simp at hs
  | timer =>
    simp only [step] at hs
    split at hs
    · rename_i hlr
      simp only [Option.some.injEq] at hs; subst hs
      exact inv_event (b := false) h _ (by simp) (by simp) hlr.1
    · simp at hs
  | resume =>
    simp only [step] at hs
    split at hs
    · rename_i hp
      obtain ⟨h1, h2, h3⟩ := h.ready hp
      rw [if_neg h2] at hs
      simp only [Option.some.injEq] at hs; subst hs
      refine ⟨by simp, by simp, fun _ => ⟨rfl, rfl⟩, ?_, by simp, by simp⟩
      intro r f hf
      simp only [Option.some.injEq, Prod.mk.injEq] at hf
      obtain ⟨rfl, rfl⟩ := hf
      exact ⟨h2, h3⟩
    · simp at hs
  | leave =>
    simp only [step] at hs
    split at hs
    · rename_i hp
      simp only [Option.some.injEq] at hs; subst hs
      exact ⟨by simp, by simp, fun _ => h.idle (Or.inl hp), h.ret, by simp, by simp⟩
    · simp at hs
  | back =>
    simp only [step] at hs
    split at hs
    · rename_i hp
      simp only [Option.some.injEq] at hs; subst hs
      exact ⟨by simp, by simp, fun _ => h.idle (Or.inr hp), h.ret, by simp, by simp⟩
    · simp at hs
  | stray => exact absurd rfl hl

theorem inv_reach {s : St} (h : Reach s) : Inv s := by
  induction h with
  | init => exact ⟨by simp [init], by simp [init], by simp [init], by simp [init], by simp [init], by simp [init]⟩
  | step l _ hl hs ih => exact inv_step ih l hl hs

/-- **C51 (the result is the first thing that happened).**  Whatever `Wait` returns is the outcome
of the first event or timeout after it was called – never nothing – and the timer on its stack is
gone when it has returned. -/
theorem c51_first_wins {s : St} (h : Reach s) :
    (∀ r f, s.ret = some (r, f) → r ≠ .none ∧ f = some r) ∧ s.ph ≠ .aborted ∧
    (s.ph = .running ∨ s.ph = .away ∨ s.ph = .crashed → s.armed = false) := by
  have hi := inv_reach h
  refine ⟨hi.ret, hi.sane, ?_⟩
  rintro (h1 | h1 | h1)
  · exact (hi.idle (Or.inl h1)).2
  · exact (hi.idle (Or.inr h1)).2
  · exact (hi.crash h1).1

/-- **C51 (an event or the timeout ends the wait).** -/
theorem c51_ends {s : St} (h : Reach s) (hp : s.ph = .parked) :
    (∀ m, ∃ s1 s2, step s (.ev m) = some s1 ∧ step s1 .resume = some s2 ∧ s2.ph = .running ∧
      s2.ret = some (if m then .ok else .error, some (if m then .ok else .error))) ∧
    (s.armed = true → ∃ s1 s2, step s .timer = some s1 ∧ step s1 .resume = some s2 ∧
      s2.ph = .running ∧ s2.ret = some (.timeout, some .timeout)) := by
  obtain ⟨h1, h2, h3⟩ := (inv_reach h).parked hp
  constructor
  · intro m
    cases m <;> simp [step, loopRuns, callResumer, setResult, note, hp, h1, h2, h3]
  · intro ha
    simp [step, loopRuns, callResumer, setResult, note, hp, h1, h2, h3, ha]

/-- **C51 violated: an event while the coroutine is suspended elsewhere** (before the first or
between two waits) calls an empty closure. -/
theorem c51_violation_crash {s : St} (h : Reach s) (hp : s.ph = .running) (m : Bool) :
    ∃ s1 s2, step s .leave = some s1 ∧ step s1 (.ev m) = some s2 ∧ s2.ph = .crashed := by
  obtain ⟨h1, h2⟩ := (inv_reach h).idle (Or.inl hp)
  have e1 : step s .leave = some { s with ph := .away } := by simp [step, hp]
  refine ⟨_, _, e1, by simp only [step]; rw [if_pos (by simp [loopRuns])], ?_⟩
  have hr : (setResult (note { s with ph := .away } (if m then .ok else .error)) (if m then .ok else .error)).resumer
      = false := by
    unfold setResult note; repeat' split
    all_goals exact h1
  unfold callResumer
  rw [hr]; rfl

/-- **C51 violated: a stray wake-up in `Wait` fails a check**: the process aborts. -/
theorem c51_violation_stray :
    (runLabs init [.wait true, .stray, .resume]).map (fun s => s.ph) = some .aborted := by decide +kernel

/-- A readable descriptor and the timer in the same iteration: the first wins; the next wait starts
afresh and times out. -/
theorem c51_witness :
    (runLabs init [.wait true, .ev true, .timer, .resume, .wait true, .timer, .ev false, .resume]).map
      (fun s => (s.ph, s.ret)) = some (.running, some (.timeout, some .timeout)) := by decide +kernel

end Ltio.Coro.IoEv
