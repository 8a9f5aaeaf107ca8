import Mathlib.Tactic.ByContra

/-
Model of base/message_loop/repeating_timer.cc, one timer used by one thread that is not the loop's,
and by its own callback (C53).

`U` is the user's thread, `L` the loop's.  The loop's task queue is first-in first-out and holds only
the tasks of this timer; the timer itself fires whenever the loop likes while it is attached (when,
is the matter of C26).
-/
namespace Ltio.Repeating

/-- Tasks posted to the loop. -/
inductive Task where
  /-- `EventPump::AddTimeoutEvent` (repeating_timer.cc:54-58) -/
  | add
  /-- `remover_fn` (repeating_timer.cc:72-82) -/
  | remove
  deriving DecidableEq

/-- Where the user's thread is in `Stop` (repeating_timer.cc:62-91). -/
inductive UPc where
  | idle
  /-- about to evaluate the predicate, holding the mutex -/
  | pred
  /-- the predicate was false; about to sleep (still holding the mutex) -/
  | decided
  | asleep
  deriving DecidableEq

/-- Where the loop is. -/
inductive LPc where
  | idle
  /-- after `removed = true`, before `cv.notify_all()` -/
  | notify
  /-- in the callback, called by `EventPump::ProcessTimerEvent` (event_pump.cc:125-134); `freed`: the
  `TimeoutEvent` was destroyed meanwhile -/
  | callback (freed : Bool)
  /-- waiting in `Stop` for a task of its own queue -/
  | stuck
  deriving DecidableEq

/-- The timer (repeating_timer.h:63-75). -/
structure St where
  /-- `timeout_event_`: absent, or present and attached to the wheel or not -/
  ev : Option Bool
  running : Bool
  queue : List Task
  removed : Bool
  u : UPc
  l : LPc
  /-- callbacks begun (ghost) -/
  fired : Nat
  /-- the `RepeatingTimer` is destroyed -/
  gone : Bool
  /-- destroyed memory was used (ghost) -/
  uaf : Bool
  /-- a null pointer was followed (ghost) -/
  crash : Bool

/-- A new timer (repeating_timer.cc:27-31). -/
def init : St :=
  { ev := none, running := false, queue := [], removed := false, u := .idle, l := .idle, fired := 0,
    gone := false, uaf := false, crash := false }

/-- What can happen. -/
inductive Lab where
  /-- `U` calls `Start` (repeating_timer.cc:43-59) on a timer that is not running -/
  | start
  /-- `U` calls `Stop` up to the wait (repeating_timer.cc:62-86) -/
  | stop
  /-- `U` evaluates the predicate (repeating_timer.cc:89) -/
  | pred
  | sleep
  /-- a spurious wake-up -/
  | spurious
  /-- `U` destroys a timer that is not running -/
  | destroy
  /-- `L` runs a task -/
  | task
  | notify
  /-- the timer fires -/
  | fire
  /-- the callback calls `Stop` / `Start` -/
  | cbStop
  | cbStart
  /-- the callback returns -/
  | ret
  deriving DecidableEq

/-- One step. -/
def step (s : St) : Lab → Option St
  | .start =>
    if s.u = .idle ∧ s.running = false ∧ s.gone = false then
      some { s with ev := some false, queue := s.queue ++ [.add], running := true }
    else none
  | .stop =>
    if s.u = .idle ∧ s.gone = false then
      some { s with queue := s.queue ++ [.remove], removed := false, u := .pred }
    else none
  | .pred =>
    if s.u = .pred then
      if s.removed then some { s with u := .idle, running := false } else some { s with u := .decided }
    else none
  | .sleep => if s.u = .decided then some { s with u := .asleep } else none
  | .spurious => if s.u = .asleep then some { s with u := .pred } else none
  | .destroy =>
    if s.u = .idle ∧ s.running = false ∧ s.gone = false then some { s with gone := true } else none
  | .task =>
    if s.l = .idle then
      match s.queue with
      | [] => none
      | .add :: q => some { s with queue := q, ev := s.ev.map (fun _ => true) }
      | .remove :: q =>
        if s.ev = none then some { s with queue := q, crash := true }
        else some { s with queue := q, ev := none, removed := true, l := .notify }
    else none
  | .notify =>
    if s.l = .notify then
      some { s with l := .idle, u := if s.u = .asleep then .pred else s.u, uaf := s.uaf || s.gone }
    else none
  | .fire =>
    if s.l = .idle ∧ s.ev = some true then some { s with l := .callback false, fired := s.fired + 1 } else none
  | .cbStop =>
    match s.l with
    | .callback _ =>
      if s.u = .idle ∧ s.gone = false then
        if s.ev = none then some { s with queue := s.queue ++ [.remove], l := .stuck }
        else some { s with ev := none, running := false, l := .callback true }
      else none
    | _ => none
  | .cbStart =>
    match s.l with
    | .callback _ =>
      if s.u = .idle ∧ s.running = false ∧ s.gone = false then some { s with ev := some true, running := true } else none
    | _ => none
  | .ret =>
    match s.l with
    | .callback f => some { s with l := .idle, uaf := s.uaf || f }
    | _ => none

/-- Schedules. -/
def runLabs (s : St) : List Lab → Option St
  | [] => some s
  | l :: ls => (step s l).bind (fun s' => runLabs s' ls)

/-- `Stop` is only called on a timer that is running; from the callback, on the timer that is firing
(not on one the user's thread has restarted meanwhile: "start and stop are not thread safe",
repeating_timer.h:52). -/
def proper (s : St) : Lab → Prop
  | .stop => s.running = true
  | .cbStop => s.ev = some true
  | _ => True

/-- Executions in which `Stop` is called on running timers only. -/
inductive Reach : St → Prop where
  | init : Reach init
  | step {s s' : St} (l : Lab) : Reach s → proper s l → step s l = some s' → Reach s'

/-- Where things are. -/
structure Inv (s : St) : Prop where
  quiet : s.u = .idle → s.running = false → s.ev = none ∧ s.queue = []
  on : s.u = .idle → s.running = true →
    (s.ev = some false ∧ s.queue = [.add]) ∨ (s.ev = some true ∧ s.queue = [])
  wait : s.u ≠ .idle → s.removed = false →
    (s.ev = some false ∧ s.queue = [.add, .remove]) ∨ (s.ev = some true ∧ s.queue = [.remove])
  done : s.u ≠ .idle → s.removed = true → s.ev = none ∧ s.queue = [] ∧ ∀ f, s.l ≠ .callback f
  ok : s.crash = false ∧ s.l ≠ .stuck
  gone : s.gone = true → s.u = .idle ∧ s.running = false

theorem inv_reach {s : St} (h : Reach s) : Inv s := by
  induction h with
  | init => exact ⟨by simp [init], by simp [init], by simp [init], by simp [init], by simp [init], by simp [init]⟩
  | @step s s' l _ hp hs ih =>
    obtain ⟨i1, i2, i3, i4, i5, i6⟩ := ih
    cases l with
    | start =>
      simp only [step] at hs
      split at hs
      · rename_i hc
        simp only [Option.some.injEq] at hs; subst hs
        obtain ⟨q1, q2⟩ := i1 hc.1 hc.2.1
        exact ⟨by simp, fun _ _ => Or.inl ⟨rfl, by simp [q2]⟩, fun e => absurd hc.1 e, fun e => absurd hc.1 e, i5,
          fun e => by simp [hc.2.2] at e⟩
      · simp at hs
    | stop =>
      simp only [step] at hs
      split at hs
      · rename_i hc
        simp only [Option.some.injEq] at hs; subst hs
        have := i2 hc.1 hp
        refine ⟨by simp, by simp, fun _ _ => ?_, by simp, i5, fun e => by simp [hc.2] at e⟩
        rcases this with ⟨a, b⟩ | ⟨a, b⟩
        · exact Or.inl ⟨a, by simp [b]⟩
        · exact Or.inr ⟨a, by simp [b]⟩
      · simp at hs
    | pred =>
      simp only [step] at hs
      split at hs
      · rename_i hc
        split at hs
        · rename_i hr
          simp only [Option.some.injEq] at hs; subst hs
          have := i4 (by rw [hc]; simp) hr
          exact ⟨fun _ _ => ⟨this.1, this.2.1⟩, by simp, by simp, by simp, i5, fun e => by simp [(i6 e).1] at hc⟩
        · rename_i hr
          simp only [Option.some.injEq] at hs; subst hs
          exact ⟨by simp, by simp, fun _ => i3 (by rw [hc]; simp), fun _ e => absurd e hr, i5,
            fun e => by simp [(i6 e).1] at hc⟩
      · simp at hs
    | sleep =>
      simp only [step] at hs
      split at hs
      · rename_i hc
        simp only [Option.some.injEq] at hs; subst hs
        exact ⟨by simp, by simp, fun _ => i3 (by rw [hc]; simp), fun _ => i4 (by rw [hc]; simp), i5,
          fun e => by simp [(i6 e).1] at hc⟩
      · simp at hs
    | spurious =>
      simp only [step] at hs
      split at hs
      · rename_i hc
        simp only [Option.some.injEq] at hs; subst hs
        exact ⟨by simp, by simp, fun _ => i3 (by rw [hc]; simp), fun _ => i4 (by rw [hc]; simp), i5,
          fun e => by simp [(i6 e).1] at hc⟩
      · simp at hs
    | destroy =>
      simp only [step] at hs
      split at hs
      · rename_i hc
        simp only [Option.some.injEq] at hs; subst hs
        exact ⟨i1, i2, i3, i4, i5, fun _ => ⟨hc.1, hc.2.1⟩⟩
      · simp at hs
    | task =>
      simp only [step] at hs
      split at hs
      · rename_i hl
        split at hs
        · simp at hs
        · rename_i q hq
          simp only [Option.some.injEq] at hs; subst hs
          refine ⟨?_, ?_, ?_, ?_, i5, i6⟩
          · intro e1 e2
            have := (i1 e1 e2).2; rw [hq] at this; simp at this
          · intro e1 e2
            rcases i2 e1 e2 with ⟨a, b⟩ | ⟨a, b⟩
            · rw [hq] at b; simp at b
              exact Or.inr ⟨by simp [a], b⟩
            · rw [hq] at b; simp at b
          · intro e1 e2
            rcases i3 e1 e2 with ⟨a, b⟩ | ⟨a, b⟩
            · rw [hq] at b; simp at b
              exact Or.inr ⟨by simp [a], b⟩
            · rw [hq] at b; simp at b
          · intro e1 e2
            have := (i4 e1 e2).2.1; rw [hq] at this; simp at this
        · rename_i q hq
          split at hs
          · rename_i he
            exfalso
            by_cases hu : s.u = .idle
            · rcases hr : s.running with _ | _
              · have := (i1 hu hr).2; rw [hq] at this; simp at this
              · rcases i2 hu hr with ⟨a, b⟩ | ⟨a, b⟩
                · rw [a] at he; simp at he
                · rw [a] at he; simp at he
            · rcases hr : s.removed with _ | _
              · rcases i3 hu hr with ⟨a, b⟩ | ⟨a, b⟩
                · rw [a] at he; simp at he
                · rw [a] at he; simp at he
              · have := (i4 hu hr).2.1; rw [hq] at this; simp at this
          · simp only [Option.some.injEq] at hs; subst hs
            have hu : s.u ≠ .idle := by
              intro hu
              rcases hr : s.running with _ | _
              · have := (i1 hu hr).2; rw [hq] at this; simp at this
              · rcases i2 hu hr with ⟨a, b⟩ | ⟨a, b⟩
                · rw [hq] at b; simp at b
                · rw [hq] at b; simp at b
            have hqe : q = [] := by
              rcases hr : s.removed with _ | _
              · rcases i3 hu hr with ⟨a, b⟩ | ⟨a, b⟩
                · rw [hq] at b; simp at b
                · rw [hq] at b; simpa using b
              · have := (i4 hu hr).2.1; rw [hq] at this; simp at this
            exact ⟨fun e => absurd e hu, fun e => absurd e hu, by simp, fun _ _ => ⟨rfl, hqe, by simp⟩,
              ⟨i5.1, by simp⟩, i6⟩
      · simp at hs
    | notify =>
      simp only [step] at hs
      split at hs
      · simp only [Option.some.injEq] at hs; subst hs
        by_cases hu : s.u = .asleep
        · simp only [hu, if_true]
          exact ⟨by simp, by simp, fun _ => i3 (by rw [hu]; simp),
            fun _ e => ⟨(i4 (by rw [hu]; simp) e).1, (i4 (by rw [hu]; simp) e).2.1, by simp⟩, ⟨i5.1, by simp⟩,
            fun e => by simp [(i6 e).1] at hu⟩
        · simp only [hu, if_false]
          exact ⟨i1, i2, i3, fun a e => ⟨(i4 a e).1, (i4 a e).2.1, by simp⟩, ⟨i5.1, by simp⟩, i6⟩
      · simp at hs
    | fire =>
      simp only [step] at hs
      split at hs
      · rename_i hc
        simp only [Option.some.injEq] at hs; subst hs
        exact ⟨i1, i2, i3, fun a e => absurd (i4 a e).1 (by rw [hc.2]; simp), ⟨i5.1, by simp⟩, i6⟩
      · simp at hs
    | cbStop =>
      simp only [step] at hs
      split at hs
      · rename_i f hl
        split at hs
        · rename_i hc
          split at hs
          · rename_i he; rw [show s.ev = some true from hp] at he; simp at he
          · simp only [Option.some.injEq] at hs; subst hs
            have hp' : s.ev = some true := hp
            have hq : s.queue = [] := by
              rcases hr : s.running with _ | _
              · exact (i1 hc.1 hr).2
              · rcases i2 hc.1 hr with ⟨a, b⟩ | ⟨a, b⟩
                · rw [hp'] at a; simp at a
                · exact b
            exact ⟨fun _ _ => ⟨rfl, hq⟩, by simp, fun e => absurd hc.1 e, fun e => absurd hc.1 e, ⟨i5.1, by simp⟩,
              fun e => by simp [hc.2] at e⟩
        · simp at hs
      · simp at hs
    | cbStart =>
      simp only [step] at hs
      split at hs
      · split at hs
        · rename_i hc
          simp only [Option.some.injEq] at hs; subst hs
          have := (i1 hc.1 hc.2.1).2
          exact ⟨by simp, fun _ _ => Or.inr ⟨rfl, this⟩, fun e => absurd hc.1 e, fun e => absurd hc.1 e, i5,
            fun e => by simp [hc.2.2] at e⟩
        · simp at hs
      · simp at hs
    | ret =>
      simp only [step] at hs
      split at hs
      · simp only [Option.some.injEq] at hs; subst hs
        exact ⟨i1, i2, i3, fun a e => ⟨(i4 a e).1, (i4 a e).2.1, by simp⟩, ⟨i5.1, by simp⟩, i6⟩
      · simp at hs

/-- The labels that set a timer going. -/
def isStart : Lab → Bool
  | .start => true
  | .cbStart => true
  | _ => false

/-- A timer without event, not in its callback, stays so until it is started. -/
theorem quiet_step {s s' : St} {l : Lab} (hs : step s l = some s') (he : s.ev = none) (hl : ∀ f, s.l ≠ .callback f)
    (hn : isStart l = false) : s'.ev = none ∧ (∀ f, s'.l ≠ .callback f) ∧ s'.fired = s.fired := by
  cases l with
  | start => simp [isStart] at hn
  | cbStart => simp [isStart] at hn
  | fire =>
    simp only [step] at hs
    split at hs
    · rename_i hc; rw [he] at hc; simp at hc
    · simp at hs
  | cbStop =>
    rcases hc : s.l with _ | _ | f | _
    · simp [step, hc] at hs
    · simp [step, hc] at hs
    · exact absurd hc (hl f)
    · simp [step, hc] at hs
  | ret =>
    rcases hc : s.l with _ | _ | f | _
    · simp [step, hc] at hs
    · simp [step, hc] at hs
    · exact absurd hc (hl f)
    · simp [step, hc] at hs
  | task =>
    simp only [step] at hs
    split at hs
    · split at hs
      · simp at hs
      · simp only [Option.some.injEq] at hs; subst hs
        exact ⟨by simp [he], hl, rfl⟩
      · simp only [he, if_true, Option.some.injEq] at hs; subst hs
        exact ⟨rfl, hl, rfl⟩
    · simp at hs
  | notify =>
    simp only [step] at hs
    split at hs
    · simp only [Option.some.injEq] at hs; subst hs
      exact ⟨he, by simp, rfl⟩
    · simp at hs
  | _ =>
    simp only [step] at hs
    repeat' split at hs
    all_goals first
      | (simp only [Option.some.injEq] at hs; subst hs; exact ⟨he, hl, rfl⟩)
      | simp at hs

theorem quiet_run {ls : List Lab} : ∀ {s s' : St}, runLabs s ls = some s' → s.ev = none →
    (∀ f, s.l ≠ .callback f) → (∀ l ∈ ls, isStart l = false) → s'.fired = s.fired ∧ ∀ f, s'.l ≠ .callback f := by
  induction ls with
  | nil =>
    intro s s' h _ hl _
    simp only [runLabs, Option.some.injEq] at h; subst h; exact ⟨rfl, hl⟩
  | cons l ls ih =>
    intro s s' h he hl hn
    simp only [runLabs] at h
    rcases hs : step s l with _ | t
    · rw [hs] at h; simp at h
    · rw [hs] at h
      obtain ⟨a, b, c⟩ := quiet_step hs he hl (hn l (by simp))
      obtain ⟨d, e⟩ := ih h a b (fun x hx => hn x (by simp [hx]))
      exact ⟨by rw [d, c], e⟩

/-- **C53** (Stop is synchronous).  When `Stop`, called outside the loop on a running timer, returns,
the callback is not running, and it is not run again - whatever else happens - until `Start` is called. -/
theorem c53_quiet {s s' s'' : St} (h : Reach s) (hs : step s .pred = some s') (hu : s'.u = .idle) (ls : List Lab)
    (hn : ∀ l ∈ ls, isStart l = false) (hr : runLabs s' ls = some s'') :
    (∀ f, s'.l ≠ .callback f) ∧ s''.fired = s'.fired ∧ ∀ f, s''.l ≠ .callback f := by
  have i := inv_reach h
  have : s'.ev = none ∧ ∀ f, s'.l ≠ .callback f := by
    simp only [step] at hs
    split at hs
    · rename_i hc
      split at hs
      · rename_i hm
        simp only [Option.some.injEq] at hs; subst hs
        have := i.done (by rw [hc]; simp) hm
        exact ⟨this.1, this.2.2⟩
      · simp only [Option.some.injEq] at hs; subst hs; simp at hu
    · simp at hs
  exact ⟨this.2, quiet_run hr this.1 this.2 hn⟩

/-- **C53** (safety).  As long as `Stop` is only called on running timers, no null event is followed
and the loop never waits for itself; a timer that is started is attached or about to be, exactly once;
and one that is not has no event and no task left in the loop's queue. -/
theorem c53_safe {s : St} (h : Reach s) :
    s.crash = false ∧ s.l ≠ .stuck ∧
    (s.u = .idle → s.running = true → (s.ev = some false ∧ s.queue = [.add]) ∨ (s.ev = some true ∧ s.queue = [])) ∧
    (s.u = .idle → s.running = false → s.ev = none ∧ s.queue = []) := by
  have i := inv_reach h
  exact ⟨i.ok.1, i.ok.2, i.on, i.quiet⟩

/-- Executions in which, moreover, the timer is not destroyed and its callback does not stop it. -/
inductive Calm : St → Prop where
  | init : Calm init
  | step {s s' : St} (l : Lab) : Calm s → l ≠ .destroy → l ≠ .cbStop → step s l = some s' → Calm s'

/-- **C53** (no dangling pointer, for the timers that outlive the loop and do not stop themselves). -/
theorem c53_no_uaf_partial {s : St} (h : Calm s) : s.uaf = false := by
  have : s.uaf = false ∧ s.gone = false ∧ s.l ≠ .callback true := by
    induction h with
    | init => simp [init]
    | @step s s' l _ h1 h2 hs ih =>
      obtain ⟨a, b, c⟩ := ih
      cases l with
      | destroy => exact absurd rfl h1
      | cbStop => exact absurd rfl h2
      | ret =>
        simp only [step] at hs
        split at hs
        · rename_i f hf
          simp only [Option.some.injEq] at hs; subst hs
          cases f with
          | true => exact absurd hf c
          | false => simp [a, b]
        · simp at hs
      | _ =>
        simp only [step] at hs
        repeat' split at hs
        all_goals first
          | (simp only [Option.some.injEq] at hs; subst hs; simp [a, b, c])
          | simp at hs
  exact this.1

/-- **C53, violated**: `removed` is set and `notify_all` called without the mutex, so both can fall
between the predicate and the sleep; `Stop` then sleeps with nobody left to wake it: the only step
of its thread is a spurious wake-up, and it stays so whatever the loop does. -/
theorem c53_violation_hang :
    (runLabs init [.start, .task, .stop, .pred, .task, .notify, .sleep]).map
      (fun s => (s.u, s.l, s.removed, s.queue, s.running)) = some (.asleep, .idle, true, [], true) := by
  decide +kernel

/-- A sleeper in an idle loop without tasks stays asleep. -/
theorem c53_hang_forever {ls : List Lab} : ∀ {s s' : St}, s.u = .asleep → s.l = .idle → s.queue = [] →
    s.ev = none → (∀ l ∈ ls, l ≠ .spurious) → runLabs s ls = some s' → s'.u = .asleep := by
  induction ls with
  | nil => intro s s' h _ _ _ _ hr; simp only [runLabs, Option.some.injEq] at hr; subst hr; exact h
  | cons l ls ih =>
    intro s s' h1 h2 h3 h4 hn hr
    simp only [runLabs] at hr
    have : step s l = none := by
      cases l with
      | spurious => exact absurd rfl (hn .spurious (by simp))
      | _ => simp [step, h1, h2, h3, h4]
    rw [this] at hr; simp at hr

/-- **C53, violated**: `Stop` returns as soon as it sees `removed`; destroying the timer then races
with the loop's `cv.notify_all()` on the destroyed condition variable. -/
theorem c53_violation_destroy :
    (runLabs init [.start, .task, .stop, .task, .pred, .destroy, .notify]).map (fun s => (s.gone, s.uaf)) =
      some (true, true) := by
  decide +kernel

/-- **C53, violated**: a callback that stops its own timer destroys the `TimeoutEvent` whose handler is
running; `ProcessTimerEvent` then reads it (event_pump.cc:129-132). -/
theorem c53_violation_self_stop :
    (runLabs init [.start, .task, .fire, .cbStop, .ret]).map (fun s => (s.crash, s.uaf)) = some (false, true) := by
  decide +kernel

/-- **C53, violated**: `Stop` on a timer that was never started follows a null pointer in the loop; called
in the loop's own thread (here from the callback, after a first `Stop`) it waits for itself. -/
theorem c53_violation_unstarted :
    (runLabs init [.stop, .task]).map (·.crash) = some true ∧
    (runLabs init [.start, .task, .fire, .cbStop, .cbStop]).map (fun s => (s.l, s.queue)) =
      some (.stuck, [.remove]) := by
  decide +kernel

/-- A case: started, fired twice, stopped with a sleep, started again and fired. -/
theorem c53_witness :
    (runLabs init [.start, .task, .fire, .ret, .stop, .fire, .ret, .pred, .sleep, .task, .notify, .pred, .start,
      .task, .fire]).map (fun s => (s.fired, s.u, s.running, s.crash, s.uaf)) =
      some (3, .idle, true, false, false) := by
  decide +kernel

end Ltio.Repeating
