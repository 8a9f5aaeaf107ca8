/-
Model of the start/stop handshake of `MessageLoop` (message_loop.cc: `Start` 180-189, `SyncStop`
191-197, `WaitLoopEnd` 203-216, `ThreadMain` 225-258, `HandleCtrlEvent` 147-158): one loop thread and
any number of threads calling `Start`, `SyncStop` or `WaitLoopEnd`.

`cv_.wait(lk, pred)` is: test the predicate holding the mutex; if false, atomically release the mutex
and sleep; after a notification test again.  The loop thread changes `running_` and calls
`notify_all` WITHOUT taking the mutex, so these can fall between a waiter's test and its sleep.
Spurious wake-ups are not assumed.
-/
namespace Ltio.Loop.StartStop

/-- The loop thread. -/
inductive Ph where
  | absent | spawned | live | notified | stopping | ended
deriving DecidableEq, Repr

/-- `running_` (set at 226, cleared at 153). -/
def Ph.running : Ph → Bool
  | .live => true
  | .notified => true
  | _ => false

/-- A calling thread; the `Bool` is true in `Start` (waits for running_) and false in `WaitLoopEnd`
(waits for !running_). -/
inductive WPc where
  | idle
  | fast                     -- WaitLoopEnd line 204, before the unlocked test
  | check (start : Bool)     -- about to test the predicate, holding the mutex
  | pre (start : Bool)       -- predicate was false, not asleep yet (mutex held)
  | asleep (start : Bool)
  | back (start : Bool)      -- the call returned
deriving DecidableEq, Repr

structure St where
  ph : Ph
  quits : Nat
  w : Nat → WPc

def St.init : St := ⟨.absent, 0, fun _ => .idle⟩

def setW (f : Nat → WPc) (i : Nat) (v : WPc) : Nat → WPc := fun j => if j = i then v else f j

/-- `notify_all`: every sleeping thread goes back to testing. -/
def wake : WPc → WPc
  | .asleep b => .check b
  | x => x

inductive Lab where
  | start (i : Nat)     -- Start(): create the thread, lock
  | stop (i : Nat)      -- SyncStop(): write to the pipe, enter WaitLoopEnd
  | fast (i : Nat)      -- line 204
  | test (i : Nat)
  | sleep (i : Nat)
  | live                -- line 226
  | notifyStart         -- line 238
  | quitSeen            -- HandleCtrlEvent
  | notifyEnd           -- line 257, the thread ends
deriving DecidableEq, Repr

def St.step (s : St) : Lab → Option St
  | .start i => if s.ph = .absent ∧ s.w i = .idle then some { s with ph := .spawned, w := setW s.w i (.check true) } else none
  | .stop i => if s.w i = .idle then some { s with quits := s.quits + 1, w := setW s.w i .fast } else none
  | .fast i => if s.w i = .fast then
      some { s with w := setW s.w i (if s.ph.running then .check false else .back false) } else none
  | .test i => match s.w i with
    | .check b => some { s with w := setW s.w i (if s.ph.running = b then .back b else .pre b) }
    | _ => none
  | .sleep i => match s.w i with
    | .pre b => some { s with w := setW s.w i (.asleep b) }
    | _ => none
  | .live => if s.ph = .spawned then some { s with ph := .live } else none
  | .notifyStart => if s.ph = .live then some { s with ph := .notified, w := fun i => wake (s.w i) } else none
  | .quitSeen => if s.ph = .notified ∧ 0 < s.quits then some { s with ph := .stopping } else none
  | .notifyEnd => if s.ph = .stopping then some { s with ph := .ended, w := fun i => wake (s.w i) } else none

inductive Steps : St → St → Prop
  | refl (s) : Steps s s
  | tail {s u u' l} : Steps s u → u.step l = some u' → Steps s u'

def Reach (s : St) : Prop := Steps St.init s

/-- Has `running_` ever been set? -/
def Ph.wasLive : Ph → Bool
  | .absent => false
  | .spawned => false
  | _ => true

/-- How one step changes one calling thread and the loop's phase. -/
theorem step_shape {s s' : St} {l : Lab} (h : s.step l = some s') (j : Nat) :
    (s'.w j = s.w j ∨ s'.w j = wake (s.w j) ∨ (s.w j = .idle ∧ (s'.w j = .check true ∨ s'.w j = .fast)) ∨
      (s.w j = .fast ∧ s'.w j = if s.ph.running then .check false else .back false) ∨
      (∃ b, s.w j = .check b ∧ s'.w j = if s.ph.running = b then .back b else .pre b) ∨
      (∃ b, s.w j = .pre b ∧ s'.w j = .asleep b)) ∧
    (s'.ph = s.ph ∨ (s.ph = .absent ∧ s'.ph = .spawned) ∨
      (s'.w j = s.w j ∧ s.ph = .spawned ∧ s'.ph = .live) ∨
      (s'.w j = wake (s.w j) ∧ s.ph = .live ∧ s'.ph = .notified) ∨
      (s'.w j = s.w j ∧ s.ph = .notified ∧ 0 < s.quits ∧ s'.ph = .stopping) ∨
      (s'.w j = wake (s.w j) ∧ s.ph = .stopping ∧ s'.ph = .ended)) ∧
    s.quits ≤ s'.quits := by
  cases l <;> simp only [St.step] at h
  case start k =>
    split at h
    · rename_i hc
      simp only [Option.some.injEq] at h; subst h
      by_cases hk : j = k
      · subst hk; simp [setW, hc.1, hc.2]
      · simp [setW, hk, hc.1]
    · simp at h
  case stop k =>
    split at h
    · rename_i hc
      simp only [Option.some.injEq] at h; subst h
      by_cases hk : j = k
      · subst hk; simp [setW, hc]
      · simp [setW, hk]
    · simp at h
  case fast k =>
    split at h
    · rename_i hc
      simp only [Option.some.injEq] at h; subst h
      by_cases hk : j = k
      · subst hk; simp [setW, hc]
      · simp [setW, hk]
    · simp at h
  case test k =>
    split at h
    · rename_i b hc
      simp only [Option.some.injEq] at h; subst h
      by_cases hk : j = k
      · subst hk; simp [setW, hc]
      · simp [setW, hk]
    · simp at h
  case sleep k =>
    split at h
    · rename_i b hc
      simp only [Option.some.injEq] at h; subst h
      by_cases hk : j = k
      · subst hk; simp [setW, hc]
      · simp [setW, hk]
    · simp at h
  all_goals
    split at h
    · rename_i hc
      simp only [Option.some.injEq] at h; subst h
      simp [hc]
    · simp at h

theorem wasLive_mono {s s' : St} {l : Lab} (h : s.step l = some s') (hl : s.ph.wasLive = true) :
    s'.ph.wasLive = true := by
  rcases (step_shape h 0).2.1 with h1 | ⟨h1, h2⟩ | ⟨_, h1, h2⟩ | ⟨_, h1, h2⟩ | ⟨_, h1, _, h2⟩ | ⟨_, h1, h2⟩
  · rw [h1]; exact hl
  · rw [h1] at hl; simp [Ph.wasLive] at hl
  all_goals rw [h2]; rfl

/-- C46 (`Start`): when `Start` returns, the loop thread is (or has been) running. -/
theorem c46_start_returns_live {s : St} (h : Reach s) (i : Nat) (hb : s.w i = .back true) :
    s.ph.wasLive = true := by
  unfold Reach at h
  generalize hs : St.init = s0 at h
  induction h with
  | refl => subst hs; simp [St.init] at hb
  | @tail u u' l _ h2 ih =>
    by_cases hu : u.w i = .back true
    · exact wasLive_mono h2 (ih hu)
    · rcases (step_shape h2 i).1 with h3 | h3 | ⟨_, h3 | h3⟩ | ⟨_, h3⟩ | ⟨b, _, h3⟩ | ⟨b, _, h3⟩
      · rw [h3] at hb; exact absurd hb hu
      · rw [h3] at hb
        cases hw : u.w i <;> rw [hw] at hb hu <;> simp [wake] at hb hu
        simp_all
      · rw [h3] at hb; simp at hb
      · rw [h3] at hb; simp at hb
      · rw [h3] at hb; split at hb <;> simp at hb
      · rw [h3] at hb
        split at hb
        · rename_i hr
          simp at hb; subst hb
          refine wasLive_mono h2 ?_
          revert hr; cases u.ph <;> simp [Ph.running, Ph.wasLive]
        · simp at hb
      · rw [h3] at hb; simp at hb

/-- C46 (`SyncStop`): a `SyncStop`/`WaitLoopEnd` called on a started loop returns only after the loop
has left its main `while`. -/
theorem c46_stop_returns_stopped {s u : St} (hl : s.ph.wasLive = true) (h : Steps s u) (i : Nat)
    (hi : s.w i ≠ .back false) (hb : u.w i = .back false) : u.ph = .stopping ∨ u.ph = .ended := by
  have key : u.ph.wasLive = true ∧ (u.w i = .back false → u.ph = .stopping ∨ u.ph = .ended) := by
    induction h with
    | refl => exact ⟨hl, fun hh => absurd hh hi⟩
    | @tail u u' l _ h2 ih =>
      have hwl : u.ph.wasLive = true := by
        clear hb
        rename_i hsu
        clear ih h2
        induction hsu with
        | refl => exact hl
        | tail _ h3 ih3 => exact wasLive_mono h3 ih3
      refine ⟨wasLive_mono h2 hwl, fun hb' => ?_⟩
      have stable : u.ph = .stopping ∨ u.ph = .ended → u'.ph = .stopping ∨ u'.ph = .ended := by
        intro hx
        rcases (step_shape h2 0).2.1 with h1 | ⟨h1, h4⟩ | ⟨_, h1, h4⟩ | ⟨_, h1, h4⟩ | ⟨_, h1, _, h4⟩ | ⟨_, h1, h4⟩
        · rw [h1]; exact hx
        · rw [h1] at hx; simp at hx
        · rw [h1] at hx; simp at hx
        · rw [h1] at hx; simp at hx
        · exact Or.inl h4
        · exact Or.inr h4
      have notRun : u.ph.running = false → u.ph = .stopping ∨ u.ph = .ended := by
        intro hr; revert hr hwl; cases u.ph <;> simp [Ph.running, Ph.wasLive]
      by_cases hu : u.w i = .back false
      · exact stable ((ih hu).2 hu)
      · rcases (step_shape h2 i).1 with h3 | h3 | ⟨_, h3 | h3⟩ | ⟨_, h3⟩ | ⟨b, _, h3⟩ | ⟨b, _, h3⟩
        · rw [h3] at hb'; exact absurd hb' hu
        · rw [h3] at hb'
          cases hw : u.w i <;> rw [hw] at hb' hu <;> simp [wake] at hb' hu
          simp_all
        · rw [h3] at hb'; simp at hb'
        · rw [h3] at hb'; simp at hb'
        · rw [h3] at hb'
          split at hb'
          · simp at hb'
          · rename_i hr; exact stable (notRun (by simpa using hr))
        · rw [h3] at hb'
          split at hb'
          · rename_i hr
            simp at hb'; subst hb'
            exact stable (notRun hr)
          · simp at hb'
        · rw [h3] at hb'; simp at hb'
  exact key.2 hb

/-- C46 (partial): if at the moment the loop thread announces its start no caller of `Start` is in the
window between testing and sleeping, then no caller of `Start` is or goes to sleep any more: all of
them find the loop running on their next test. -/
theorem c46_start_wakes_partial {s s' : St} (h : s.step .notifyStart = some s')
    (hw : ∀ j, s.w j ≠ .pre true) (j : Nat) :
    s'.w j ≠ .asleep true ∧ s'.w j ≠ .pre true ∧ s'.ph.running = true := by
  simp only [St.step] at h
  split at h
  · simp only [Option.some.injEq] at h; subst h
    have := hw j
    refine ⟨?_, ?_, rfl⟩
    · simp only; cases hx : s.w j <;> simp [wake]
    · simp only; cases hx : s.w j <;> rw [hx] at this <;> simp [wake]
      simpa using this
  · simp at h

def runLabs (s : St) : List Lab → Option St
  | [] => some s
  | l :: ls => match s.step l with
    | none => none
    | some s' => runLabs s' ls

theorem steps_runLabs {s0 s u : St} (ls : List Lab) (hs : Steps s0 s) (h : runLabs s ls = some u) : Steps s0 u := by
  induction ls generalizing s with
  | nil => simp [runLabs] at h; subst h; exact hs
  | cons l ls ih =>
    simp only [runLabs] at h
    split at h
    · simp at h
    · rename_i s' h1; exact ih (.tail hs h1) h

/-- C46 VIOLATION: `Start` can hang: its test of `running_` fails, then the loop thread starts and
announces it (without the mutex), then the caller goes to sleep.  As long as nobody asks the loop to
quit, no execution whatsoever wakes it. -/
theorem c46_violation_start_hangs : ∃ s, Reach s ∧ s.ph = .notified ∧
    ∀ u, Steps s u → u.quits = 0 → u.w 0 = .asleep true ∧ u.ph = .notified := by
  have h : (runLabs St.init [.start 0, .test 0, .live, .notifyStart, .sleep 0]).map (fun s => (s.ph, s.w 0, s.quits)) =
      some (.notified, .asleep true, 0) := by decide +kernel
  obtain ⟨s, h1, h2⟩ := Option.map_eq_some_iff.1 h
  simp only [Prod.mk.injEq] at h2
  refine ⟨s, steps_runLabs _ (.refl _) h1, h2.1, ?_⟩
  intro u hu
  induction hu with
  | refl => intro _; exact ⟨h2.2.1, h2.1⟩
  | @tail u u' l _ hl ih =>
    intro hq
    obtain ⟨a, b, c⟩ := step_shape hl 0
    obtain ⟨ih1, ih2⟩ := ih (by omega)
    have hph : u'.ph = .notified ∧ (u'.w 0 = u.w 0 ∨ u'.ph = u.ph) := by
      rcases b with b | ⟨b, _⟩ | ⟨_, b, _⟩ | ⟨_, b, _⟩ | ⟨_, _, b, _⟩ | ⟨_, b, _⟩
      · exact ⟨by rw [b]; exact ih2, Or.inr b⟩
      · rw [ih2] at b; simp at b
      · rw [ih2] at b; simp at b
      · rw [ih2] at b; simp at b
      · omega
      · rw [ih2] at b; simp at b
    refine ⟨?_, hph.1⟩
    cases l <;> simp only [St.step, ih2] at hl
    case start k => simp at hl
    case stop k =>
      split at hl
      · simp only [Option.some.injEq] at hl; subst hl; simp at hq
      · simp at hl
    case fast k =>
      split at hl
      · rename_i hc
        simp only [Option.some.injEq] at hl; subst hl
        have : (0 : Nat) ≠ k := by intro hk; subst hk; rw [ih1] at hc; simp at hc
        simp only [setW, this, if_false]; exact ih1
      · simp at hl
    case test k =>
      split at hl
      · rename_i hc
        simp only [Option.some.injEq] at hl; subst hl
        have : (0 : Nat) ≠ k := by intro hk; subst hk; rw [ih1] at hc; simp at hc
        simp only [setW, this, if_false]; exact ih1
      · simp at hl
    case sleep k =>
      split at hl
      · rename_i hc
        simp only [Option.some.injEq] at hl; subst hl
        have : (0 : Nat) ≠ k := by intro hk; subst hk; rw [ih1] at hc; simp at hc
        simp only [setW, this, if_false]; exact ih1
      · simp at hl
    case live => simp at hl
    case notifyStart => simp at hl
    case quitSeen =>
      split at hl
      · rename_i hc; simp only [Option.some.injEq] at hl; subst hl; simp at hq; omega
      · simp at hl
    case notifyEnd => simp at hl

/-- C46 VIOLATION: `SyncStop` can hang forever: the loop thread ends (and notifies, without the mutex)
between the caller's test and its sleep; afterwards nothing in any execution wakes the caller. -/
theorem c46_violation_stop_hangs : ∃ s, Reach s ∧ s.ph = .ended ∧
    ∀ u, Steps s u → u.w 1 = .asleep false := by
  have h : (runLabs St.init [.start 0, .live, .notifyStart, .test 0, .stop 1, .fast 1, .test 1, .quitSeen, .notifyEnd,
      .sleep 1]).map (fun s => (s.ph, s.w 1)) = some (.ended, .asleep false) := by decide +kernel
  obtain ⟨s, h1, h2⟩ := Option.map_eq_some_iff.1 h
  simp only [Prod.mk.injEq] at h2
  refine ⟨s, steps_runLabs _ (.refl _) h1, h2.1, ?_⟩
  have key : ∀ u, Steps s u → u.w 1 = .asleep false ∧ u.ph = .ended := by
    intro u hu
    induction hu with
    | refl => exact ⟨h2.2, h2.1⟩
    | @tail u u' l _ hl ih =>
      obtain ⟨ih1, ih2⟩ := ih
      have oth : ∀ k v, u.w k ≠ .asleep false → setW u.w k v 1 = .asleep false := by
        intro k v hk
        have : (1 : Nat) ≠ k := by intro hx; subst hx; exact hk ih1
        simp only [setW, this, if_false]; exact ih1
      cases l <;> simp only [St.step, ih2] at hl
      case start k => simp at hl
      case live => simp at hl
      case notifyStart => simp at hl
      case quitSeen => simp at hl
      case notifyEnd => simp at hl
      all_goals
        split at hl
        · rename_i hc
          simp only [Option.some.injEq] at hl; subst hl
          exact ⟨oth _ _ (by rw [hc]; simp), rfl⟩
        · simp at hl
  intro u hu
  exact (key u hu).1

/-- C46 VIOLATION: `SyncStop` can return while the loop thread is still executing (it has read the
quit request but not run its final round of tasks). -/
theorem c46_violation_stop_returns_early : ∃ s, Reach s ∧ s.w 1 = .back false ∧ s.ph = .stopping := by
  have h : (runLabs St.init [.start 0, .live, .notifyStart, .test 0, .stop 1, .quitSeen, .fast 1]).map
      (fun s => (s.w 1, s.ph)) = some (.back false, .stopping) := by decide +kernel
  obtain ⟨s, h1, h2⟩ := Option.map_eq_some_iff.1 h
  simp only [Prod.mk.injEq] at h2
  exact ⟨s, steps_runLabs _ (.refl _) h1, h2.1, h2.2⟩

end Ltio.Loop.StartStop
