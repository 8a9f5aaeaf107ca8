import Verif.Loop.MsgLoop
/-
C23: the message loop runs every accepted task exactly once, in order, without lost wake-ups.
-/
namespace Ltio.Loop.Msg

/-- Any number of steps of any threads. -/
inductive Steps : St → St → Prop
  | refl (s) : Steps s s
  | tail {s u u' l} : Steps s u → u.step l = some u' → Steps s u'

theorem reach_steps {s u : St} (hs : Reach s) (h : Steps s u) : Reach u := by
  induction h with
  | refl => exact hs
  | tail _ h ih => exact .step ih h

/-- C23 (exactly once, in order): for every producer — the loop itself or another thread — and at
every moment of every interleaving, the tasks that have run, followed by those still pending, are
exactly the tasks that producer posted, in posting order.  So no task is lost, duplicated or run out
of its producer's order. -/
theorem c23_exactly_once_in_order {s : St} (h : Reach s) (w : Who) :
    ofWho w s.ran ++ s.pending w = ofWho w s.posted := (reach_inv h).fifo w

/-- C23 (no lost wake-up): whenever the loop is about to sleep in the kernel while a remote task is
queued, the eventfd is readable (so the sleep returns at once), or the posting thread has not yet
finished its `PostTask` call and will still signal. -/
theorem c23_no_lost_wakeup {s : St} (h : Reach s) (hl : s.lpc = .poll) (hq : s.queue ≠ []) :
    0 < s.efd ∨ ∃ p, s.ppc p = .enq ∨ s.ppc p = .won := by
  have i := reach_inv h
  rcases i.wake hq with h1 | h1 | h1 | h1
  · left; omega
  · exact Or.inr h1
  · rw [hl] at h1; simp [LPc.willDrain] at h1
  · rw [hl] at h1; simp [LPc.final] at h1

/-- C23: once all `PostTask` calls have returned, polling with a queued task always reports the task
event. -/
theorem c23_poll_reports {s s' : St} {evs : List Ev} (h : Reach s) (hq : s.queue ≠ [])
    (hidle : ∀ p, s.ppc p = .idle) (hs : s.step (.poll evs) = some s') : Ev.task ∈ evs := by
  have hl : s.lpc = .poll ∧ (Ev.task ∈ evs ↔ 0 < s.efd) := by
    unfold St.step at hs
    split at hs
    · simp at hs
    · simp only [St.stepB] at hs
      split at hs
      · rename_i hc; exact ⟨hc.1, hc.2.2.1⟩
      · simp at hs
  rcases c23_no_lost_wakeup h hl.1 hq with h1 | ⟨p, h1⟩
  · exact hl.2.2 h1
  · rw [hidle p] at h1; simp at h1

/-- C23: the write to the eventfd can never fail for lack of room, however many threads post. -/
theorem c23_notify_never_fails {s : St} {p : Nat} (h : Reach s) (hp : s.ppc p = .won) :
    s.efd + 1 ≤ efdMax := by
  rw [((reach_inv h).won p hp).2.1]; decide

theorem stepB_of_step {s s' : St} {l : Lab} (h : s.step l = some s') : s.stepB l = some s' := by
  unfold St.step at h
  split at h
  · simp at h
  · exact h

/-- Everything that is queued or run stays queued or run. -/
theorem step_keeps {s s' : St} {l : Lab} (h : s.step l = some s') :
    (∀ x, x ∈ s.ran → x ∈ s'.ran) ∧
    (∀ x ∈ s.queue, x ∈ s'.queue ∨ (some x.1, x.2) ∈ s'.ran) := by
  have h := stepB_of_step h
  have triv : ∀ u : St, u.ran = s.ran → u.queue = s.queue →
      (∀ x, x ∈ s.ran → x ∈ u.ran) ∧ (∀ x ∈ s.queue, x ∈ u.queue ∨ (some x.1, x.2) ∈ u.ran) := by
    intro u h1 h2
    rw [h1, h2]
    exact ⟨fun _ hx => hx, fun _ hx => Or.inl hx⟩
  cases l with
  | enqueue p =>
    simp only [St.stepB] at h
    split at h
    · simp only [Option.some.injEq] at h; subst h
      exact ⟨fun _ hx => hx, fun _ hx => Or.inl (List.mem_append_left _ hx)⟩
    · simp at h
  | deq p =>
    have key : ∀ t q, takeFirst p s.queue = some (t, q) →
        s' = { s with queue := q, ran := s.ran ++ [(some p, t)] } →
        (∀ x, x ∈ s.ran → x ∈ s'.ran) ∧ (∀ x ∈ s.queue, x ∈ s'.queue ∨ (some x.1, x.2) ∈ s'.ran) := by
      intro t q hq hs
      subst hs
      refine ⟨fun _ hx => List.mem_append_left _ hx, fun x hx => ?_⟩
      rcases (takeFirst_spec hq).2.2 x hx with h1 | h1
      · right; subst h1; simp
      · exact Or.inl h1
    simp only [St.stepB] at h
    split at h
    · split at h
      · simp at h
      · rename_i t q hq; simp only [Option.some.injEq] at h; exact key t q hq h.symm
    · split at h
      · simp at h
      · rename_i t q hq; simp only [Option.some.injEq] at h; exact key t q hq h.symm
    · simp at h
  | runNest =>
    simp only [St.stepB] at h
    split at h
    · simp at h
    · split at h
      · simp only [Option.some.injEq] at h; subst h
        exact ⟨fun _ hx => List.mem_append_left _ hx, fun _ hx => Or.inl hx⟩
      · simp at h
  | _ =>
    simp only [St.stepB] at h
    repeat' split at h
    all_goals first
      | (simp only [Option.some.injEq] at h; subst h; exact triv _ rfl rfl)
      | simp at h

theorem steps_keeps {s u : St} (h : Steps s u) :
    (∀ x, x ∈ s.ran → x ∈ u.ran) ∧ (∀ x ∈ s.queue, x ∈ u.queue ∨ (some x.1, x.2) ∈ u.ran) := by
  induction h with
  | refl => exact ⟨fun _ h => h, fun _ h => Or.inl h⟩
  | tail _ h ih =>
    obtain ⟨k1, k2⟩ := step_keeps h
    refine ⟨fun x hx => k1 x (ih.1 x hx), fun x hx => ?_⟩
    rcases ih.2 x hx with h1 | h1
    · exact k2 x h1
    · exact Or.inr (k1 _ h1)

/-- How the "will drain" state evolves in one step. -/
theorem step_drain {s s' : St} {l : Lab} (h : s.step l = some s')
    (hw : (s.lpc = .poll ∧ 0 < s.efd) ∨ s.lpc.willDrain = true) :
    (s'.lpc = .poll ∧ 0 < s'.efd) ∨ s'.lpc.willDrain = true ∨ s'.queue = [] := by
  have h := stepB_of_step h
  have keep : ∀ u : St, u.lpc = s.lpc → s.efd ≤ u.efd →
      (u.lpc = .poll ∧ 0 < u.efd) ∨ u.lpc.willDrain = true ∨ u.queue = [] := by
    intro u h1 h2
    rw [h1]
    rcases hw with ⟨h3, h4⟩ | h3
    · exact Or.inl ⟨h3, by omega⟩
    · exact Or.inr (Or.inl h3)
  cases l with
  | top =>
    simp only [St.stepB] at h
    split at h
    · rename_i hl
      rw [hl] at hw
      simp [LPc.willDrain] at hw
    · simp at h
  | poll evs =>
    simp only [St.stepB] at h
    split at h
    · rename_i hc
      simp only [Option.some.injEq] at h; subst h
      right; left
      rcases hw with ⟨_, h4⟩ | h3
      · simp [LPc.willDrain, hc.2.2.1.2 h4]
      · rw [hc.1] at h3; simp [LPc.willDrain] at h3
    · simp at h
  | dispatch =>
    simp only [St.stepB] at h
    split at h
    · rename_i hl; rw [hl] at hw; simp [LPc.willDrain] at hw
    · simp only [Option.some.injEq] at h; subst h; right; left; rfl
    · rename_i r hl
      simp only [Option.some.injEq] at h; subst h
      rw [hl] at hw; simp [LPc.willDrain] at hw
      right; left; simpa [LPc.willDrain] using hw
    · simp at h
  | read =>
    simp only [St.stepB] at h
    split at h
    · simp only [Option.some.injEq] at h; subst h; right; left; rfl
    · simp at h
  | clear =>
    simp only [St.stepB] at h
    split at h
    · simp only [Option.some.injEq] at h; subst h; right; left; rfl
    · simp at h
  | drained =>
    simp only [St.stepB] at h
    split at h
    · split at h
      · rename_i hq; simp only [Option.some.injEq] at h; subst h; right; right; exact hq
      · simp at h
    · rename_i hl; rw [hl] at hw; simp [LPc.willDrain] at hw
    · simp at h
  | nested =>
    simp only [St.stepB] at h
    split at h
    · rename_i hl; rw [hl] at hw; simp [LPc.willDrain] at hw
    · rename_i hl; rw [hl] at hw; simp [LPc.willDrain] at hw
    · simp at h
  | batchEnd =>
    simp only [St.stepB] at h
    split at h
    · split at h
      · rename_i hl; rw [hl] at hw; simp [LPc.willDrain] at hw
      · rename_i hl; rw [hl] at hw; simp [LPc.willDrain] at hw
      · simp at h
    · simp at h
  | notify p =>
    simp only [St.stepB] at h
    split at h
    · split at h
      · simp only [Option.some.injEq] at h; subst h; exact keep _ rfl (by simp)
      · simp only [Option.some.injEq] at h; subst h; exact keep _ rfl (by simp)
    · simp at h
  | _ =>
    simp only [St.stepB] at h
    repeat' split at h
    all_goals first
      | (simp only [Option.some.injEq] at h; subst h; exact keep _ rfl (Nat.le_refl _))
      | simp at h

theorem steps_drain {s u : St} (h : Steps s u)
    (hw : (s.lpc = .poll ∧ 0 < s.efd) ∨ s.lpc.willDrain = true) :
    ((u.lpc = .poll ∧ 0 < u.efd) ∨ u.lpc.willDrain = true) ∨
    ∀ x ∈ s.queue, (some x.1, x.2) ∈ u.ran := by
  induction h with
  | refl => exact Or.inl hw
  | tail h1 h2 ih =>
    rcases ih with ih | ih
    · rcases step_drain h2 ih with h3 | h3 | h3
      · exact Or.inl (Or.inl h3)
      · exact Or.inl (Or.inr h3)
      · right
        intro x hx
        rcases (steps_keeps (.tail h1 h2)).2 x hx with h4 | h4
        · rw [h3] at h4; simp at h4
        · exact h4
    · right
      intro x hx
      exact (step_keeps h2).1 _ (ih x hx)

/-- C23 (delivery): let the loop poll while the eventfd is readable (which by `c23_no_lost_wakeup` is
the case whenever a task is queued and its `PostTask` has returned).  Under every interleaving, when
the loop has finished dispatching that round (it starts `RunNestedTask`), every task that was queued
has been run. -/
theorem c23_round_runs_all {s u : St} (hl : s.lpc = .poll) (he : 0 < s.efd)
    (h : Steps s u) (hu : u.lpc = .nested) : ∀ x ∈ s.queue, (some x.1, x.2) ∈ u.ran := by
  rcases steps_drain h (Or.inl ⟨hl, he⟩) with (h1 | h1) | h1
  · rw [hu] at h1; simp at h1
  · rw [hu] at h1; simp [LPc.willDrain] at h1
  · exact h1

/-- Loop-posted tasks: from `RunNestedTask` on, each is in the batch, or has run. -/
theorem steps_nested {s u : St} (h : Steps s u) (hl : s.lpc = .nested) :
    (u.lpc = .nested ∧ ∀ t ∈ s.inLoop, t ∈ u.inLoop) ∨
    (u.lpc = .batch ∧ ∀ t ∈ s.inLoop, t ∈ u.nest ∨ (none, t) ∈ u.ran) ∨
    (∀ t ∈ s.inLoop, (none, t) ∈ u.ran) := by
  induction h with
  | refl => exact Or.inl ⟨hl, fun _ h => h⟩
  | @tail u u' l h1 h2 ih =>
    have hk := step_keeps h2
    have h2 := stepB_of_step h2
    rcases ih with ⟨hu, ih⟩ | ⟨hu, ih⟩ | ih
    · -- still before RunNestedTask
      cases l with
      | nested =>
        simp only [St.stepB, hu, Option.some.injEq] at h2
        subst h2
        exact Or.inr (Or.inl ⟨rfl, fun t ht => Or.inl (ih t ht)⟩)
      | _ =>
        simp only [St.stepB, hu, LPc.userCode] at h2
        repeat' split at h2
        all_goals first
          | (simp only [Option.some.injEq] at h2; subst h2; exact Or.inl ⟨by first | rfl | exact hu, ih⟩)
          | simp_all
    · cases l with
      | runNest =>
        simp only [St.stepB] at h2
        split at h2
        · simp at h2
        · rename_i t0 r hn
          simp only [hu, true_or, if_true, Option.some.injEq] at h2
          subst h2
          refine Or.inr (Or.inl ⟨rfl, fun t ht => ?_⟩)
          rcases ih t ht with h3 | h3
          · rw [hn] at h3
            rcases List.mem_cons.1 h3 with rfl | h3
            · right; simp
            · exact Or.inl h3
          · right; exact List.mem_append_left _ h3
      | batchEnd =>
        simp only [St.stepB] at h2
        split at h2
        · rename_i hn
          right; right
          intro t ht
          rcases ih t ht with h3 | h3
          · rw [hn] at h3; simp at h3
          · exact hk.1 _ h3
        · simp at h2
      | _ =>
        simp only [St.stepB, hu, LPc.userCode] at h2
        repeat' split at h2
        all_goals first
          | (simp only [Option.some.injEq] at h2; subst h2; exact Or.inr (Or.inl ⟨by first | rfl | exact hu, ih⟩))
          | simp_all
    · right; right
      intro t ht
      exact hk.1 _ (ih t ht)

/-- C23 (delivery of tasks posted on the loop): every task posted from the loop thread before
`RunNestedTask` has run when the loop goes back to poll. -/
theorem c23_nested_run {s u : St} (hl : s.lpc = .nested) (h : Steps s u) (hu : u.lpc = .top) :
    ∀ t ∈ s.inLoop, (none, t) ∈ u.ran := by
  rcases steps_nested h hl with ⟨h1, _⟩ | ⟨h1, _⟩ | h1
  · rw [hu] at h1; simp at h1
  · rw [hu] at h1; simp at h1
  · exact h1

/-- C23: the loop thread is never stuck: unless it ended or the process aborted, one of its own steps
is possible (so rounds always complete, if tasks do). -/
theorem c23_loop_never_stuck {s : St} (ha : s.aborted = false) (he : s.lpc ≠ .ended) :
    ∃ l s', s.step l = some s' ∧ (∀ p t, l ≠ .post p t) ∧ (∀ p, l ≠ .enqueue p ∧ l ≠ .tas p ∧ l ≠ .notify p) ∧
      l ≠ .quit ∧ (∀ t, l ≠ .loopPost t) := by
  have tf : ∀ q : List (Nat × Nat), q ≠ [] → ∃ p t q', takeFirst p q = some (t, q') := by
    intro q hq
    match q with
    | [] => simp at hq
    | (p, t) :: q => exact ⟨p, t, q, by simp [takeFirst]⟩
  have hs : ∀ l s', s.stepB l = some s' → s.step l = some s' := by
    intro l s' h; unfold St.step; rw [ha]; exact h
  have fin : ∀ l, (s.stepB l).isSome = true → (∀ p t, l ≠ .post p t) →
      (∀ p, l ≠ .enqueue p ∧ l ≠ .tas p ∧ l ≠ .notify p) → l ≠ .quit → (∀ t, l ≠ .loopPost t) →
      ∃ l s', s.step l = some s' ∧ (∀ p t, l ≠ .post p t) ∧
        (∀ p, l ≠ .enqueue p ∧ l ≠ .tas p ∧ l ≠ .notify p) ∧ l ≠ .quit ∧ (∀ t, l ≠ .loopPost t) := by
    intro l h a b c d
    exact ⟨l, _, hs _ _ (Option.some_get h).symm, a, b, c, d⟩
  cases hl : s.lpc with
  | top => exact fin .top (by simp [St.stepB, hl]) (by simp) (by simp) (by simp) (by simp)
  | poll =>
    refine fin (.poll ((if 0 < s.efd then [Ev.task] else []) ++ (if 0 < s.quits then [Ev.ctrl] else [])))
      ?_      (by simp) (by simp) (by simp) (by simp)
    simp only [St.stepB, hl]
    rw [if_pos]
    · rfl
    refine ⟨trivial, ?_, ?_, ?_⟩ <;> split <;> split <;> simp_all
  | dispatch r =>
    refine fin .dispatch ?_ (by simp) (by simp) (by simp) (by simp)
    match r, hl with
    | [], hl => simp [St.stepB, hl]
    | .task :: r, hl => simp [St.stepB, hl]
    | .ctrl :: r, hl => simp [St.stepB, hl]
  | read r => exact fin .read (by simp [St.stepB, hl]) (by simp) (by simp) (by simp) (by simp)
  | clear r => exact fin .clear (by simp [St.stepB, hl]) (by simp) (by simp) (by simp) (by simp)
  | drain r =>
    by_cases hq : s.queue = []
    · exact fin .drained (by simp [St.stepB, hl, hq]) (by simp) (by simp) (by simp) (by simp)
    · obtain ⟨p, t, q', h⟩ := tf _ hq
      exact fin (.deq p) (by simp [St.stepB, hl, h]) (by simp) (by simp) (by simp) (by simp)
  | nested => exact fin .nested (by simp [St.stepB, hl]) (by simp) (by simp) (by simp) (by simp)
  | batch =>
    by_cases hn : s.nest = []
    · exact fin .batchEnd (by simp [St.stepB, hl, hn]) (by simp) (by simp) (by simp) (by simp)
    · obtain ⟨t, r, hr⟩ := List.exists_cons_of_ne_nil hn
      exact fin .runNest (by simp [St.stepB, hr, hl]) (by simp) (by simp) (by simp) (by simp)
  | fdrain =>
    by_cases hq : s.queue = []
    · exact fin .drained (by simp [St.stepB, hl, hq]) (by simp) (by simp) (by simp) (by simp)
    · obtain ⟨p, t, q', h⟩ := tf _ hq
      exact fin (.deq p) (by simp [St.stepB, hl, h]) (by simp) (by simp) (by simp) (by simp)
  | fnested => exact fin .nested (by simp [St.stepB, hl]) (by simp) (by simp) (by simp) (by simp)
  | fbatch =>
    by_cases hn : s.nest = []
    · exact fin .batchEnd (by simp [St.stepB, hl, hn]) (by simp) (by simp) (by simp) (by simp)
    · obtain ⟨t, r, hr⟩ := List.exists_cons_of_ne_nil hn
      exact fin .runNest (by simp [St.stepB, hr, hl, or_true]) (by simp) (by simp) (by simp) (by simp)
  | ended => exact absurd hl he

/-- C23 (shutdown, loop thread): when the loop thread has ended without an abort, every task ever
posted from the loop thread has run. -/
theorem c23_shutdown_loop_tasks {s : St} (h : Reach s) (hl : s.lpc = .ended) :
    ofWho none s.ran = ofWho none s.posted := by
  have i := reach_inv h
  have hn : s.nest = [] := by
    by_cases hc : s.nest = []
    · exact hc
    · rcases i.nest0 hc with h1 | h1 <;> rw [hl] at h1 <;> simp at h1
  have := i.fifo none
  simp only [St.pending, hn, i.inLoop0 (Or.inr hl)] at this
  simpa using this

theorem steps_final {s u : St} (h : Steps s u) (hl : s.lpc = .fdrain) :
    u.lpc = .fdrain ∨ ∀ x ∈ s.queue, (some x.1, x.2) ∈ u.ran := by
  induction h with
  | refl => exact Or.inl hl
  | @tail u u' l h1 h2 ih =>
    rcases ih with hu | ih
    · have hk := (steps_keeps (.tail h1 h2)).2
      have h2 := stepB_of_step h2
      cases l with
      | drained =>
        simp only [St.stepB, hu] at h2
        split at h2
        · rename_i hq
          simp only [Option.some.injEq] at h2; subst h2
          right
          intro x hx
          rcases hk x hx with h3 | h3
          · rw [hq] at h3; simp at h3
          · exact h3
        · simp at h2
      | _ =>
        simp only [St.stepB, hu, LPc.userCode] at h2
        repeat' split at h2
        all_goals first
          | (simp only [Option.some.injEq] at h2; subst h2; left; first | rfl | exact hu)
          | simp_all
    · right
      intro x hx
      exact (step_keeps h2).1 _ (ih x hx)

/-- C23 (shutdown, other threads; partial): every task enqueued before the loop starts its final
drain has run when the loop thread ends.  Missing: tasks enqueued later, see
`c23_violation_lost_at_shutdown`. -/
theorem c23_shutdown_remote_partial {s u : St} (hl : s.lpc = .fdrain) (h : Steps s u) (hu : u.lpc = .ended) :
    ∀ x ∈ s.queue, (some x.1, x.2) ∈ u.ran := by
  rcases steps_final h hl with h1 | h1
  · rw [hu] at h1; simp at h1
  · exact h1

def runLabs (s : St) : List Lab → Option St
  | [] => some s
  | l :: ls => match s.step l with
    | none => none
    | some s' => runLabs s' ls

theorem reach_runLabs {s u : St} (ls : List Lab) (hs : Reach s) (h : runLabs s ls = some u) : Reach u := by
  induction ls generalizing s with
  | nil => simp [runLabs] at h; subst h; exact hs
  | cons l ls ih =>
    simp only [runLabs] at h
    split at h
    · simp at h
    · rename_i s' h1; exact ih (.step hs h1) h

/-- A schedule in which a thread passes `CHECK(running_)`, then the loop shuts down, then the thread
enqueues. -/
def lostSchedule : List Lab :=
  [.post 1 7, .quit, .top, .poll [.ctrl], .dispatch, .dispatch, .nested, .batchEnd, .top, .drained,
   .nested, .batchEnd, .enqueue 1, .tas 1, .notify 1]

/-- C23 VIOLATION: a task accepted by `PostTask` (which returned true) while the loop was running
when it was called is never run: the loop has ended with the task in its queue. -/
theorem c23_violation_lost_at_shutdown : ∃ s, Reach s ∧ s.lpc = .ended ∧ s.ppc 1 = .idle ∧
    ofWho (some 1) s.posted = [7] ∧ ofWho (some 1) s.ran = [] := by
  have h : (runLabs St.init lostSchedule).map (fun s => (s.lpc, s.ppc 1, ofWho (some 1) s.posted, ofWho (some 1) s.ran)) =
      some (.ended, .idle, [7], []) := by decide +kernel
  obtain ⟨s, h1, h2⟩ := Option.map_eq_some_iff.1 h
  simp only [Prod.mk.injEq] at h2
  exact ⟨s, reach_runLabs _ .init h1, h2.1, h2.2.1, h2.2.2.1, h2.2.2.2⟩

/-- C23 VIOLATION: code that runs on the loop after the quit request was read and posts a task (as
any task may) aborts the process. -/
theorem c23_violation_post_while_stopping : ∃ s, Reach s ∧ s.aborted = true := by
  have h : (runLabs St.init [.post 1 7, .enqueue 1, .tas 1, .notify 1, .quit, .top, .poll [.ctrl, .task],
    .dispatch, .dispatch, .read, .clear, .deq 1, .loopPost 8]).map (·.aborted) = some true := by decide +kernel
  obtain ⟨s, h1, h2⟩ := Option.map_eq_some_iff.1 h
  exact ⟨s, reach_runLabs _ .init h1, h2⟩

/-- Witness: two threads and the loop post; a reachable state in which a wake-up is pending and the
hypotheses of `c23_round_runs_all` hold. -/
theorem c23_witness : ∃ s, Reach s ∧ s.lpc = .poll ∧ 0 < s.efd ∧ s.queue = [(1, 7), (2, 8)] := by
  have h : (runLabs St.init [.post 1 7, .post 2 8, .enqueue 1, .enqueue 2, .tas 2, .notify 2, .tas 1, .top]).map
      (fun s => (s.lpc, s.efd, s.queue)) = some (.poll, 1, [(1, 7), (2, 8)]) := by decide +kernel
  obtain ⟨s, h1, h2⟩ := Option.map_eq_some_iff.1 h
  simp only [Prod.mk.injEq] at h2
  exact ⟨s, reach_runLabs _ .init h1, h2.1, by rw [h2.2.1]; decide, h2.2.2⟩

/-- Code on the loop thread may post wherever it runs: from a handler of an event, from a task, from a task that was
itself posted on the loop thread, and from those run while the loop ends.  The post is accepted while the loop runs,
and ends the process afterwards. -/
theorem c23_loop_posts (s : St) (t : Nat) (ha : s.aborted = false)
    (h : (∃ r, s.lpc = .dispatch r) ∨ (∃ r, s.lpc = .drain r) ∨ s.lpc = .batch ∨ s.lpc = .fdrain ∨ s.lpc = .fbatch) :
    ∃ s', s.step (.loopPost t) = some s' ∧
      if s.running then s'.pending none = s.pending none ++ [t] ∧ s'.aborted = false else s'.aborted = true := by
  have hu : s.lpc.userCode = true := by
    rcases h with ⟨r, h⟩ | ⟨r, h⟩ | h | h | h <;> rw [h] <;> rfl
  rcases hr : s.running with _ | _
  · exact ⟨{ s with aborted := true }, by simp [St.step, St.stepB, ha, hu, hr], rfl⟩
  · refine ⟨{ s with inLoop := s.inLoop ++ [t], posted := s.posted ++ [(none, t)] }, ?_, ?_⟩
    · simp [St.step, St.stepB, ha, hu, hr]
    · simp [St.pending, ha]

/-- Witness: a task posted on the loop posts another, which runs in the next round. -/
theorem c23_witness_nested : ∃ s, Reach s ∧ s.lpc = .batch ∧ ofWho none s.ran = [8] ∧ s.pending none = [9] := by
  have h : (runLabs St.init [.post 1 7, .enqueue 1, .tas 1, .notify 1, .top, .poll [.task], .dispatch, .read, .clear,
      .deq 1, .loopPost 8, .drained, .dispatch, .nested, .runNest, .loopPost 9]).map
      (fun s => (s.lpc, ofWho none s.ran, s.pending none)) = some (.batch, [8], [9]) := by decide +kernel
  obtain ⟨s, h1, h2⟩ := Option.map_eq_some_iff.1 h
  simp only [Prod.mk.injEq] at h2
  exact ⟨s, reach_runLabs _ .init h1, h2.1, h2.2.1, h2.2.2⟩

end Ltio.Loop.Msg
