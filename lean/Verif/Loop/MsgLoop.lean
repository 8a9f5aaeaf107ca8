import Mathlib.Tactic.ByContra
/-
Model of `MessageLoop` (base/message_loop/message_loop.cc): posting from other threads and from the
loop thread, the wake-up flag protocol, draining, nested tasks and shutdown, as a labelled transition
system over all interleavings of any number of posting threads with the loop thread.

Each step is one access to shared state (sequentially consistent).  `scheduled_tasks_` is
moodycamel's ConcurrentQueue, taken as its documented contract: FIFO per producer, any order between
producers, `try_dequeue` fails only when it is empty.  Other fd events and timers are represented by
the tasks they post from the loop thread (`loopPost`).  The coroutine runner (`delegate_runner_`) is
not part of this model.
-/
namespace Ltio.Loop.Msg

/-- Who posted a task: `none` = the loop thread itself, `some p` = another thread. -/
abbrev Who := Option Nat

/-- Events the pump can dispatch to the loop itself: the eventfd (`task_event_`) and the control
pipe (`wakeup_event_`). -/
inductive Ev where
  | task | ctrl
deriving DecidableEq, Repr

/-- Program counter of a posting thread inside `PostTask` (message_loop.cc:273-283) and
`WakeUpIfNeeded` (125-133). -/
inductive PPc where
  | idle
  | checked (t : Nat)   -- passed CHECK(running_), before enqueue
  | enq                 -- enqueued, before notify_flag_.test_and_set()
  | won                 -- got the flag, before write(eventfd)
deriving DecidableEq, Repr

/-- Program counter of the loop thread (`ThreadMain` 225-258 with `Pump`, `HandleTaskEvent` 135-145,
`HandleCtrlEvent` 147-158, `RunScheduledTask` 285-292, `RunNestedTask` 294-306). -/
inductive LPc where
  | top                       -- evaluating while (running_)
  | poll                      -- in epoll_wait
  | dispatch (rest : List Ev) -- in InvokeFiredEvent
  | read (rest : List Ev)     -- HandleTaskEvent, before read
  | clear (rest : List Ev)    -- before notify_flag_.clear()
  | drain (rest : List Ev)    -- in RunScheduledTask
  | nested                    -- before RunNestedTask
  | batch                     -- in RunNestedTask
  | fdrain                    -- final RunScheduledTask (line 246)
  | fnested                   -- before the final RunNestedTask (line 248)
  | fbatch                    -- in it
  | ended                     -- ThreadMain left
deriving DecidableEq, Repr

structure St where
  running : Bool              -- running_
  flag : Bool                 -- notify_flag_
  efd : Nat                   -- counter of the eventfd
  quits : Nat                 -- bytes in the control pipe
  queue : List (Nat × Nat)    -- scheduled_tasks_: (producer, task)
  inLoop : List Nat           -- in_loop_tasks_
  nest : List Nat             -- what is left of nest_tasks in RunNestedTask
  ppc : Nat → PPc
  lpc : LPc
  aborted : Bool              -- a CHECK failed
  posted : List (Who × Nat)   -- history: tasks accepted, in order
  ran : List (Who × Nat)      -- history: tasks run, in order

/-- The loop thread has started (`running_ = true`, message_loop.cc:226). -/
def St.init : St := ⟨true, false, 0, 0, [], [], [], fun _ => .idle, .top, false, [], []⟩

def setP (f : Nat → PPc) (p : Nat) (v : PPc) : Nat → PPc := fun q => if q = p then v else f q

/-- One step of some thread. -/
inductive Lab where
  | post (p t : Nat)      -- thread p calls PostTask(t): CHECK(running_)
  | enqueue (p : Nat)     -- scheduled_tasks_.enqueue
  | tas (p : Nat)         -- notify_flag_.test_and_set()
  | notify (p : Nat)      -- write(eventfd, 1)
  | quit                  -- QuitLoop / SyncStop write to the control pipe
  | loopPost (t : Nat)    -- code running on the loop thread calls PostTask(t)
  | top
  | poll (evs : List Ev)  -- epoll_wait returns
  | dispatch
  | read
  | clear
  | deq (p : Nat)         -- try_dequeue returns the oldest task of producer p, and it runs
  | drained               -- try_dequeue fails
  | nested
  | runNest               -- the next nested task runs
  | batchEnd
deriving DecidableEq, Repr

/-- The eventfd's limit: a write that would pass 2^64-2 fails with EAGAIN. -/
def efdMax : Nat := 2^64 - 2

/-- Remove the oldest task of producer `p`. -/
def takeFirst (p : Nat) : List (Nat × Nat) → Option (Nat × List (Nat × Nat))
  | [] => none
  | (q, t) :: l =>
    if q = p then some (t, l)
    else match takeFirst p l with
      | none => none
      | some (t', l') => some (t', (q, t) :: l')

/-- User code runs on the loop thread in these states. -/
def LPc.userCode : LPc → Bool
  | .dispatch _ => true
  | .drain _ => true
  | .batch => true
  | .fdrain => true
  | .fbatch => true
  | _ => false

/-- Body of one step; `none` = not possible in this state. -/
def St.stepB (s : St) : Lab → Option St
  -- message_loop.cc:274
  | .post p t =>
    match s.ppc p with
    | .idle => if s.running then some { s with ppc := setP s.ppc p (.checked t) }
               else some { s with aborted := true }
    | _ => none
  -- 280
  | .enqueue p =>
    match s.ppc p with
    | .checked t => some { s with queue := s.queue ++ [(p, t)], ppc := setP s.ppc p .enq, posted := s.posted ++ [(some p, t)] }
    | _ => none
  -- 126-128
  | .tas p =>
    match s.ppc p with
    | .enq => if s.flag then some { s with ppc := setP s.ppc p .idle }
              else some { s with flag := true, ppc := setP s.ppc p .won }
    | _ => none
  -- 129-132: a failed write clears the flag again
  | .notify p =>
    match s.ppc p with
    | .won => if s.efd + 1 ≤ efdMax then some { s with efd := s.efd + 1, ppc := setP s.ppc p .idle }
              else some { s with flag := false, ppc := setP s.ppc p .idle }
    | _ => none
  -- 191, 197
  | .quit => some { s with quits := s.quits + 1 }
  -- 274-279
  | .loopPost t =>
    if s.lpc.userCode then
      if s.running then some { s with inLoop := s.inLoop ++ [t], posted := s.posted ++ [(none, t)] }
      else some { s with aborted := true }
    else none
  -- 239
  | .top =>
    if s.lpc = .top then some { s with lpc := if s.running then .poll else .fdrain } else none
  -- 241: level triggered; both descriptors are reported when ready, in any order
  | .poll evs =>
    if s.lpc = .poll ∧ evs.Nodup ∧ (Ev.task ∈ evs ↔ 0 < s.efd) ∧ (Ev.ctrl ∈ evs ↔ 0 < s.quits) then
      some { s with lpc := .dispatch evs }
    else none
  | .dispatch =>
    match s.lpc with
    | .dispatch [] => some { s with lpc := .nested }
    | .dispatch (.task :: r) => some { s with lpc := .read r }
    -- 148-153
    | .dispatch (.ctrl :: r) => some { s with quits := s.quits - 1, running := false, lpc := .dispatch r }
    | _ => none
  -- 137
  | .read =>
    match s.lpc with
    | .read r => some { s with efd := 0, lpc := .clear r }
    | _ => none
  -- 142
  | .clear =>
    match s.lpc with
    | .clear r => some { s with flag := false, lpc := .drain r }
    | _ => none
  -- 289-291
  | .deq p =>
    match s.lpc with
    | .drain _ =>
      match takeFirst p s.queue with
      | none => none
      | some (t, q) => some { s with queue := q, ran := s.ran ++ [(some p, t)] }
    | .fdrain =>
      match takeFirst p s.queue with
      | none => none
      | some (t, q) => some { s with queue := q, ran := s.ran ++ [(some p, t)] }
    | _ => none
  | .drained =>
    match s.lpc with
    | .drain r => if s.queue = [] then some { s with lpc := .dispatch r } else none
    | .fdrain => if s.queue = [] then some { s with lpc := .fnested } else none
    | _ => none
  -- 297
  | .nested =>
    match s.lpc with
    | .nested => some { s with nest := s.inLoop, inLoop := [], lpc := .batch }
    | .fnested => some { s with nest := s.inLoop, inLoop := [], lpc := .fbatch }
    | _ => none
  -- 298-300
  | .runNest =>
    match s.nest with
    | [] => none
    | t :: r =>
      if s.lpc = .batch ∨ s.lpc = .fbatch then some { s with nest := r, ran := s.ran ++ [(none, t)] } else none
  | .batchEnd =>
    if s.nest = [] then
      match s.lpc with
      | .batch => some { s with lpc := .top }
      | .fbatch => some { s with lpc := .ended }
      | _ => none
    else none

/-- A step of the system; nothing happens after an abort. -/
def St.step (s : St) (l : Lab) : Option St := if s.aborted then none else s.stepB l

/-- States reachable under any schedule. -/
inductive Reach : St → Prop
  | init : Reach St.init
  | step {s s' l} : Reach s → s.step l = some s' → Reach s'

/-! ### Specification -/

/-- The tasks of producer `w` in a history. -/
def ofWho (w : Who) (l : List (Who × Nat)) : List Nat := (l.filter (fun x => x.1 = w)).map (·.2)

/-- The accepted but not yet run tasks of a producer, in order. -/
def St.pending (s : St) : Who → List Nat
  | none => s.nest ++ s.inLoop
  | some p => (s.queue.filter (fun x => x.1 = p)).map (·.2)

/-! ### Invariants -/

/-- Is the loop inside `HandleTaskEvent`, or about to enter it in this round? -/
def LPc.willDrain : LPc → Bool
  | .dispatch r => decide (Ev.task ∈ r)
  | .read _ => true
  | .clear _ => true
  | .drain _ => true
  | _ => false

/-- Remaining fired events. -/
def LPc.rest : LPc → List Ev
  | .dispatch r => r
  | .read r => .task :: r
  | .clear r => .task :: r
  | .drain r => .task :: r
  | _ => []

/-- The loop still has the fired eventfd to read. -/
def LPc.toRead : LPc → Bool
  | .dispatch r => decide (Ev.task ∈ r)
  | .read _ => true
  | _ => false

def LPc.isClear : LPc → Bool
  | .clear _ => true
  | _ => false

/-- The loop has left `while (running_)`. -/
def LPc.final : LPc → Bool
  | .fdrain => true
  | .fnested => true
  | .fbatch => true
  | .ended => true
  | _ => false

structure Inv (s : St) : Prop where
  fifo : ∀ w, ofWho w s.ran ++ s.pending w = ofWho w s.posted
  nodup : s.lpc.rest.Nodup
  wonOne : ∀ p q, s.ppc p = .won → s.ppc q = .won → p = q
  won : ∀ p, s.ppc p = .won → s.flag = true ∧ s.efd = 0 ∧ s.lpc.toRead = false ∧ s.lpc.isClear = false
  efd1 : s.efd ≤ 1
  efdFlag : s.efd = 1 → s.flag = true
  toRead : s.lpc.toRead = true → s.efd = 1
  isClear : s.lpc.isClear = true → s.efd = 0 ∧ s.flag = true
  flagWhy : s.flag = true → s.efd = 1 ∨ (∃ p, s.ppc p = .won) ∨ s.lpc.isClear = true
  wake : s.queue ≠ [] → s.efd = 1 ∨ (∃ p, s.ppc p = .enq ∨ s.ppc p = .won) ∨ s.lpc.willDrain = true ∨
    s.lpc.final = true
  nest0 : s.nest ≠ [] → s.lpc = .batch ∨ s.lpc = .fbatch
  fin : s.lpc.final = true → s.running = false
  inLoop0 : s.lpc = .fbatch ∨ s.lpc = .ended → s.inLoop = []

theorem takeFirst_spec {p t : Nat} {l l' : List (Nat × Nat)} (h : takeFirst p l = some (t, l')) :
    (l.filter (fun x => x.1 = p)).map (·.2) = t :: (l'.filter (fun x => x.1 = p)).map (·.2) ∧
    (∀ q, q ≠ p → (l.filter (fun x => x.1 = q)).map (·.2) = (l'.filter (fun x => x.1 = q)).map (·.2)) ∧
    (∀ x, x ∈ l → x = (p, t) ∨ x ∈ l') := by
  induction l generalizing l' with
  | nil => simp [takeFirst] at h
  | cons a l ih =>
    obtain ⟨q, u⟩ := a
    simp only [takeFirst] at h
    split at h
    · rename_i hq
      simp only [Option.some.injEq, Prod.mk.injEq] at h
      obtain ⟨rfl, rfl⟩ := h
      subst hq
      refine ⟨by simp, ?_, ?_⟩
      · intro q' hq'; simp [Ne.symm hq']
      · intro x hx; simpa using hx
    · rename_i hq
      split at h
      · simp at h
      · rename_i t' l2 h2
        simp only [Option.some.injEq, Prod.mk.injEq] at h
        obtain ⟨rfl, rfl⟩ := h
        obtain ⟨h3, h4, h5⟩ := ih h2
        refine ⟨by simpa [hq] using h3, ?_, ?_⟩
        · intro q' hq'
          by_cases h6 : q = q'
          · subst h6; simpa using h4 q hq'
          · simpa [h6] using h4 q' hq'
        · intro x hx
          rcases List.mem_cons.1 hx with rfl | hx
          · right; simp
          · rcases h5 x hx with h6 | h6
            · exact Or.inl h6
            · exact Or.inr (List.mem_cons_of_mem _ h6)

theorem ofWho_append (w : Who) (a b : List (Who × Nat)) : ofWho w (a ++ b) = ofWho w a ++ ofWho w b := by
  simp [ofWho]

theorem ofWho_same (w : Who) (t : Nat) : ofWho w [(w, t)] = [t] := by simp [ofWho]

theorem ofWho_other {w v : Who} (h : v ≠ w) (t : Nat) : ofWho w [(v, t)] = [] := by simp [ofWho, h]

theorem setP_same (f : Nat → PPc) (p : Nat) (v : PPc) : setP f p v p = v := by simp [setP]
theorem setP_other (f : Nat → PPc) {p q : Nat} (h : q ≠ p) (v : PPc) : setP f p v q = f q := by simp [setP, h]

theorem inv_init : Inv St.init := by
  constructor <;> simp [St.init, ofWho, LPc.rest, LPc.toRead, LPc.isClear, LPc.final]
  intro w; cases w <;> simp [St.pending]

theorem inv_post {s s' : St} {p t : Nat} (i : Inv s) (h : s.stepB (.post p t) = some s') : Inv s' := by
  obtain ⟨i1, i2, i3, i4, i5, i6, i7, i8, i9, i10, i11, i12, i13⟩ := i
  simp only [St.stepB] at h
  split at h
  · rename_i hp
    split at h
    · simp only [Option.some.injEq] at h
      subst h
      have hw : ∀ q, setP s.ppc p (.checked t) q = .won ↔ s.ppc q = .won := by
        intro q; unfold setP; split <;> simp_all
      have he : ∀ q, setP s.ppc p (.checked t) q = .enq ↔ s.ppc q = .enq := by
        intro q; unfold setP; split <;> simp_all
      refine ⟨?_, i2, ?_, ?_, i5, i6, i7, i8, ?_, ?_, i11, i12, i13⟩
      · intro w; have := i1 w; cases w <;> exact this
      · simpa only [hw] using i3
      · simpa only [hw] using i4
      · simpa only [hw] using i9
      · simpa only [hw, he] using i10
    · simp only [Option.some.injEq] at h
      subst h
      refine ⟨?_, i2, i3, i4, i5, i6, i7, i8, i9, i10, i11, i12, i13⟩
      intro w; have := i1 w; cases w <;> exact this
  · simp at h

theorem inv_enqueue {s s' : St} {p : Nat} (i : Inv s) (h : s.stepB (.enqueue p) = some s') : Inv s' := by
  obtain ⟨i1, i2, i3, i4, i5, i6, i7, i8, i9, i10, i11, i12, i13⟩ := i
  simp only [St.stepB] at h
  split at h
  · rename_i t hp
    simp only [Option.some.injEq] at h
    subst h
    have hw : ∀ q, setP s.ppc p .enq q = .won ↔ s.ppc q = .won := by
      intro q; unfold setP; split <;> simp_all
    refine ⟨?_, i2, ?_, ?_, i5, i6, i7, i8, ?_, ?_, i11, i12, i13⟩
    · intro w
      have := i1 w
      simp only [ofWho_append]
      rw [← this]
      cases w with
      | none => rw [ofWho_other (by simp)]; simp [St.pending]
      | some q =>
        by_cases hq : p = q
        · subst hq; rw [ofWho_same]; simp [St.pending]
        · rw [ofWho_other (by simpa using hq)]; simp [St.pending, hq]
    · simpa only [hw] using i3
    · simpa only [hw] using i4
    · simpa only [hw] using i9
    · intro _; exact Or.inr (Or.inl ⟨p, Or.inl (setP_same _ _ _)⟩)
  · simp at h

theorem inv_tas {s s' : St} {p : Nat} (i : Inv s) (h : s.stepB (.tas p) = some s') : Inv s' := by
  obtain ⟨i1, i2, i3, i4, i5, i6, i7, i8, i9, i10, i11, i12, i13⟩ := i
  simp only [St.stepB] at h
  split at h
  · rename_i hp
    split at h
    · rename_i hf
      simp only [Option.some.injEq] at h
      subst h
      have hw : ∀ q, setP s.ppc p .idle q = .won ↔ s.ppc q = .won := by
        intro q; unfold setP; split <;> simp_all
      refine ⟨?_, i2, ?_, ?_, i5, i6, i7, i8, ?_, ?_, i11, i12, i13⟩
      · intro w; have := i1 w; cases w <;> exact this
      · simpa only [hw] using i3
      · simpa only [hw] using i4
      · simpa only [hw] using i9
      · intro hq
        rcases i9 hf with h1 | ⟨q, h1⟩ | h1
        · exact Or.inl h1
        · exact Or.inr (Or.inl ⟨q, Or.inr ((hw q).2 h1)⟩)
        · refine Or.inr (Or.inr (Or.inl ?_))
          simp only
          revert h1
          cases s.lpc <;> simp [LPc.isClear, LPc.willDrain]
    · rename_i hf
      simp only [Option.some.injEq] at h
      subst h
      have hno : ∀ q, s.ppc q ≠ .won := fun q hq => hf (i4 q hq).1
      have hw : ∀ q, setP s.ppc p .won q = .won ↔ q = p := by
        intro q
        by_cases hq : q = p
        · subst hq; simp [setP_same]
        · rw [setP_other _ hq]; simp [hq, hno q]
      refine ⟨?_, i2, ?_, ?_, i5, by simp, i7, ?_, ?_, ?_, i11, i12, i13⟩
      · intro w; have := i1 w; cases w <;> exact this
      · simp only [hw]; intro a b ha hb; rw [ha, hb]
      · simp only [hw]
        intro q _
        have he : s.efd ≠ 1 := fun h1 => hf (i6 h1)
        refine ⟨trivial, by omega, ?_, ?_⟩
        · by_contra hc; exact he (i7 (by simpa using hc))
        · by_contra hc; exact hf (i8 (by simpa using hc)).2
      · intro hc; exact ⟨(i8 hc).1, rfl⟩
      · intro _; exact Or.inr (Or.inl ⟨p, (hw p).2 rfl⟩)
      · intro _; exact Or.inr (Or.inl ⟨p, Or.inr ((hw p).2 rfl)⟩)
  · simp at h

theorem inv_notify {s s' : St} {p : Nat} (i : Inv s) (h : s.stepB (.notify p) = some s') : Inv s' := by
  obtain ⟨i1, i2, i3, i4, i5, i6, i7, i8, i9, i10, i11, i12, i13⟩ := i
  simp only [St.stepB] at h
  split at h
  · rename_i hp
    obtain ⟨hf, he, hr, hc⟩ := i4 p hp
    have hlim : s.efd + 1 ≤ efdMax := by rw [he]; decide
    simp only [hlim, if_true, Option.some.injEq] at h
    subst h
    have hno : ∀ q, setP s.ppc p .idle q ≠ .won := by
      intro q
      by_cases hq : q = p
      · subst hq; simp [setP_same]
      · rw [setP_other _ hq]; intro h1; exact hq (i3 q p h1 hp)
    refine ⟨?_, i2, ?_, ?_, by simp [he], ?_, ?_, ?_, ?_, ?_, i11, i12, i13⟩
    · intro w; have := i1 w; cases w <;> exact this
    · intro a b ha; exact absurd ha (hno a)
    · intro a ha; exact absurd ha (hno a)
    · intro _; exact hf
    · intro _; simp [he]
    · simp only [hc]; simp
    · intro _; left; simp [he]
    · intro _; left; simp [he]
  · simp at h

theorem inv_loopPost {s s' : St} {t : Nat} (i : Inv s) (h : s.stepB (.loopPost t) = some s') : Inv s' := by
  obtain ⟨i1, i2, i3, i4, i5, i6, i7, i8, i9, i10, i11, i12, i13⟩ := i
  simp only [St.stepB] at h
  split at h
  · split at h
    · rename_i hrun
      simp only [Option.some.injEq] at h
      subst h
      refine ⟨?_, i2, i3, i4, i5, i6, i7, i8, i9, i10, i11, i12, ?_⟩
      · intro w
        have := i1 w
        simp only [ofWho_append]
        rw [← this]
        cases w with
        | none => rw [ofWho_same]; simp [St.pending]
        | some q => rw [ofWho_other (by simp)]; simp [St.pending]
      · intro hl
        have : s.lpc.final = true := by rcases hl with h1 | h1 <;> simp only at h1 <;> rw [h1] <;> rfl
        rw [i12 this] at hrun
        simp at hrun
    · simp only [Option.some.injEq] at h
      subst h
      refine ⟨?_, i2, i3, i4, i5, i6, i7, i8, i9, i10, i11, i12, i13⟩
      intro w; have := i1 w; cases w <;> exact this
  · simp at h

/-- Steps that change only the loop's program counter (and possibly `running_`/the control pipe). -/
theorem inv_move {s : St} (i : Inv s) (pc : LPc) (run : Bool) (qs : Nat)
    (hn : pc.rest.Nodup) (hr : pc.toRead = true → s.efd = 1) (hc : pc.isClear = s.lpc.isClear)
    (hd : s.lpc.willDrain = true ∨ s.lpc.final = true → pc.willDrain = true ∨ pc.final = true ∨ s.queue = [])
    (hf : pc.final = true → run = false)
    (h0 : s.nest ≠ [] → pc = .batch ∨ pc = .fbatch)
    (hl : pc = .fbatch ∨ pc = .ended → s.inLoop = []) :
    Inv { s with lpc := pc, running := run, quits := qs } := by
  obtain ⟨i1, i2, i3, i4, i5, i6, i7, i8, i9, i10, i11, i12, i13⟩ := i
  refine ⟨?_, hn, i3, ?_, i5, i6, hr, ?_, ?_, ?_, h0, hf, hl⟩
  · intro w; have := i1 w; cases w <;> exact this
  · intro p hp
    obtain ⟨a, b, c, d⟩ := i4 p hp
    refine ⟨a, b, ?_, by simp only [hc]; exact d⟩
    by_contra hx
    have := hr (by simpa using hx)
    omega
  · simp only [hc]; exact i8
  · simp only [hc]; exact i9
  · intro hq
    rcases i10 hq with h1 | h1 | h1
    · exact Or.inl h1
    · exact Or.inr (Or.inl h1)
    · rcases hd h1 with h2 | h2 | h2
      · exact Or.inr (Or.inr (Or.inl h2))
      · exact Or.inr (Or.inr (Or.inr h2))
      · exact absurd h2 hq

theorem inv_top {s s' : St} (i : Inv s) (h : s.stepB .top = some s') : Inv s' := by
  simp only [St.stepB] at h
  split at h
  · rename_i hl
    simp only [Option.some.injEq] at h
    subst h
    have hn : s.nest = [] := by
      by_contra hc; rcases i.nest0 hc with h1 | h1 <;> rw [hl] at h1 <;> simp at h1
    cases hr : s.running with
    | true =>
      have := inv_move i .poll s.running s.quits (by simp [LPc.rest]) (by simp [LPc.toRead])
        (by rw [hl]; rfl) (by rw [hl]; simp [LPc.willDrain, LPc.final]) (by simp [LPc.final]) (by simp [hn]) (by simp)
      rw [hr] at this; simpa [hr] using this
    | false =>
      have := inv_move i .fdrain s.running s.quits (by simp [LPc.rest]) (by simp [LPc.toRead])
        (by rw [hl]; rfl) (by rw [hl]; simp [LPc.willDrain, LPc.final]) (by simp [hr]) (by simp [hn]) (by simp)
      rw [hr] at this; simpa [hr] using this
  · simp at h

theorem inv_poll {s s' : St} {evs : List Ev} (i : Inv s) (h : s.stepB (.poll evs) = some s') : Inv s' := by
  simp only [St.stepB] at h
  split at h
  · rename_i hl
    obtain ⟨hl, hnd, ht, hq⟩ := hl
    simp only [Option.some.injEq] at h
    subst h
    have hn : s.nest = [] := by
      by_contra hc; rcases i.nest0 hc with h1 | h1 <;> rw [hl] at h1 <;> simp at h1
    refine inv_move i (.dispatch evs) s.running s.quits hnd ?_ (by rw [hl]; rfl) ?_ (by simp [LPc.final]) (by simp [hn]) (by simp)
    · intro h1
      have := ht.1 (by simpa [LPc.toRead] using h1)
      have := i.efd1
      omega
    · rw [hl]; simp [LPc.willDrain, LPc.final]
  · simp at h

theorem inv_dispatch {s s' : St} (i : Inv s) (h : s.stepB .dispatch = some s') : Inv s' := by
  simp only [St.stepB] at h
  have hn : ∀ r, s.lpc = .dispatch r → s.nest = [] := by
    intro r hl
    by_contra hc; rcases i.nest0 hc with h1 | h1 <;> rw [hl] at h1 <;> simp at h1
  split at h
  · rename_i hl
    simp only [Option.some.injEq] at h
    subst h
    exact inv_move i .nested s.running s.quits (by simp [LPc.rest]) (by simp [LPc.toRead]) (by rw [hl]; rfl)
      (by rw [hl]; simp [LPc.willDrain, LPc.final]) (by simp [LPc.final]) (by simp [hn _ hl]) (by simp)
  · rename_i r hl
    simp only [Option.some.injEq] at h
    subst h
    have hnd := i.nodup
    rw [hl] at hnd
    exact inv_move i (.read r) s.running s.quits hnd
      (fun _ => i.toRead (by rw [hl]; simp [LPc.toRead])) (by rw [hl]; rfl)
      (by intro _; left; rfl) (by simp [LPc.final]) (by simp [hn _ hl]) (by simp)
  · rename_i r hl
    simp only [Option.some.injEq] at h
    subst h
    have hnd := i.nodup
    rw [hl] at hnd
    refine inv_move i (.dispatch r) false (s.quits - 1) (List.nodup_cons.1 hnd).2 ?_ (by rw [hl]; rfl) ?_
      (by simp [LPc.final]) (by simp [hn _ hl]) (by simp)
    · intro h1; exact i.toRead (by rw [hl]; simpa [LPc.toRead] using h1)
    · rw [hl]; simp [LPc.willDrain, LPc.final]
      intro h1; exact Or.inl h1
  · simp at h

theorem inv_read {s s' : St} (i : Inv s) (h : s.stepB .read = some s') : Inv s' := by
  simp only [St.stepB] at h
  split at h
  · rename_i r hl
    simp only [Option.some.injEq] at h
    subst h
    have he := i.toRead (by rw [hl]; rfl)
    have hno : ∀ p, s.ppc p ≠ .won := by
      intro p hp; have := (i.won p hp).2.1; omega
    have hn : s.nest = [] := by
      by_contra hc; rcases i.nest0 hc with h1 | h1 <;> rw [hl] at h1 <;> simp at h1
    refine ⟨?_, ?_, i.wonOne, ?_, by simp, by simp, by simp [LPc.toRead], ?_, ?_, ?_, by simp [hn],
      by simp [LPc.final], by simp⟩
    · intro w; have := i.fifo w; cases w <;> exact this
    · have := i.nodup; rw [hl] at this; exact this
    · intro p hp; exact absurd hp (hno p)
    · intro _; exact ⟨rfl, i.efdFlag he⟩
    · intro _; right; right; rfl
    · intro _; right; right; left; rfl
  · simp at h

theorem inv_clear {s s' : St} (i : Inv s) (h : s.stepB .clear = some s') : Inv s' := by
  simp only [St.stepB] at h
  split at h
  · rename_i r hl
    simp only [Option.some.injEq] at h
    subst h
    have he := (i.isClear (by rw [hl]; rfl)).1
    have hno : ∀ p, s.ppc p ≠ .won := by
      intro p hp; have := (i.won p hp).2.2.2; rw [hl] at this; simp [LPc.isClear] at this
    have hn : s.nest = [] := by
      by_contra hc; rcases i.nest0 hc with h1 | h1 <;> rw [hl] at h1 <;> simp at h1
    refine ⟨?_, ?_, i.wonOne, ?_, i.efd1, ?_, by simp [LPc.toRead], by simp [LPc.isClear], by simp, ?_, by simp [hn],
      by simp [LPc.final], by simp⟩
    · intro w; have := i.fifo w; cases w <;> exact this
    · have := i.nodup; rw [hl] at this; exact this
    · intro p hp; exact absurd hp (hno p)
    · simp only; omega
    · intro _; right; right; left; rfl
  · simp at h

theorem inv_takeFirst {s : St} (i : Inv s) {p t : Nat} {q : List (Nat × Nat)}
    (hl : (∃ r, s.lpc = .drain r) ∨ s.lpc = .fdrain)
    (h : takeFirst p s.queue = some (t, q)) :
    Inv { s with queue := q, ran := s.ran ++ [(some p, t)] } := by
  obtain ⟨h1, h2, h3⟩ := takeFirst_spec h
  refine ⟨?_, i.nodup, i.wonOne, i.won, i.efd1, i.efdFlag, i.toRead, i.isClear, i.flagWhy, ?_, i.nest0, i.fin, i.inLoop0⟩
  · intro w
    have hw := i.fifo w
    simp only [ofWho_append]
    rw [← hw]
    cases w with
    | none => rw [ofWho_other (by simp)]; simp [St.pending]
    | some a =>
      by_cases ha : p = a
      · subst ha; rw [ofWho_same]; simp only [St.pending, h1]; simp
      · rw [ofWho_other (by simpa using ha)]
        simp only [St.pending, h2 a (Ne.symm ha)]; simp
  · intro _
    right; right
    rcases hl with ⟨r, hl⟩ | hl
    · left; simp only [hl]; rfl
    · right; simp only [hl]; rfl

theorem inv_deq {s s' : St} {p : Nat} (i : Inv s) (h : s.stepB (.deq p) = some s') : Inv s' := by
  simp only [St.stepB] at h
  split at h
  · rename_i r hl
    split at h
    · simp at h
    · rename_i t q hq
      simp only [Option.some.injEq] at h
      subst h
      exact inv_takeFirst i (Or.inl ⟨r, hl⟩) hq
  · rename_i hl
    split at h
    · simp at h
    · rename_i t q hq
      simp only [Option.some.injEq] at h
      subst h
      exact inv_takeFirst i (Or.inr hl) hq
  · simp at h

theorem inv_drained {s s' : St} (i : Inv s) (h : s.stepB .drained = some s') : Inv s' := by
  simp only [St.stepB] at h
  split at h
  · rename_i r hl
    split at h
    · rename_i hq
      simp only [Option.some.injEq] at h
      subst h
      have hn : s.nest = [] := by
        by_contra hc; rcases i.nest0 hc with h1 | h1 <;> rw [hl] at h1 <;> simp at h1
      have hnd := i.nodup
      rw [hl] at hnd
      have hnd' := List.nodup_cons.1 hnd
      refine inv_move i (.dispatch r) s.running s.quits hnd'.2 ?_ (by rw [hl]; rfl) (fun _ => Or.inr (Or.inr hq))
        (by simp [LPc.final]) (by simp [hn]) (by simp)
      intro h1; exact absurd (by simpa [LPc.toRead] using h1) hnd'.1
    · simp at h
  · rename_i hl
    split at h
    · rename_i hq
      simp only [Option.some.injEq] at h
      subst h
      have hn : s.nest = [] := by
        by_contra hc; rcases i.nest0 hc with h1 | h1 <;> rw [hl] at h1 <;> simp at h1
      exact inv_move i .fnested s.running s.quits (by simp [LPc.rest]) (by simp [LPc.toRead]) (by rw [hl]; rfl)
        (fun _ => Or.inr (Or.inr hq)) (fun _ => i.fin (by rw [hl]; rfl)) (by simp [hn]) (by simp)
    · simp at h
  · simp at h

theorem inv_nested {s s' : St} (i : Inv s) (h : s.stepB .nested = some s') : Inv s' := by
  simp only [St.stepB] at h
  have key : ∀ pc : LPc, (s.lpc = .nested ∧ pc = .batch) ∨ (s.lpc = .fnested ∧ pc = .fbatch) →
      Inv { s with nest := s.inLoop, inLoop := [], lpc := pc } := by
    intro pc hpc
    have hn : s.nest = [] := by
      by_contra hc
      rcases i.nest0 hc with h1 | h1 <;> rcases hpc with ⟨h2, _⟩ | ⟨h2, _⟩ <;> rw [h2] at h1 <;> simp at h1
    obtain ⟨i1, i2, i3, i4, i5, i6, i7, i8, i9, i10, i11, i12, i13⟩ := i
    refine ⟨?_, ?_, i3, ?_, i5, i6, ?_, ?_, ?_, ?_, ?_, ?_, ?_⟩
    · intro w
      have := i1 w
      simp only
      rw [← this]
      cases w <;> simp [St.pending, hn]
    · rcases hpc with ⟨_, rfl⟩ | ⟨_, rfl⟩ <;> simp [LPc.rest]
    · intro p hp
      obtain ⟨a, b, c, d⟩ := i4 p hp
      refine ⟨a, b, ?_, ?_⟩ <;> rcases hpc with ⟨_, rfl⟩ | ⟨_, rfl⟩ <;> rfl
    · rcases hpc with ⟨_, rfl⟩ | ⟨_, rfl⟩ <;> simp [LPc.toRead]
    · rcases hpc with ⟨_, rfl⟩ | ⟨_, rfl⟩ <;> simp [LPc.isClear]
    · intro hf
      rcases i9 hf with h1 | h1 | h1
      · exact Or.inl h1
      · exact Or.inr (Or.inl h1)
      · rcases hpc with ⟨h2, rfl⟩ | ⟨h2, rfl⟩ <;> rw [h2] at h1 <;> simp [LPc.isClear] at h1
    · intro hq
      rcases i10 hq with h1 | h1 | h1 | h1
      · exact Or.inl h1
      · exact Or.inr (Or.inl h1)
      · rcases hpc with ⟨h2, rfl⟩ | ⟨h2, rfl⟩ <;> rw [h2] at h1 <;> simp [LPc.willDrain] at h1
      · rcases hpc with ⟨h2, rfl⟩ | ⟨h2, rfl⟩
        · rw [h2] at h1; simp [LPc.final] at h1
        · exact Or.inr (Or.inr (Or.inr rfl))
    · intro _; rcases hpc with ⟨_, rfl⟩ | ⟨_, rfl⟩ <;> simp
    · rcases hpc with ⟨h2, rfl⟩ | ⟨h2, rfl⟩
      · simp [LPc.final]
      · intro _; exact i12 (by rw [h2]; rfl)
    · intro _; rfl
  split at h
  · rename_i hl
    simp only [Option.some.injEq] at h
    subst h
    exact key _ (Or.inl ⟨hl, rfl⟩)
  · rename_i hl
    simp only [Option.some.injEq] at h
    subst h
    exact key _ (Or.inr ⟨hl, rfl⟩)
  · simp at h

theorem inv_runNest {s s' : St} (i : Inv s) (h : s.stepB .runNest = some s') : Inv s' := by
  simp only [St.stepB] at h
  split at h
  · simp at h
  · rename_i t r hn
    split at h
    · rename_i hl
      simp only [Option.some.injEq] at h
      subst h
      refine ⟨?_, i.nodup, i.wonOne, i.won, i.efd1, i.efdFlag, i.toRead, i.isClear, i.flagWhy, i.wake, fun _ => hl, i.fin, i.inLoop0⟩
      intro w
      have := i.fifo w
      simp only [ofWho_append]
      rw [← this]
      cases w with
      | none => rw [ofWho_same]; simp [St.pending, hn]
      | some q => rw [ofWho_other (by simp)]; simp [St.pending]
    · simp at h

theorem inv_batchEnd {s s' : St} (i : Inv s) (h : s.stepB .batchEnd = some s') : Inv s' := by
  simp only [St.stepB] at h
  split at h
  · rename_i hn
    split at h
    · rename_i hl
      simp only [Option.some.injEq] at h
      subst h
      exact inv_move i .top s.running s.quits (by simp [LPc.rest]) (by simp [LPc.toRead]) (by rw [hl]; rfl)
        (by rw [hl]; simp [LPc.willDrain, LPc.final]) (by simp [LPc.final]) (by simp [hn]) (by simp)
    · rename_i hl
      simp only [Option.some.injEq] at h
      subst h
      exact inv_move i .ended s.running s.quits (by simp [LPc.rest]) (by simp [LPc.toRead]) (by rw [hl]; rfl)
        (by rw [hl]; simp [LPc.willDrain, LPc.final]) (fun _ => i.fin (by rw [hl]; rfl)) (by simp [hn])
        (fun _ => i.inLoop0 (Or.inl hl))
    · simp at h
  · simp at h

theorem step_inv {s s' : St} {l : Lab} (i : Inv s) (h : s.step l = some s') : Inv s' := by
  unfold St.step at h
  split at h
  · simp at h
  · cases l with
    | post p t => exact inv_post i h
    | enqueue p => exact inv_enqueue i h
    | tas p => exact inv_tas i h
    | notify p => exact inv_notify i h
    | quit =>
      simp only [St.stepB, Option.some.injEq] at h
      subst h
      obtain ⟨i1, i2, i3, i4, i5, i6, i7, i8, i9, i10, i11, i12, i13⟩ := i
      refine ⟨?_, i2, i3, i4, i5, i6, i7, i8, i9, i10, i11, i12, i13⟩
      intro w; have := i1 w; cases w <;> exact this
    | loopPost t => exact inv_loopPost i h
    | top => exact inv_top i h
    | poll evs => exact inv_poll i h
    | dispatch => exact inv_dispatch i h
    | read => exact inv_read i h
    | clear => exact inv_clear i h
    | deq p => exact inv_deq i h
    | drained => exact inv_drained i h
    | nested => exact inv_nested i h
    | runNest => exact inv_runNest i h
    | batchEnd => exact inv_batchEnd i h

theorem reach_inv {s : St} (h : Reach s) : Inv s := by
  induction h with
  | init => exact inv_init
  | step _ hs ih => exact step_inv ih hs

end Ltio.Loop.Msg
