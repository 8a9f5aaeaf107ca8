import Mathlib.Data.List.Perm.Basic
/-
Model of delayed tasks and of tasks with a reply: `MessageLoop::PostDelayTask` (base/message_loop/message_loop.cc:279-291),
`TimerTaskHelper` (base/message_loop/timer_task_helper.cc), `MessageLoop::PostTaskAndReply`
(base/message_loop/message_loop.h:82-104) and `TaskWithCleanup` (base/closure/closure_task.h:81-107), for any number of loops
and threads.

What a loop has still to do is one list of items: posted tasks and timers.  The environment chooses which posted task a loop
runs next (C63 says more: in order) and which due timer fires next (C26, C59: a timer fires exactly if its time has
come).  Time is `time_ms()`, a monotonic clock (base/time/time_utils.cc:23-39).  A loop that was stopped runs nothing, and posting
to it aborts the process (`CHECK(running_)`, message_loop.cc:280, 294).
-/
namespace Ltio.Loop.Delay

/-- `const uint64_t delay_ms_`, `schedule_time_`; `has_passed_time` and `new_delay_ms` of `TimerTaskHelper::Run`
(timer_task_helper.cc:19-21), in 64-bit arithmetic. -/
def remaining (delay sched now : Nat) : Int :=
  (BitVec.ofNat 64 delay - (BitVec.ofNat 64 now - BitVec.ofNat 64 sched)).toInt

/-- What can wait in a loop. -/
inductive Item where
  /-- a plain closure (`Closure0`) -/
  | task (id : Nat)
  /-- `TaskWithCleanup`: the task, the reply, and where the reply goes (`none`: `reply_loop == nullptr`) -/
  | withReply (id reply : Nat) (dst : Option Nat)
  /-- `TimerTaskHelper` -/
  | helper (id delay sched : Nat)
  /-- a one-shot `TimeoutEvent` in the wheel -/
  | timer (id deadline : Nat)
deriving DecidableEq, Repr

/-- A call of a user's function: the loop it ran on, which one, when. -/
structure Ran where
  loop : Nat
  id : Nat
  time : Nat
deriving DecidableEq, Repr

structure St where
  now : Nat := 0
  running : Nat → Bool := fun _ => true
  pend : List (Nat × Item) := []
  log : List Ran := []
  aborted : Bool := false

inductive Lab where
  /-- `PostTask(location, f)` -/
  | post (l id : Nat)
  /-- `PostTaskAndReply(location, task, reply, reply_loop)` -/
  | postReply (l id reply : Nat) (dst : Option Nat)
  /-- `PostTaskAndReply(location, task, reply)` called on loop `caller` (if any) -/
  | postReplyHere (l id reply : Nat) (caller : Option Nat)
  /-- `PostDelayTask(task, ms)`, from the loop's own thread or not -/
  | postDelay (l id ms : Nat) (inLoop : Bool)
  /-- the loop runs the item at position `k` of the list, a posted task or a due timer -/
  | run (k : Nat)
  /-- time passes -/
  | tick (ms : Nat)
  /-- the loop ends -/
  | stop (l : Nat)
deriving DecidableEq, Repr

/-- `PostTask` (message_loop.cc:293-303). -/
def St.post (s : St) (l : Nat) (i : Item) : St :=
  if s.running l = true then { s with pend := s.pend ++ [(l, i)] } else { s with aborted := true }

/-- A user's function runs. -/
def St.call (s : St) (l id : Nat) : St := { s with log := s.log ++ [⟨l, id, s.now⟩] }

/-- `Run()` of an item on loop `l`; `none`: a timer that is not due. -/
def St.exec (s : St) (l : Nat) : Item → Option St
  | .task id => some (s.call l id)
  | .withReply id r none => some ((s.call l id).call l r)                       -- closure_task.h:90-103
  | .withReply id r (some t) => some ((s.call l id).post t (.task r))           -- message_loop.h:100-102
  | .helper id delay sched =>                                                   -- timer_task_helper.cc:18-29
    if remaining delay sched s.now ≤ 0 then some (s.call l id)
    else some { s with pend := s.pend ++ [(l, .timer id (s.now + (remaining delay sched s.now).toNat))] }
  | .timer id deadline => if deadline ≤ s.now then some (s.call l id) else none -- event_pump.cc:112-125

def St.step (s : St) (lab : Lab) : Option St :=
  if s.aborted = true then none else
  match lab with
  | .post l id => some (s.post l (.task id))
  | .postReply l id r dst => some (s.post l (.withReply id r dst))
  | .postReplyHere l id r _ => some (s.post l (.withReply id r (some l)))       -- message_loop.h:86-90: `this`
  | .postDelay l id ms inLoop =>
    if s.running l = true then
      if inLoop = true then some { s with pend := s.pend ++ [(l, .timer id (s.now + ms))] }   -- message_loop.cc:286-289
      else some (s.post l (.helper id ms s.now))
    else some { s with aborted := true }
  | .run k =>
    match s.pend[k]? with
    | none => none
    | some (l, i) => if s.running l = true then St.exec { s with pend := s.pend.eraseIdx k } l i else none
  | .tick ms => some { s with now := s.now + ms }
  | .stop l => some { s with running := fun x => if x = l then false else s.running x }

def St.run (s : St) : List Lab → Option St
  | [] => some s
  | l :: t => match s.step l with
    | none => none
    | some s' => St.run s' t

/-! ### Specification -/

/-- What the user asked for: run function `id` on loop `loop`, not before `start`. -/
structure Want where
  loop : Nat
  id : Nat
  start : Nat
deriving DecidableEq, Repr

/-- The requests in a history, with the time at which each was made. -/
def wants (now : Nat) : List Lab → List Want
  | [] => []
  | .post l id :: t => ⟨l, id, now⟩ :: wants now t
  | .postReply l id r dst :: t => ⟨l, id, now⟩ :: ⟨dst.getD l, r, now⟩ :: wants now t
  | .postReplyHere l id r _ :: t => ⟨l, id, now⟩ :: ⟨l, r, now⟩ :: wants now t
  | .postDelay l id ms _ :: t => ⟨l, id, now + ms⟩ :: wants now t
  | .tick ms :: t => wants (now + ms) t
  | _ :: t => wants now t

/-- The pairs task, reply of a history. -/
def replies : List Lab → List (Nat × Nat)
  | [] => []
  | .postReply _ id r _ :: t => (id, r) :: replies t
  | .postReplyHere _ id r _ :: t => (id, r) :: replies t
  | _ :: t => replies t

/-- Delays fit `uint32_t`, the clock stays below 2^62 ms. -/
def Sane (now : Nat) : List Lab → Prop
  | [] => now < 2 ^ 62
  | .postDelay _ _ ms _ :: t => ms < 2 ^ 32 ∧ Sane now t
  | .tick ms :: t => Sane (now + ms) t
  | _ :: t => Sane now t

/-! ### Arithmetic -/

theorem remaining_eq (delay sched now : Nat) (hd : delay < 2 ^ 32) (hs : sched ≤ now) (hn : now < 2 ^ 62) :
    remaining delay sched now = (sched : Int) + delay - now := by
  unfold remaining
  rw [BitVec.toInt_sub, BitVec.toInt_sub, BitVec.toInt_ofNat', BitVec.toInt_ofNat', BitVec.toInt_ofNat']
  simp only [Int.bmod_def]
  omega

/-! ### Items and wants -/

/-- What an item waiting since before `now` still stands for. -/
def Item.wants (l : Nat) : Item → List (Nat × Nat)
  | .task id => [(l, id)]
  | .withReply id r dst => [(l, id), (dst.getD l, r)]
  | .helper id _ _ => [(l, id)]
  | .timer id _ => [(l, id)]

def pendWants (p : List (Nat × Item)) : List (Nat × Nat) := p.flatMap (fun x => x.2.wants x.1)

def key (w : Want) : Nat × Nat := (w.loop, w.id)
def rkey (r : Ran) : Nat × Nat := (r.loop, r.id)

theorem wants_mono (now : Nat) (h : List Lab) : ∀ w ∈ wants now h, now ≤ w.start := by
  fun_induction wants now h with
  | case1 => intro w hw; simp at hw
  | case2 now l id t ih => intro w hw; rcases List.mem_cons.1 hw with rfl | hw; exact Nat.le_refl _; exact ih w hw
  | case3 now l id r dst t ih =>
    intro w hw
    rcases List.mem_cons.1 hw with rfl | hw
    · exact Nat.le_refl _
    · rcases List.mem_cons.1 hw with rfl | hw
      · exact Nat.le_refl _
      · exact ih w hw
  | case4 now l id r c t ih =>
    intro w hw
    rcases List.mem_cons.1 hw with rfl | hw
    · exact Nat.le_refl _
    · rcases List.mem_cons.1 hw with rfl | hw
      · exact Nat.le_refl _
      · exact ih w hw
  | case5 now l id ms b t ih =>
    intro w hw
    rcases List.mem_cons.1 hw with rfl | hw
    · exact Nat.le_add_right _ _
    · exact ih w hw
  | case6 now ms t ih => intro w hw; exact Nat.le_trans (Nat.le_add_right _ _) (ih w hw)
  | case7 now x t _ _ _ _ _ ih => exact ih

theorem pend_split {p : List (Nat × Item)} {k : Nat} {x : Nat × Item} (h : p[k]? = some x) :
    p.Perm (x :: p.eraseIdx k) := by
  induction p generalizing k with
  | nil => simp at h
  | cons a t ih =>
    cases k with
    | zero => simp only [List.getElem?_cons_zero, Option.some.injEq] at h; subst h; exact List.Perm.refl _
    | succ k =>
      rw [List.getElem?_cons_succ] at h
      rw [List.eraseIdx_cons_succ]
      exact ((ih h).cons a).trans (List.Perm.swap x a _)

theorem pendWants_perm {p q : List (Nat × Item)} (h : p.Perm q) : (pendWants p).Perm (pendWants q) := h.flatMap_right _

theorem pendWants_append (p q : List (Nat × Item)) : pendWants (p ++ q) = pendWants p ++ pendWants q := by
  simp [pendWants]

/-- Everything asked for so far: done or waiting. -/
def St.account (s : St) : List (Nat × Nat) := s.log.map rkey ++ pendWants s.pend

theorem account_call (s : St) (l id : Nat) : (s.call l id).account.Perm ((l, id) :: s.account) := by
  simp only [St.account, St.call, List.map_append, List.map_cons, List.map_nil, List.append_assoc, List.singleton_append, rkey]
  exact List.perm_middle

theorem account_push (s : St) (x : Nat × Item) : ({ s with pend := s.pend ++ [x] } : St).account.Perm (x.2.wants x.1 ++ s.account) := by
  simp only [St.account, pendWants_append]
  have : pendWants [x] = x.2.wants x.1 := by simp [pendWants]
  rw [this, ← List.append_assoc]
  exact List.perm_append_comm

theorem account_pop (s : St) {k : Nat} {l : Nat} {i : Item} (h : s.pend[k]? = some (l, i)) :
    s.account.Perm (i.wants l ++ ({ s with pend := s.pend.eraseIdx k } : St).account) := by
  simp only [St.account]
  have h1 := pendWants_perm (pend_split h)
  have h2 : pendWants ((l, i) :: s.pend.eraseIdx k) = i.wants l ++ pendWants (s.pend.eraseIdx k) := by simp [pendWants]
  rw [h2] at h1
  refine (List.Perm.append_left _ h1).trans ?_
  rw [← List.append_assoc, ← List.append_assoc]
  exact List.Perm.append_right _ List.perm_append_comm

theorem account_exec {s s' : St} {l : Nat} {i : Item} (h : s.exec l i = some s') (ha : s'.aborted = false) :
    s'.account.Perm (i.wants l ++ s.account) := by
  cases i with
  | task id =>
    simp only [St.exec, Option.some.injEq] at h; subst h
    exact account_call s l id
  | withReply id r dst =>
    cases dst with
    | none =>
      simp only [St.exec, Option.some.injEq] at h; subst h
      refine (account_call (s.call l id) l r).trans ?_
      refine ((account_call s l id).cons (l, r)).trans ?_
      exact List.Perm.swap _ _ _
    | some t =>
      simp only [St.exec, Option.some.injEq, St.post] at h
      split at h
      · subst h
        refine (account_push (s.call l id) (t, .task r)).trans ?_
        refine ((account_call s l id).append_left _).trans ?_
        exact List.Perm.swap _ _ _
      · subst h; simp at ha
  | helper id d sc =>
    simp only [St.exec] at h
    split at h
    · simp only [Option.some.injEq] at h; subst h
      exact account_call s l id
    · simp only [Option.some.injEq] at h; subst h
      exact account_push s _
  | timer id dl =>
    simp only [St.exec] at h
    split at h
    · simp only [Option.some.injEq] at h; subst h
      exact account_call s l id
    · simp at h

theorem step_aborted {s s' : St} {lab : Lab} (h : s.step lab = some s') : s.aborted = false := by
  unfold St.step at h
  split at h
  · simp at h
  · rename_i hh; simpa using hh

theorem run_aborted {s s' : St} {h : List Lab} (hr : s.run h = some s') (ha : s'.aborted = false) : s.aborted = false := by
  cases h with
  | nil => simp only [St.run, Option.some.injEq] at hr; subst hr; exact ha
  | cons l t =>
    simp only [St.run] at hr
    cases hs : s.step l with
    | none => rw [hs] at hr; simp at hr
    | some s1 => exact step_aborted hs

theorem exec_now {s s' : St} {l : Nat} {i : Item} (h : s.exec l i = some s') : s'.now = s.now := by
  cases i with
  | task id => simp only [St.exec, Option.some.injEq] at h; subst h; rfl
  | withReply id r dst =>
    cases dst with
    | none => simp only [St.exec, Option.some.injEq] at h; subst h; rfl
    | some t =>
      simp only [St.exec, Option.some.injEq, St.post] at h
      split at h <;> (subst h; rfl)
  | helper id d sc => simp only [St.exec] at h; split at h <;> (simp only [Option.some.injEq] at h; subst h; rfl)
  | timer id dl =>
    simp only [St.exec] at h
    split at h
    · simp only [Option.some.injEq] at h; subst h; rfl
    · simp at h

/-- What one step adds to the account and to the clock. -/
theorem step_account {s s' : St} {lab : Lab} {t : List Lab} (h : s.step lab = some s') (ha : s'.aborted = false) :
    ∃ add : List (Nat × Nat), s'.account.Perm (add ++ s.account) ∧
      (wants s.now (lab :: t)).map key = add ++ (wants s'.now t).map key := by
  unfold St.step at h
  split at h
  · simp at h
  · cases lab with
    | post l id =>
      simp only [Option.some.injEq, St.post] at h
      split at h
      · subst h; exact ⟨[(l, id)], account_push s (l, .task id), rfl⟩
      · subst h; simp at ha
    | postReply l id r dst =>
      simp only [Option.some.injEq, St.post] at h
      split at h
      · subst h; exact ⟨[(l, id), (dst.getD l, r)], account_push s (l, .withReply id r dst), rfl⟩
      · subst h; simp at ha
    | postReplyHere l id r c =>
      simp only [Option.some.injEq, St.post] at h
      split at h
      · subst h; exact ⟨[(l, id), (l, r)], account_push s (l, .withReply id r (some l)), rfl⟩
      · subst h; simp at ha
    | postDelay l id ms b =>
      simp only [] at h
      split at h
      · rename_i hrun
        split at h
        · simp only [Option.some.injEq] at h; subst h
          exact ⟨[(l, id)], account_push s (l, .timer id (s.now + ms)), rfl⟩
        · simp only [Option.some.injEq, St.post, hrun, if_true] at h; subst h
          exact ⟨[(l, id)], account_push s (l, .helper id ms s.now), rfl⟩
      · simp only [Option.some.injEq] at h; subst h; simp at ha
    | run k =>
      simp only [] at h
      cases hk : s.pend[k]? with
      | none => rw [hk] at h; simp at h
      | some x =>
        obtain ⟨l, i⟩ := x
        rw [hk] at h
        simp only [] at h
        split at h
        · refine ⟨[], ?_, ?_⟩
          · exact (account_exec h ha).trans (account_pop s hk).symm
          · rw [exec_now h]; rfl
        · simp at h
    | tick ms => simp only [Option.some.injEq] at h; subst h; exact ⟨[], List.Perm.refl _, rfl⟩
    | stop l => simp only [Option.some.injEq] at h; subst h; exact ⟨[], List.Perm.refl _, rfl⟩

theorem account_run {s s' : St} {h : List Lab} (hr : s.run h = some s') (ha : s'.aborted = false) :
    s'.account.Perm (s.account ++ (wants s.now h).map key) := by
  induction h generalizing s with
  | nil => simp only [St.run, Option.some.injEq] at hr; subst hr; simp [wants]
  | cons l t ih =>
    simp only [St.run] at hr
    cases hs : s.step l with
    | none => rw [hs] at hr; simp at hr
    | some s1 =>
      rw [hs] at hr
      simp only [] at hr
      obtain ⟨add, h1, h2⟩ := step_account (t := t) hs (run_aborted hr ha)
      rw [h2]
      refine (ih hr).trans ?_
      refine (h1.append_right _).trans ?_
      rw [List.append_assoc]
      refine (List.perm_append_comm).trans ?_
      rw [List.append_assoc]
      refine List.Perm.append_left _ ?_
      exact List.perm_append_comm

/-! ### Not too early -/

/-- The item is justified by the wants `W`, given the present time. -/
def Item.Ok (W : List Want) (now l : Nat) : Item → Prop
  | .task id => ∃ w ∈ W, key w = (l, id) ∧ w.start ≤ now
  | .withReply id r dst => (∃ w ∈ W, key w = (l, id) ∧ w.start ≤ now) ∧ (∃ w ∈ W, key w = (dst.getD l, r) ∧ w.start ≤ now)
  | .helper id d sc => (∃ w ∈ W, key w = (l, id) ∧ w.start = sc + d) ∧ d < 2 ^ 32 ∧ sc ≤ now
  | .timer id dl => ∃ w ∈ W, key w = (l, id) ∧ w.start = dl

structure TInv (W : List Want) (s : St) : Prop where
  pend : ∀ x ∈ s.pend, x.2.Ok W s.now x.1
  log : ∀ x ∈ s.log, ∃ w ∈ W, key w = rkey x ∧ w.start ≤ x.time ∧ x.time ≤ s.now

theorem Item.Ok.mono {W : List Want} {n n' l : Nat} {i : Item} (h : i.Ok W n l) (hn : n ≤ n') : i.Ok W n' l := by
  cases i with
  | task id => obtain ⟨w, h1, h2, h3⟩ := h; exact ⟨w, h1, h2, Nat.le_trans h3 hn⟩
  | withReply id r dst =>
    obtain ⟨⟨w, h1, h2, h3⟩, ⟨v, g1, g2, g3⟩⟩ := h
    exact ⟨⟨w, h1, h2, Nat.le_trans h3 hn⟩, ⟨v, g1, g2, Nat.le_trans g3 hn⟩⟩
  | helper id d sc => exact ⟨h.1, h.2.1, Nat.le_trans h.2.2 hn⟩
  | timer id dl => exact h

theorem Item.Ok.weaken {W W' : List Want} {n l : Nat} {i : Item} (h : i.Ok W n l) (hs : ∀ w ∈ W, w ∈ W') : i.Ok W' n l := by
  cases i with
  | task id => obtain ⟨w, h1, h2⟩ := h; exact ⟨w, hs w h1, h2⟩
  | withReply id r dst =>
    obtain ⟨⟨w, h1, h2⟩, ⟨v, g1, g2⟩⟩ := h
    exact ⟨⟨w, hs w h1, h2⟩, ⟨v, hs v g1, g2⟩⟩
  | helper id d sc => obtain ⟨⟨w, h1, h2⟩, h3⟩ := h; exact ⟨⟨w, hs w h1, h2⟩, h3⟩
  | timer id dl => obtain ⟨w, h1, h2⟩ := h; exact ⟨w, hs w h1, h2⟩

theorem TInv.weaken {W W' : List Want} {s : St} (h : TInv W s) (hs : ∀ w ∈ W, w ∈ W') : TInv W' s :=
  ⟨fun x hx => (h.pend x hx).weaken hs, fun x hx => by obtain ⟨w, h1, h2⟩ := h.log x hx; exact ⟨w, hs w h1, h2⟩⟩

theorem TInv.push {W : List Want} {s : St} (h : TInv W s) (l : Nat) (i : Item) (hi : i.Ok W s.now l) :
    TInv W { s with pend := s.pend ++ [(l, i)] } := by
  refine ⟨?_, h.log⟩
  intro x hx
  rcases List.mem_append.1 hx with hx | hx
  · exact h.pend x hx
  · rw [List.mem_singleton] at hx; subst hx; exact hi

theorem TInv.call {W : List Want} {s : St} (h : TInv W s) (l id : Nat) (hw : ∃ w ∈ W, key w = (l, id) ∧ w.start ≤ s.now) :
    TInv W (s.call l id) := by
  refine ⟨h.pend, ?_⟩
  intro x hx
  rcases List.mem_append.1 hx with hx | hx
  · exact h.log x hx
  · rw [List.mem_singleton] at hx; subst hx
    obtain ⟨w, h1, h2, h3⟩ := hw
    exact ⟨w, h1, h2, h3, Nat.le_refl _⟩

theorem TInv.exec {W : List Want} {s s' : St} {l : Nat} {i : Item} (h : TInv W s) (hi : i.Ok W s.now l) (hn : s.now < 2 ^ 62)
    (he : s.exec l i = some s') : TInv W s' := by
  cases i with
  | task id => simp only [St.exec, Option.some.injEq] at he; subst he; exact h.call l id hi
  | withReply id r dst =>
    cases dst with
    | none =>
      simp only [St.exec, Option.some.injEq] at he; subst he
      exact (h.call l id hi.1).call l r hi.2
    | some t =>
      simp only [St.exec, Option.some.injEq, St.post] at he
      have h1 := h.call l id hi.1
      split at he
      · subst he; exact h1.push t (.task r) hi.2
      · subst he; exact ⟨h1.pend, h1.log⟩
  | helper id d sc =>
    obtain ⟨⟨w, h1, h2, h3⟩, h4, h5⟩ := hi
    have hr := remaining_eq d sc s.now h4 h5 hn
    simp only [St.exec] at he
    split at he
    · rename_i hle
      simp only [Option.some.injEq] at he; subst he
      exact h.call l id ⟨w, h1, h2, by omega⟩
    · rename_i hle
      simp only [Option.some.injEq] at he; subst he
      refine h.push l (.timer id _) ⟨w, h1, h2, ?_⟩
      omega
  | timer id dl =>
    obtain ⟨w, h1, h2, h3⟩ := hi
    simp only [St.exec] at he
    split at he
    · simp only [Option.some.injEq] at he; subst he
      exact h.call l id ⟨w, h1, h2, by omega⟩
    · simp at he

theorem sane_now {now : Nat} {h : List Lab} (hs : Sane now h) : now < 2 ^ 62 := by
  fun_induction Sane now h with
  | case1 => exact hs
  | case2 now l id ms b t ih => exact ih hs.2
  | case3 now ms t ih => have := ih hs; omega
  | case4 now x t _ _ ih => exact ih hs

theorem tinv_run {s s' : St} {h : List Lab} (W : List Want) (hi : TInv W s) (hsane : Sane s.now h) (hr : s.run h = some s') :
    TInv (W ++ wants s.now h) s' := by
  induction h generalizing s W with
  | nil =>
    simp only [St.run, Option.some.injEq] at hr; subst hr
    exact hi.weaken (fun w hw => List.mem_append_left _ hw)
  | cons l t ih =>
    simp only [St.run] at hr
    cases hs : s.step l with
    | none => rw [hs] at hr; simp at hr
    | some s1 =>
      rw [hs] at hr
      simp only [] at hr
      have hn := sane_now hsane
      unfold St.step at hs
      split at hs
      · simp at hs
      · cases l with
        | post l id =>
          simp only [Option.some.injEq, St.post] at hs
          have hw : TInv (W ++ [⟨l, id, s.now⟩]) s := hi.weaken (fun w hw => List.mem_append_left _ hw)
          have : TInv (W ++ [⟨l, id, s.now⟩]) s1 ∧ s1.now = s.now := by
            split at hs
            · subst hs
              exact ⟨hw.push l (.task id) ⟨⟨l, id, s.now⟩, by simp, rfl, Nat.le_refl _⟩, rfl⟩
            · subst hs; exact ⟨⟨hw.pend, hw.log⟩, rfl⟩
          have key := ih (W ++ [⟨l, id, s.now⟩]) this.1 (by rw [this.2]; exact hsane) hr
          rw [this.2] at key
          simpa [wants, List.append_assoc] using key
        | postReply l id r dst =>
          simp only [Option.some.injEq, St.post] at hs
          have hw : TInv (W ++ [⟨l, id, s.now⟩, ⟨dst.getD l, r, s.now⟩]) s := hi.weaken (fun w hw => List.mem_append_left _ hw)
          have : TInv (W ++ [⟨l, id, s.now⟩, ⟨dst.getD l, r, s.now⟩]) s1 ∧ s1.now = s.now := by
            split at hs
            · subst hs
              exact ⟨hw.push l (.withReply id r dst) ⟨⟨⟨l, id, s.now⟩, by simp, rfl, Nat.le_refl _⟩, ⟨⟨dst.getD l, r, s.now⟩, by simp, rfl, Nat.le_refl _⟩⟩, rfl⟩
            · subst hs; exact ⟨⟨hw.pend, hw.log⟩, rfl⟩
          have key := ih _ this.1 (by rw [this.2]; exact hsane) hr
          rw [this.2] at key
          simpa [wants, List.append_assoc] using key
        | postReplyHere l id r c =>
          simp only [Option.some.injEq, St.post] at hs
          have hw : TInv (W ++ [⟨l, id, s.now⟩, ⟨l, r, s.now⟩]) s := hi.weaken (fun w hw => List.mem_append_left _ hw)
          have : TInv (W ++ [⟨l, id, s.now⟩, ⟨l, r, s.now⟩]) s1 ∧ s1.now = s.now := by
            split at hs
            · subst hs
              exact ⟨hw.push l (.withReply id r (some l)) ⟨⟨⟨l, id, s.now⟩, by simp, rfl, Nat.le_refl _⟩, ⟨⟨l, r, s.now⟩, by simp, rfl, Nat.le_refl _⟩⟩, rfl⟩
            · subst hs; exact ⟨⟨hw.pend, hw.log⟩, rfl⟩
          have key := ih _ this.1 (by rw [this.2]; exact hsane) hr
          rw [this.2] at key
          simpa [wants, List.append_assoc] using key
        | postDelay l id ms b =>
          simp only [] at hs
          have hw : TInv (W ++ [⟨l, id, s.now + ms⟩]) s := hi.weaken (fun w hw => List.mem_append_left _ hw)
          have : TInv (W ++ [⟨l, id, s.now + ms⟩]) s1 ∧ s1.now = s.now := by
            split at hs
            · rename_i hrun
              split at hs
              · simp only [Option.some.injEq] at hs; subst hs
                exact ⟨hw.push l (.timer id (s.now + ms)) ⟨⟨l, id, s.now + ms⟩, by simp, rfl, rfl⟩, rfl⟩
              · simp only [Option.some.injEq, St.post, hrun, if_true] at hs; subst hs
                exact ⟨hw.push l (.helper id ms s.now) ⟨⟨⟨l, id, s.now + ms⟩, by simp, rfl, rfl⟩, hsane.1, Nat.le_refl _⟩, rfl⟩
            · simp only [Option.some.injEq] at hs; subst hs; exact ⟨⟨hw.pend, hw.log⟩, rfl⟩
          have key := ih _ this.1 (by rw [this.2]; exact hsane.2) hr
          rw [this.2] at key
          simpa [wants, List.append_assoc] using key
        | run k =>
          simp only [] at hs
          cases hk : s.pend[k]? with
          | none => rw [hk] at hs; simp at hs
          | some x =>
            obtain ⟨l, i⟩ := x
            rw [hk] at hs
            simp only [] at hs
            split at hs
            · have hx := hi.pend (l, i) (List.mem_of_getElem? hk)
              have hi' : TInv W { s with pend := s.pend.eraseIdx k } :=
                ⟨fun y hy => hi.pend y (List.mem_of_mem_eraseIdx hy), hi.log⟩
              have := hi'.exec hx hn hs
              have hnow : s1.now = ({ s with pend := s.pend.eraseIdx k } : St).now := exec_now hs
              have key := ih W this (by rw [hnow]; exact hsane) hr
              rw [hnow] at key
              exact key
            · simp at hs
        | tick ms =>
          simp only [Option.some.injEq] at hs; subst hs
          have : TInv W { s with now := s.now + ms } :=
            ⟨fun x hx => (hi.pend x hx).mono (Nat.le_add_right _ _), fun x hx => by
              obtain ⟨w, h1, h2, h3, h4⟩ := hi.log x hx
              exact ⟨w, h1, h2, h3, Nat.le_trans h4 (Nat.le_add_right _ _)⟩⟩
          exact ih W this hsane hr
        | stop l =>
          simp only [Option.some.injEq] at hs; subst hs
          exact ih W (s := { s with running := fun x => if x = l then false else s.running x }) ⟨hi.pend, hi.log⟩ hsane hr

/-! ### Theorems -/

/-- **C150.** Nothing is lost, doubled or misdirected: what has run plus what is waiting is, function for function and loop
for loop, exactly what was posted — plain tasks, delayed tasks (from the loop or from elsewhere), tasks and their
replies. -/
theorem c150_exactly_once {h : List Lab} {s : St} (hr : St.run {} h = some s) (ha : s.aborted = false) :
    (s.log.map rkey ++ pendWants s.pend).Perm ((wants 0 h).map key) := by
  have := account_run hr ha
  simpa [St.account, pendWants] using this

/-- **C150.** Nothing runs too early: everything that ran was asked for, on the loop it ran on, and a delayed task ran
at the earliest its delay after it was posted. -/
theorem c150_not_early {h : List Lab} {s : St} (hsane : Sane 0 h) (hr : St.run {} h = some s) :
    ∀ x ∈ s.log, ∃ w ∈ wants 0 h, w.loop = x.loop ∧ w.id = x.id ∧ w.start ≤ x.time := by
  have := tinv_run (s := {}) [] ⟨by simp, by simp⟩ hsane hr
  intro x hx
  obtain ⟨w, h1, h2, h3, _⟩ := this.log x hx
  simp only [key, rkey, Prod.mk.injEq] at h2
  exact ⟨w, by simpa using h1, h2.1, h2.2, h3⟩

/-- **C150.** Nothing waits too long: whatever waits on a running loop can run as soon as its time has come — and what is
not a task posted for immediate running is a timer set for exactly the requested moment, or on its way to be one. -/
theorem c150_when_due {h : List Lab} {s : St} (hsane : Sane 0 h) (hr : St.run {} h = some s) (ha : s.aborted = false)
    (k l : Nat) (i : Item) (hk : s.pend[k]? = some (l, i)) (hrun : s.running l = true) :
    (∃ s', s.step (.run k) = some s') ∨
    (∃ id deadline, i = .timer id deadline ∧ s.now < deadline ∧ ∃ w ∈ wants 0 h, w.loop = l ∧ w.id = id ∧ w.start = deadline) := by
  have hi := (tinv_run (s := {}) [] ⟨by simp, by simp⟩ hsane hr).pend (l, i) (List.mem_of_getElem? hk)
  have hst : s.step (.run k) = St.exec { s with pend := s.pend.eraseIdx k } l i := by
    unfold St.step
    rw [if_neg (by rw [ha]; simp)]
    simp only [hk, hrun, if_true]
  rw [hst]
  cases i with
  | task id => exact Or.inl ⟨_, rfl⟩
  | withReply id r dst => cases dst <;> exact Or.inl ⟨_, rfl⟩
  | helper id d sc =>
    left
    simp only [St.exec]
    split <;> exact ⟨_, rfl⟩
  | timer id dl =>
    by_cases hd : dl ≤ s.now
    · left; exact ⟨St.call { s with pend := s.pend.eraseIdx k } l id, by simp only [St.exec]; exact if_pos hd⟩
    · right
      obtain ⟨w, h1, h2, h3⟩ := hi
      simp only [key, Prod.mk.injEq] at h2
      exact ⟨id, dl, rfl, by omega, w, by simpa using h1, h2.1, h2.2, h3⟩

/-- **C150.** A task posted with a delay from another thread is, when the loop gets to it, either run at once if its time
has come, or becomes a timer for exactly the requested moment. -/
theorem c150_helper (s : St) (l id ms sched : Nat) (hd : ms < 2 ^ 32) (hs : sched ≤ s.now) (hn : s.now < 2 ^ 62) :
    (sched + ms ≤ s.now → s.exec l (.helper id ms sched) = some (s.call l id)) ∧
    (s.now < sched + ms → s.exec l (.helper id ms sched) = some { s with pend := s.pend ++ [(l, .timer id (sched + ms))] }) := by
  have hr := remaining_eq ms sched s.now hd hs hn
  constructor
  · intro h
    simp only [St.exec]
    rw [if_pos (by omega)]
  · intro h
    simp only [St.exec]
    rw [if_neg (by omega)]
    congr 6
    omega

/-! ### Replies -/

theorem step_log {s s' : St} {lab : Lab} (h : s.step lab = some s') : s.log <+: s'.log := by
  unfold St.step at h
  split at h
  · simp at h
  · cases lab with
    | run k =>
      simp only [] at h
      cases hk : s.pend[k]? with
      | none => rw [hk] at h; simp at h
      | some x =>
        obtain ⟨l, i⟩ := x
        rw [hk] at h
        simp only [] at h
        split at h
        · cases i with
          | task id => simp only [St.exec, Option.some.injEq] at h; subst h; exact List.prefix_append _ _
          | withReply id r dst =>
            cases dst with
            | none =>
              simp only [St.exec, Option.some.injEq] at h; subst h
              exact (List.prefix_append _ _).trans (List.prefix_append _ _)
            | some t =>
              simp only [St.exec, Option.some.injEq, St.post] at h
              split at h <;> (subst h; exact List.prefix_append _ _)
          | helper id d sc =>
            simp only [St.exec] at h
            split at h
            · simp only [Option.some.injEq] at h; subst h; exact List.prefix_append _ _
            · simp only [Option.some.injEq] at h; subst h; exact List.prefix_refl _
          | timer id dl =>
            simp only [St.exec] at h
            split at h
            · simp only [Option.some.injEq] at h; subst h; exact List.prefix_append _ _
            · simp at h
        · simp at h
    | post l id => simp only [Option.some.injEq, St.post] at h; split at h <;> (subst h; exact List.prefix_refl _)
    | postReply l id r dst => simp only [Option.some.injEq, St.post] at h; split at h <;> (subst h; exact List.prefix_refl _)
    | postReplyHere l id r c => simp only [Option.some.injEq, St.post] at h; split at h <;> (subst h; exact List.prefix_refl _)
    | postDelay l id ms b =>
      simp only [] at h
      split at h
      · rename_i hrun
        split at h
        · simp only [Option.some.injEq] at h; subst h; exact List.prefix_refl _
        · simp only [Option.some.injEq, St.post, hrun, if_true] at h; subst h; exact List.prefix_refl _
      · simp only [Option.some.injEq] at h; subst h; exact List.prefix_refl _
    | tick ms => simp only [Option.some.injEq] at h; subst h; exact List.prefix_refl _
    | stop l => simp only [Option.some.injEq] at h; subst h; exact List.prefix_refl _

/-- In `log`, every occurrence of function `r` comes after one of `id`. -/
def After (log : List Ran) (id r : Nat) : Prop := ∀ a x b, log = a ++ x :: b → x.id = r → ∃ y ∈ a, y.id = id

theorem After.snoc {log : List Ran} {id r : Nat} (h : After log id r) (x : Ran) (hx : x.id = r → ∃ y ∈ log, y.id = id) :
    After (log ++ [x]) id r := by
  intro a y b he hy
  rcases List.eq_nil_or_concat b with rfl | ⟨b', z, rfl⟩
  · have h1 := List.append_inj' (show log ++ [x] = a ++ [y] from he) rfl
    have h2 : x = y := by simpa using h1.2
    rw [← h1.1]
    exact hx (h2 ▸ hy)
  · have h0 : log ++ [x] = (a ++ y :: b') ++ [z] := by rw [he]; simp
    have h1 := List.append_inj' h0 rfl
    exact h a y b' h1.1 hy

/-- Function `r` is the reply of `id` and nothing else, `id` is no reply: all over the items waiting. -/
def ItemFresh (log : List Ran) (id r : Nat) : Item → Prop
  | .task x => x = r → ∃ y ∈ log, y.id = id
  | .withReply x y _ => x ≠ r ∧ (y = r → x = id)
  | .helper x _ _ => x ≠ r
  | .timer x _ => x ≠ r

/-- The labels that post `r` do it as a reply to `id`. -/
def LabFresh (id r : Nat) : Lab → Prop
  | .post _ x => x ≠ r
  | .postReply _ x y _ => x ≠ r ∧ (y = r → x = id)
  | .postReplyHere _ x y _ => x ≠ r ∧ (y = r → x = id)
  | .postDelay _ x _ _ => x ≠ r
  | _ => True

theorem ItemFresh.mono {log log' : List Ran} {id r : Nat} {i : Item} (h : ItemFresh log id r i) (hp : log <+: log') : ItemFresh log' id r i := by
  cases i with
  | task x => intro hx; obtain ⟨y, h1, h2⟩ := h hx; exact ⟨y, hp.subset h1, h2⟩
  | withReply => exact h
  | helper => exact h
  | timer => exact h

theorem after_run {s s' : St} {h : List Lab} {id r : Nat} (hf : ∀ l ∈ h, LabFresh id r l) (h1 : After s.log id r)
    (h2 : ∀ x ∈ s.pend, ItemFresh s.log id r x.2) (hr : s.run h = some s') : After s'.log id r := by
  induction h generalizing s with
  | nil => simp only [St.run, Option.some.injEq] at hr; subst hr; exact h1
  | cons l t ih =>
    simp only [St.run] at hr
    cases hs : s.step l with
    | none => rw [hs] at hr; simp at hr
    | some s1 =>
      rw [hs] at hr
      simp only [] at hr
      have hl := hf l List.mem_cons_self
      have hf' := fun x hx => hf x (List.mem_cons_of_mem _ hx)
      have hpre := step_log hs
      have push : ∀ (n : Nat) (i : Item) (x : Nat × Item), ItemFresh s.log id r i → x ∈ s.pend ++ [(n, i)] → ItemFresh s.log id r x.2 := by
        intro n i x hi hx
        rcases List.mem_append.1 hx with hx | hx
        · exact h2 x hx
        · rw [List.mem_singleton] at hx; subst hx; exact hi
      unfold St.step at hs
      split at hs
      · simp at hs
      · cases l with
        | post l x =>
          simp only [Option.some.injEq, St.post] at hs
          split at hs
          · subst hs; exact ih hf' (s := { s with pend := s.pend ++ [(l, .task x)] }) h1 (fun y hy => push l (.task x) y (fun hc => absurd hc hl) hy) hr
          · subst hs; exact ih hf' (s := { s with aborted := true }) h1 h2 hr
        | postReply l x y dst =>
          simp only [Option.some.injEq, St.post] at hs
          split at hs
          · subst hs; exact ih hf' (s := { s with pend := s.pend ++ [(l, .withReply x y dst)] }) h1 (fun z hz => push l (.withReply x y dst) z hl hz) hr
          · subst hs; exact ih hf' (s := { s with aborted := true }) h1 h2 hr
        | postReplyHere l x y c =>
          simp only [Option.some.injEq, St.post] at hs
          split at hs
          · subst hs; exact ih hf' (s := { s with pend := s.pend ++ [(l, .withReply x y (some l))] }) h1 (fun z hz => push l (.withReply x y (some l)) z hl hz) hr
          · subst hs; exact ih hf' (s := { s with aborted := true }) h1 h2 hr
        | postDelay l x ms b =>
          simp only [] at hs
          split at hs
          · rename_i hrun
            split at hs
            · simp only [Option.some.injEq] at hs; subst hs
              exact ih hf' (s := { s with pend := s.pend ++ [(l, .timer x (s.now + ms))] }) h1 (fun z hz => push l (.timer x (s.now + ms)) z hl hz) hr
            · simp only [Option.some.injEq, St.post, hrun, if_true] at hs; subst hs
              exact ih hf' (s := { s with pend := s.pend ++ [(l, .helper x ms s.now)] }) h1 (fun z hz => push l (.helper x ms s.now) z hl hz) hr
          · simp only [Option.some.injEq] at hs; subst hs; exact ih hf' (s := { s with aborted := true }) h1 h2 hr
        | run k =>
          simp only [] at hs
          cases hk : s.pend[k]? with
          | none => rw [hk] at hs; simp at hs
          | some p =>
            obtain ⟨l, i⟩ := p
            rw [hk] at hs
            simp only [] at hs
            split at hs
            · have hi := h2 (l, i) (List.mem_of_getElem? hk)
              have hrest : ∀ x ∈ s.pend.eraseIdx k, ItemFresh s1.log id r x.2 :=
                fun x hx => (h2 x (List.mem_of_mem_eraseIdx hx)).mono hpre
              cases i with
              | task x =>
                simp only [St.exec, Option.some.injEq] at hs; subst hs
                exact ih hf' (h1.snoc ⟨l, x, s.now⟩ hi) hrest hr
              | withReply x y dst =>
                have a1 : After (s.log ++ [⟨l, x, s.now⟩]) id r := h1.snoc ⟨l, x, s.now⟩ (fun hc => absurd hc hi.1)
                cases dst with
                | none =>
                  simp only [St.exec, Option.some.injEq] at hs; subst hs
                  refine ih hf' (a1.snoc ⟨l, y, s.now⟩ (fun hc => ⟨⟨l, x, s.now⟩, by simp, hi.2 hc⟩)) hrest hr
                | some q =>
                  simp only [St.exec, Option.some.injEq, St.post] at hs
                  split at hs
                  · subst hs
                    refine ih hf' a1 ?_ hr
                    intro z hz
                    rcases List.mem_append.1 hz with hz | hz
                    · exact hrest z hz
                    · rw [List.mem_singleton] at hz; subst hz
                      exact fun hc => ⟨⟨l, x, s.now⟩, by simp [St.call], hi.2 hc⟩
                  · subst hs; exact ih hf' (s := { St.call { s with pend := s.pend.eraseIdx k } l x with aborted := true }) a1 hrest hr
              | helper x d sc =>
                simp only [St.exec] at hs
                split at hs
                · simp only [Option.some.injEq] at hs; subst hs
                  exact ih hf' (h1.snoc ⟨l, x, s.now⟩ (fun hc => absurd hc hi)) hrest hr
                · simp only [Option.some.injEq] at hs; subst hs
                  refine ih hf' (s := { s with pend := s.pend.eraseIdx k ++ [(l, .timer x (s.now + (remaining d sc s.now).toNat))] }) h1 ?_ hr
                  intro z hz
                  rcases List.mem_append.1 hz with hz | hz
                  · exact hrest z hz
                  · rw [List.mem_singleton] at hz; subst hz; exact hi
              | timer x dl =>
                simp only [St.exec] at hs
                split at hs
                · simp only [Option.some.injEq] at hs; subst hs
                  exact ih hf' (h1.snoc ⟨l, x, s.now⟩ (fun hc => absurd hc hi)) hrest hr
                · simp at hs
            · simp at hs
        | tick ms => simp only [Option.some.injEq] at hs; subst hs; exact ih hf' (s := { s with now := s.now + ms }) h1 h2 hr
        | stop l =>
          simp only [Option.some.injEq] at hs; subst hs
          exact ih hf' (s := { s with running := fun x => if x = l then false else s.running x }) h1 h2 hr

/-- **C150.** A reply runs only after its task: in every history in which function `r` is posted as the reply of `id`
only, every run of `r` is preceded by a run of `id`. -/
theorem c150_reply_after {h : List Lab} {s : St} {id r : Nat} (hf : ∀ l ∈ h, LabFresh id r l) (hr : St.run {} h = some s) :
    After s.log id r :=
  after_run (s := {}) hf (by intro a x b he; simp at he) (by simp) hr

/-! ### Violations -/

/-- **C151, violation.** The comment says that the reply runs in the caller's loop if there is one (message_loop.h:82-84); the
code passes `this`, the target (message_loop.h:86-90): called on loop 1, the reply of a task for loop 2 runs on loop 2. -/
theorem c151_reply_loop_violated (id r : Nat) : ∃ s : St,
    St.run {} [.postReplyHere 2 id r (some 1), .run 0, .run 0] = some s ∧ s.log = [⟨2, id, 0⟩, ⟨2, r, 0⟩] := ⟨_, rfl, rfl⟩

/-- **C151, violation.** When the loop that is to run the reply has ended, running the task aborts the process. -/
theorem c151_reply_gone_violated (id r : Nat) : ∃ s : St,
    St.run {} [.postReply 2 id r (some 1), .stop 1, .run 0] = some s ∧ s.aborted = true ∧ s.log = [⟨2, id, 0⟩] := ⟨_, rfl, rfl, rfl⟩

/-- **C151, violation.** A delayed task whose loop ends before its time is dropped without a notice, though `PostDelayTask`
returned true: from then on it never runs. -/
theorem c151_stopped_violated (s : St) (l k id dl : Nat) (hk : s.pend[k]? = some (l, .timer id dl)) (hs : s.running l = false) :
    s.step (.run k) = none := by
  unfold St.step
  split
  · rfl
  · simp [hk, hs]

/-! ### The hypotheses are met -/

/-- A delayed task from elsewhere, one from the loop itself, and a task with a reply on another loop. -/
def sample : List Lab := [.postDelay 1 10 100 false, .postDelay 1 11 5 true, .postReply 2 20 21 (some 1), .tick 30, .run 0, .run 1,
  .run 2, .run 0, .tick 70, .run 0]

example : ∃ s, St.run {} sample = some s ∧ s.log = [⟨2, 20, 30⟩, ⟨1, 21, 30⟩, ⟨1, 11, 30⟩, ⟨1, 10, 100⟩] ∧ s.pend = [] := by
  refine ⟨{ now := 100, log := [⟨2, 20, 30⟩, ⟨1, 21, 30⟩, ⟨1, 11, 30⟩, ⟨1, 10, 100⟩] }, ?_, rfl, rfl⟩
  have e1 : remaining 100 0 30 = 70 := by decide
  simp [St.run, sample, St.step, St.post, St.exec, St.call, e1]

example : Sane 0 sample := by simp [Sane, sample]
example : ∀ l ∈ sample, LabFresh 20 21 l := by simp [sample, LabFresh]

end Ltio.Loop.Delay
