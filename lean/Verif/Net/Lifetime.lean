/-
C197, C198: how long the object of a connection lives: `CodecService` (net_io/codec/codec_service.cc) with its owner, a `Client`
(net_io/clients/client.cc) or an `IOService` (net_io/io_service.cc).

The object is deleted with the last reference to it.  (A client's list refers to the `ClientChannel`, which alone refers to the
codec service: one object here.)  The event handler and the flush task of the http codec (http_codec_service.cc:47-50) have only a plain
pointer.  A handler is a sequence of steps; other threads may run between any two.  What an access does is not modelled, only that it needs the
object; the `TcpChannel` and the `FdEvent` belong to the object.  The owner itself stays (see C179, C180 and C36).
-/
namespace Ltio.Net.Lifetime

/-! ### The program -/

/-- A step of a handler. -/
inductive Micro where
  /-- a member is read or written -/
  | touch
  /-- `CloseService(false)`, or `CloseService(true)` and `NotifyCodecClosed` (codec_service.cc:68-82, 145-151): the event is removed, the owner told -/
  | notify
  /-- `SendRequest` or `SendResponse` of the http codec: the flush task is posted unless it is already (http_codec_service.cc:140-143, 178-181) -/
  | flush
  /-- a time-out that holds a reference is armed (async_channel.cc:57-59, queued_channel.cc:69-75) -/
  | arm
deriving DecidableEq, Repr

/-- What is posted to the connection's loop. -/
inductive Task where
  /-- a closure with a reference to the object (client.cc:304, http_context.cc:93-100, raw_server.cc:61-67) -/
  | call (s : List Micro)
  /-- `flush_fn_`, with a plain pointer (http_codec_service.cc:47-50) -/
  | flush
  /-- `RemoveProtocolService` of an `IOService` whose acceptor has the same loop (io_service.cc:160-162) -/
  | removal
deriving DecidableEq, Repr

/-- The owner. `inline`: a client whose work loop is the connection's loop, which drops its reference inside the notification
(client.cc:226-245).  `other`: the reference is dropped in another thread, which got a task for it (client.cc:227-231, io_service.cc:160-162).
Neither: the task is posted to the connection's loop. -/
structure Cfg where
  inline : Bool
  other : Bool
deriving DecidableEq, Repr

/-- `listed`: the owner's reference; `pending`: `flush_scheduled_`; `held`: the handler in progress, of which `pc` is left, runs in a closure with
a reference; `removals`: tasks of the other thread, each with a reference; `users`: references of others; `installed`: events are delivered. -/
structure St where
  listed : Bool
  installed : Bool
  pending : Bool
  held : Bool
  freed : Bool
  timers : Nat
  removals : Nat
  users : Nat
  queue : List Task
  pc : List Micro
deriving DecidableEq, Repr

/-- A connection that has been started. -/
def St.init : St := ⟨true, true, false, false, false, 0, 0, 0, [], []⟩

def holds : Task → Bool
  | .flush => false
  | _ => true

/-- Whether there is a reference. -/
def refs (s : St) : Bool := s.listed || decide (0 < s.timers) || decide (0 < s.removals) || decide (0 < s.users) || s.held || s.queue.any holds

/-- The object goes with the last reference. -/
def settle (s : St) : St := if refs s then s else { s with freed := true }

/-- A step. `none`: the object is used after it was deleted. -/
def exec (c : Cfg) (s : St) (m : Micro) : Option St :=
  if s.freed then none else some (match m with
    | .touch => s
    | .notify =>
      if c.inline then { s with installed := false, listed := false }
      else if c.other then { s with installed := false, removals := s.removals + 1 }
      else { s with installed := false, queue := s.queue ++ [.removal] }
    | .flush => if s.pending then s else { s with pending := true, queue := s.queue ++ [.flush] }
    | .arm => { s with timers := s.timers + 1 })

/-- Once a handler is over its closure is dropped. -/
def finish (s : St) : St := if s.pc = [] then settle { s with held := false } else settle s

/-- `flush_fn_` (http_codec_service.cc:47-50): `TryFlushChannel` (codec_service.cc:99-107), which closes a connection that is to be closed once all is sent. -/
def flushSteps (fin : Bool) : List Micro := if fin then [.touch, .notify, .touch] else [.touch, .touch]

/-- What can happen. -/
inductive Op where
  /-- an event, its handler taking the course `s` -/
  | event (s : List Micro)
  /-- the connection's loop runs the next task -/
  | task (fin : Bool)
  /-- an armed time-out fires -/
  | timer (s : List Micro)
  /-- the handler in progress goes on -/
  | micro
  /-- the other thread runs a task -/
  | other
  /-- somebody gets a reference (`codec.lock()`, `get_ready_channel`) -/
  | share
  | drop
  /-- and posts a closure with it -/
  | post (s : List Micro)
deriving DecidableEq, Repr

def step (c : Cfg) (s : St) : Op → Option St
  | .event p => some (if s.installed = true ∧ s.pc = [] then { s with pc := p } else s)
  | .task fin => some (if s.pc = [] then (match s.queue with
    | [] => s
    | .call p :: q => finish { s with queue := q, pc := p, held := true }
    | .flush :: q => { s with queue := q, pending := false, pc := flushSteps fin }
    | .removal :: q => settle { s with queue := q, listed := false }) else s)
  | .timer p => some (if s.pc = [] ∧ 0 < s.timers then finish { s with timers := s.timers - 1, pc := p, held := true } else s)
  | .micro => match s.pc with
    | [] => some s
    | m :: t => (exec c { s with pc := t } m).map finish
  | .other => some (if 0 < s.removals then settle { s with removals := s.removals - 1, listed := false } else s)
  | .share => some (if s.freed then s else { s with users := s.users + 1 })
  | .drop => some (settle { s with users := s.users - 1 })
  | .post p => some (if 0 < s.users then { s with queue := s.queue ++ [.call p] } else s)

def run (c : Cfg) (s : St) : List Op → Option St
  | [] => some s
  | o :: t => (step c s o).bind (fun s' => run c s' t)

/-- The codecs. -/
inductive Codec where
  | plain   -- raw and line: `OnDataReceived` decodes and hands on
  | http
  | redis
  | h2
  | ws
deriving DecidableEq, Repr

/-- What the http codec does for a message. -/
inductive Reply where
  /-- answered at once, the connection kept (http_context.cc:103-106, http_codec_service.cc:148-184) -/
  | kept
  /-- answered at once and closed (http_context.cc:103-106) -/
  | closing
  /-- a client's next request (queued_channel.cc:52-78) -/
  | next
deriving DecidableEq, Repr

def Reply.steps : Reply → List Micro
  | .kept => [.touch, .flush]
  | .closing => [.touch, .flush, .notify]
  | .next => [.touch, .flush, .arm]

/-- The courses of `OnDataReceived`. -/
inductive Recv : Codec → List Micro → Prop where
  /-- nothing was received (codec_service.cc:134) -/
  | nothing (k : Codec) : Recv k []
  /-- messages, or the start of one, handed on; a client may send its next request -/
  | messages (k : Codec) (arms : Nat) : Recv k (.touch :: List.replicate arms .arm)
  /-- http: messages, the last of which may be malformed (http_codec_service.cc:66-84) -/
  | http (rs : List Reply) (bad : Bool) : Recv .http (rs.flatMap Reply.steps ++ .touch :: (if bad then [.notify] else []))
  /-- redis: AUTH or SELECT was refused (resp_codec_service.cc:97-101, 111-125) -/
  | redisRefused : Recv .redis [.touch, .notify, .touch]
  /-- h2: nghttp2 refused the bytes (h2_codec_service.cc:378-388) -/
  | h2Bad : Recv .h2 [.touch, .notify]
  /-- websocket: a malformed handshake or frame (ws_codec_service.cc:241-310) -/
  | wsBad : Recv .ws [.touch, .notify]

/-- `CodecService::HandleEvent` (codec_service.cc:129-143).  `ok`: reading and writing succeeded; `close`: the connection is to be closed and all is
sent, or the event has an error. -/
def handleBase (recv : List Micro) (ok close : Bool) : List Micro :=
  .touch :: (recv ++ (if ok then .touch :: (if close then [.notify] else []) else [.notify]))

/-- `HandleEvent`; for h2 there is more to do, which may close a connection that is not (h2_codec_service.cc:391-412). -/
def handle (k : Codec) (recv : List Micro) (ok close fin : Bool) : List Micro :=
  handleBase recv ok close ++ (if k = .h2 then .touch :: (if fin ∧ .notify ∉ handleBase recv ok close then [.notify] else []) else [])

/-- What the handler of an event does. -/
def Event (k : Codec) (s : List Micro) : Prop := ∃ recv ok close fin, Recv k recv ∧ s = handle k recv ok close fin

/-! ### General -/

theorem run_append (c : Cfg) (s : St) (a b : List Op) : run c s (a ++ b) = (run c s a).bind (fun s' => run c s' b) := by
  induction a generalizing s with
  | nil => rfl
  | cons o t ih =>
    simp only [List.cons_append, run]
    cases step c s o with
    | none => rfl
    | some s' => exact ih s'

theorem settle_freed (s : St) : (settle s).freed = (s.freed || !refs s) := by
  unfold settle
  cases h : refs s <;> simp

/-- What does not change when an object goes. -/
theorem settle_same (s : St) : (settle s).listed = s.listed ∧ (settle s).installed = s.installed ∧ (settle s).pending = s.pending ∧ (settle s).held = s.held ∧
    (settle s).timers = s.timers ∧ (settle s).removals = s.removals ∧ (settle s).users = s.users ∧ (settle s).queue = s.queue ∧ (settle s).pc = s.pc := by
  unfold settle; split <;> exact ⟨rfl, rfl, rfl, rfl, rfl, rfl, rfl, rfl, rfl⟩

theorem finish_same (s : St) : (finish s).listed = s.listed ∧ (finish s).installed = s.installed ∧ (finish s).pending = s.pending ∧
    (finish s).held = (if s.pc = [] then false else s.held) ∧
    (finish s).timers = s.timers ∧ (finish s).removals = s.removals ∧ (finish s).users = s.users ∧ (finish s).queue = s.queue ∧ (finish s).pc = s.pc := by
  unfold finish
  split
  · obtain ⟨a, b, c, d, e, f, g, h, i⟩ := settle_same { s with held := false }
    exact ⟨a, b, c, d, e, f, g, h, i⟩
  · exact settle_same s

theorem refs_settle (s : St) : refs (settle s) = refs s := by
  unfold settle; split <;> rfl

/-- The object is there as long as there is a reference. -/
def Counted (s : St) : Prop := s.freed = !refs s

theorem settle_counted (s : St) (h : refs s = true → s.freed = false) : Counted (settle s) := by
  unfold Counted
  rw [refs_settle, settle_freed]
  cases hr : refs s
  · simp
  · simp [h hr]

theorem finish_counted (s : St) (h : s.freed = false) : Counted (finish s) := by
  unfold finish; split
  · exact settle_counted _ (fun _ => h)
  · exact settle_counted _ (fun _ => h)

theorem step_counted (c : Cfg) (s s' : St) (o : Op) (h : Counted s) (hs : step c s o = some s') : Counted s' := by
  cases o with
  | event p =>
    simp only [step, Option.some.injEq] at hs; subst hs
    split
    · exact h
    · exact h
  | task fin =>
    simp only [step, Option.some.injEq] at hs; subst hs
    split
    · split
      · exact h
      · rename_i p q hq
        refine finish_counted _ ?_
        have : refs s = true := by simp [refs, hq, holds]
        show s.freed = false
        rw [h, this]; rfl
      · rename_i q hq
        have : refs { s with queue := q, pending := false, pc := flushSteps fin } = refs s := by simp [refs, hq, holds]
        unfold Counted; rw [this]; exact h
      · rename_i q hq
        refine settle_counted _ (fun _ => ?_)
        have : refs s = true := by simp [refs, hq, holds]
        show s.freed = false
        rw [h, this]; rfl
    · exact h
  | timer p =>
    simp only [step, Option.some.injEq] at hs; subst hs
    split
    · rename_i hc
      refine finish_counted _ ?_
      have : refs s = true := by simp [refs, hc.2]
      show s.freed = false
      rw [h, this]; rfl
    · exact h
  | micro =>
    simp only [step] at hs
    split at hs
    · simp only [Option.some.injEq] at hs; subst hs; exact h
    · rename_i m t hpc
      obtain ⟨x, hx, rfl⟩ := Option.map_eq_some_iff.1 hs
      unfold exec at hx
      split at hx
      · cases hx
      · rename_i hf
        simp only [Option.some.injEq] at hx; subst hx
        refine finish_counted _ ?_
        have hf' : s.freed = false := by simpa using hf
        cases m <;> simp only [] <;> (repeat' split) <;> exact hf'
  | other =>
    simp only [step, Option.some.injEq] at hs; subst hs
    split
    · rename_i hc
      refine settle_counted _ (fun _ => ?_)
      have : refs s = true := by simp [refs, hc]
      show s.freed = false
      rw [h, this]; rfl
    · exact h
  | share =>
    simp only [step, Option.some.injEq] at hs; subst hs
    split
    · exact h
    · rename_i hf
      have : refs { s with users := s.users + 1 } = true := by simp [refs]
      unfold Counted; rw [this]
      simpa using hf
  | drop =>
    simp only [step, Option.some.injEq] at hs; subst hs
    refine settle_counted _ (fun hr => ?_)
    have : refs s = true := by
      simp only [refs, Bool.or_eq_true, decide_eq_true_eq] at hr ⊢
      rcases hr with ((((h1 | h1) | h1) | h1) | h1) | h1
      · simp [h1]
      · simp [h1]
      · simp [h1]
      · have : 0 < s.users := by omega
        simp [this]
      · simp [h1]
      · simp [h1]
    show s.freed = false
    rw [h, this]; rfl
  | post p =>
    simp only [step, Option.some.injEq] at hs; subst hs
    split
    · rename_i hc
      have h1 : refs s = true := by simp [refs, hc]
      have h2 : refs { s with queue := s.queue ++ [.call p] } = true := by simp [refs, hc]
      unfold Counted; rw [h2]
      show s.freed = !true
      rw [h, h1]
    · exact h

theorem run_counted (c : Cfg) (ops : List Op) (s s' : St) (h : Counted s) (hs : run c s ops = some s') : Counted s' := by
  induction ops generalizing s with
  | nil => simp only [run, Option.some.injEq] at hs; exact hs ▸ h
  | cons o t ih =>
    simp only [run] at hs
    obtain ⟨x, hx, hr⟩ := Option.bind_eq_some_iff.1 hs
    exact ih x (step_counted c s x o h hx) hr

/-- The object can only be missed by a handler in progress without a reference. -/
theorem step_ok (c : Cfg) (s : St) (o : Op) (h : Counted s) (hp : s.pc ≠ [] → refs s = true) : ∃ s', step c s o = some s' := by
  cases o with
  | micro =>
    simp only [step]
    split
    · exact ⟨_, rfl⟩
    · rename_i m t hpc
      have hf : s.freed = false := by rw [h, hp (by simp [hpc])]; rfl
      have : ∃ x, exec c { s with pc := t } m = some x := by
        unfold exec
        rw [if_neg (by simp [hf])]
        exact ⟨_, rfl⟩
      obtain ⟨x, hx⟩ := this
      exact ⟨finish x, by rw [hx]; rfl⟩
  | _ => exact ⟨_, rfl⟩

/-- Every operation is allowed where it happens. -/
def Along (c : Cfg) (ok : St → Op → Prop) : St → List Op → Prop
  | _, [] => True
  | s, o :: t => ok s o ∧ ∀ s', step c s o = some s' → Along c ok s' t

theorem along_of_forall (c : Cfg) (ok : Op → Prop) (ops : List Op) (s : St) (h : ∀ o ∈ ops, ok o) : Along c (fun _ o => ok o) s ops := by
  induction ops generalizing s with
  | nil => trivial
  | cons o t ih => exact ⟨h o (by simp), fun s' _ => ih s' (fun o' ho' => h o' (by simp [ho']))⟩

/-- An invariant by which a handler in progress has a reference is enough. -/
theorem run_of_inv (c : Cfg) (P : St → Prop) (ok : St → Op → Prop) (hp : ∀ s, P s → s.pc ≠ [] → refs s = true)
    (hs : ∀ s s' o, P s → ok s o → step c s o = some s' → P s') (ops : List Op) (s : St) (h : P s) (hc : Counted s)
    (ho : Along c ok s ops) : ∃ s', run c s ops = some s' ∧ P s' := by
  induction ops generalizing s with
  | nil => exact ⟨s, rfl, h⟩
  | cons o t ih =>
    obtain ⟨x, hx⟩ := step_ok c s o hc (hp s h)
    have := ih x (hs s x o h ho.1 hx) (step_counted c s x o hc hx) (ho.2 x hx)
    simp only [run, hx, Option.bind_some]
    exact this

/-! ### Events -/

/-- Events are delivered to a connection its owner has, and no removal is on its way. -/
structure Inst (s : St) : Prop where
  inst : s.installed = true → s.listed = true ∧ s.removals = 0 ∧ .removal ∉ s.queue

theorem Inst.same {s s' : St} (h : Inst s) (h1 : s'.installed = s.installed) (h2 : s'.listed = s.listed) (h3 : s'.removals = s.removals)
    (h4 : .removal ∈ s'.queue → .removal ∈ s.queue) : Inst s' :=
  ⟨fun hi => by
    obtain ⟨a, b, c⟩ := h.inst (h1 ▸ hi)
    exact ⟨h2.trans a, h3.trans b, fun hm => c (h4 hm)⟩⟩

theorem Inst.settle {s : St} (h : Inst s) : Inst (settle s) := by
  obtain ⟨a, b, _, _, _, f, _, g, _⟩ := settle_same s
  exact h.same b a f (by rw [g]; exact id)

theorem Inst.finish {s : St} (h : Inst s) : Inst (finish s) := by
  obtain ⟨a, b, _, _, _, f, _, g, _⟩ := finish_same s
  exact h.same b a f (by rw [g]; exact id)

theorem Inst.off {s : St} (h : s.installed = false) : Inst s := ⟨fun hi => absurd (h.symm.trans hi) (by decide)⟩

theorem exec_inst (c : Cfg) (s s' : St) (m : Micro) (h : Inst s) (he : exec c s m = some s') : Inst s' := by
  unfold exec at he
  split at he
  · cases he
  simp only [Option.some.injEq] at he; subst he
  cases m with
  | touch => exact h
  | notify => simp only []; (repeat' split) <;> exact Inst.off rfl
  | flush =>
    simp only []; split
    · exact h
    · exact h.same rfl rfl rfl (by simp)
  | arm => exact h.same rfl rfl rfl (by simp)

theorem step_inst (c : Cfg) (s s' : St) (o : Op) (h : Inst s) (hs : step c s o = some s') : Inst s' := by
  cases o with
  | event p => simp only [step, Option.some.injEq] at hs; subst hs; split <;> exact h.same rfl rfl rfl (by simp)
  | task fin =>
    simp only [step, Option.some.injEq] at hs; subst hs
    split
    · split
      · exact h
      · rename_i p q hq
        exact Inst.finish (h.same rfl rfl rfl (by simp [hq]))
      · rename_i q hq
        exact h.same rfl rfl rfl (by simp [hq])
      · rename_i q hq
        refine Inst.settle (Inst.off ?_)
        show s.installed = false
        cases hi : s.installed
        · rfl
        · exact absurd (h.inst hi).2.2 (by simp [hq])
    · exact h
  | timer p =>
    simp only [step, Option.some.injEq] at hs; subst hs
    split
    · exact Inst.finish (h.same rfl rfl rfl (by simp))
    · exact h
  | micro =>
    simp only [step] at hs
    split at hs
    · simp only [Option.some.injEq] at hs; subst hs; exact h
    · rename_i m t hpc
      obtain ⟨x, hx, rfl⟩ := Option.map_eq_some_iff.1 hs
      refine Inst.finish (exec_inst c { s with pc := t } x m ?_ hx)
      exact h.same rfl rfl rfl (by simp)
  | other =>
    simp only [step, Option.some.injEq] at hs; subst hs
    split
    · rename_i hr
      refine Inst.settle (Inst.off ?_)
      show s.installed = false
      cases hi : s.installed
      · rfl
      · exact absurd (h.inst hi).2.1 (by omega)
    · exact h
  | share => simp only [step, Option.some.injEq] at hs; subst hs; split <;> exact h.same rfl rfl rfl (by simp)
  | drop => simp only [step, Option.some.injEq] at hs; subst hs; exact Inst.settle (h.same rfl rfl rfl (by simp))
  | post p => simp only [step, Option.some.injEq] at hs; subst hs; split <;> exact h.same rfl rfl rfl (by simp)

theorem run_inst (c : Cfg) (ops : List Op) (s s' : St) (h : Inst s) (hs : run c s ops = some s') : Inst s' := by
  induction ops generalizing s with
  | nil => simp only [run, Option.some.injEq] at hs; exact hs ▸ h
  | cons o t ih =>
    simp only [run] at hs
    obtain ⟨x, hx, hr⟩ := Option.bind_eq_some_iff.1 hs
    exact ih x (step_inst c s x o h hx) hr

theorem init_inst : Inst St.init := ⟨fun _ => ⟨rfl, rfl, by simp [St.init]⟩⟩
theorem init_counted : Counted St.init := rfl

/-- **C198, counting.** Whatever happens, the object is deleted exactly when no reference to it is left. -/
theorem c198_deleted (c : Cfg) (ops : List Op) (s : St) (h : run c St.init ops = some s) : s.freed = true ↔ refs s = false := by
  have := run_counted c ops _ s init_counted h
  unfold Counted at this
  rw [this]; simp

/-- **C198, events.** No event is delivered for an object that was deleted, nor for one its owner no longer has. -/
theorem c198_event (c : Cfg) (ops : List Op) (s : St) (h : run c St.init ops = some s) (hi : s.installed = true) : s.freed = false ∧ s.listed = true := by
  have hl := ((run_inst c ops _ s init_inst h).inst hi).1
  refine ⟨?_, hl⟩
  have := run_counted c ops _ s init_counted h
  rw [this]; simp [refs, hl]

/-- **C198, a reference.** Nothing happens to the object while somebody else has a reference. -/
theorem c198_shared (c : Cfg) (ops ops' : List Op) (s : St) (h : run c St.init ops = some s) (hu : ops'.count .drop < s.users) :
    ∃ s', run c s ops' = some s' ∧ s'.freed = false := by
  have hc := run_counted c ops _ s init_counted h
  clear h
  induction ops' generalizing s with
  | nil =>
    refine ⟨s, rfl, ?_⟩
    have : 0 < s.users := by simpa using hu
    rw [hc]; simp [refs, this]
  | cons o t ih =>
    have h0 : 0 < s.users := by omega
    have hr : refs s = true := by simp [refs, h0]
    obtain ⟨x, hx⟩ := step_ok c s o hc (fun _ => hr)
    have hx' := step_counted c s x o hc hx
    simp only [run, hx, Option.bind_some]
    refine ih x ?_ hx'
    rw [List.count_cons] at hu
    cases o with
    | event p => simp only [step, Option.some.injEq] at hx; subst hx; simp at hu; split <;> exact hu
    | task fin =>
      simp only [step, Option.some.injEq] at hx; subst hx; simp at hu
      split
      · split
        · exact hu
        · rw [(finish_same _).2.2.2.2.2.2.1]; exact hu
        · exact hu
        · rw [(settle_same _).2.2.2.2.2.2.1]; exact hu
      · exact hu
    | timer p =>
      simp only [step, Option.some.injEq] at hx; subst hx; simp at hu
      split
      · rw [(finish_same _).2.2.2.2.2.2.1]; exact hu
      · exact hu
    | micro =>
      simp at hu
      simp only [step] at hx
      split at hx
      · simp only [Option.some.injEq] at hx; subst hx; exact hu
      · obtain ⟨y, hy, rfl⟩ := Option.map_eq_some_iff.1 hx
        rw [(finish_same _).2.2.2.2.2.2.1]
        rename_i m t' hpc
        unfold exec at hy
        split at hy
        · cases hy
        simp only [Option.some.injEq] at hy; subst hy
        cases m <;> simp only [] <;> (repeat' split) <;> exact hu
    | other =>
      simp only [step, Option.some.injEq] at hx; subst hx; simp at hu
      split
      · rw [(settle_same _).2.2.2.2.2.2.1]; exact hu
      · exact hu
    | share =>
      simp only [step, Option.some.injEq] at hx; subst hx; simp at hu
      split
      · exact hu
      · show _ < s.users + 1; omega
    | drop =>
      simp only [step, Option.some.injEq] at hx; subst hx; simp at hu
      rw [(settle_same _).2.2.2.2.2.2.1]
      show _ < s.users - 1; omega
    | post p =>
      simp only [step, Option.some.injEq] at hx; subst hx; simp at hu
      split <;> exact hu

/-! ### Codecs that post nothing with a plain pointer -/

/-- The owner is told last, if at all. -/
def Last : List Micro → Prop
  | [] => True
  | .notify :: t => t = []
  | _ :: t => Last t

structure PInv (s : St) : Prop where
  inst : Inst s
  noFlush : .flush ∉ s.queue
  calls : ∀ p, .call p ∈ s.queue → .flush ∉ p
  pcFlush : .flush ∉ s.pc
  busy : s.pc ≠ [] → s.held = true ∨ (s.installed = true ∧ Last s.pc)

/-- Of a codec that neither flushes by a task nor closes in `OnDataReceived`. -/
def PlainOp : Op → Prop
  | .event p => Event .plain p
  | .timer p => .flush ∉ p
  | .post p => .flush ∉ p
  | _ => True

theorem last_arms (n : Nat) (t : List Micro) : Last (List.replicate n .arm ++ t) ↔ Last t := by
  induction n with
  | zero => simp
  | succ n ih => rw [List.replicate_succ, List.cons_append]; exact ih

theorem plain_event (p : List Micro) (h : Event .plain p) : .flush ∉ p ∧ Last p := by
  obtain ⟨recv, ok, close, fin, hr, rfl⟩ := h
  have key : ∀ n : Nat, ∀ l : List Micro, (.flush ∉ l ∧ Last l) → .flush ∉ (.touch :: (List.replicate n .arm ++ l)) ∧ Last (.touch :: (List.replicate n .arm ++ l)) := by
    intro n l ⟨h1, h2⟩
    refine ⟨by simp [h1, List.mem_replicate], ?_⟩
    show Last (List.replicate n .arm ++ l)
    rw [last_arms]; exact h2
  cases hr with
  | nothing =>
    cases ok <;> cases close <;> simp [handle, handleBase, Last]
  | messages _ n =>
    have : ∀ l, (.flush ∉ l ∧ Last l) → .flush ∉ (.touch :: (.touch :: (List.replicate n .arm ++ l))) ∧ Last (.touch :: (.touch :: (List.replicate n .arm ++ l))) := by
      intro l hl
      obtain ⟨a, b⟩ := key n l hl
      exact ⟨by simpa using a, b⟩
    have h2 : handle .plain (.touch :: List.replicate n .arm) ok close fin =
        .touch :: .touch :: (List.replicate n .arm ++ (if ok then .touch :: (if close then [.notify] else []) else [.notify])) := by
      simp [handle, handleBase]
    rw [h2]
    refine this _ ?_
    cases ok <;> cases close <;> simp [Last]

theorem PInv.finish {s : St} (h : PInv s) : PInv (finish s) := by
  obtain ⟨_, b, _, d, _, _, _, g, i⟩ := finish_same s
  refine ⟨h.inst.finish, by rw [g]; exact h.noFlush, by rw [g]; exact h.calls, by rw [i]; exact h.pcFlush, ?_⟩
  rw [i, b, d]
  intro hne
  rw [if_neg hne]; exact h.busy hne

theorem PInv.settle {s : St} (h : PInv s) : PInv (settle s) := by
  obtain ⟨_, b, _, d, _, _, _, g, i⟩ := settle_same s
  refine ⟨h.inst.settle, by rw [g]; exact h.noFlush, by rw [g]; exact h.calls, by rw [i]; exact h.pcFlush, ?_⟩
  rw [i, b, d]; exact h.busy

theorem pinv_step (c : Cfg) (s s' : St) (o : Op) (h : PInv s) (ho : PlainOp o) (hs : step c s o = some s') : PInv s' := by
  have hI := step_inst c s s' o h.inst hs
  cases o with
  | event p =>
    simp only [step, Option.some.injEq] at hs; subst hs
    split
    · rename_i hc
      obtain ⟨e1, e2⟩ := plain_event p ho
      exact ⟨h.inst.same rfl rfl rfl (by simp), h.noFlush, h.calls, e1, fun _ => Or.inr ⟨hc.1, e2⟩⟩
    · exact h
  | task fin =>
    simp only [step, Option.some.injEq] at hs; subst hs
    split
    · rename_i hpc
      split
      · exact h
      · rename_i p q hq
        refine PInv.finish ⟨h.inst.same rfl rfl rfl (by simp [hq]), ?_, ?_, ?_, fun _ => Or.inl rfl⟩
        · exact fun hm => h.noFlush (by simp [hq, hm])
        · exact fun p' hp' => h.calls p' (by rw [hq]; exact List.mem_cons_of_mem _ hp')
        · exact h.calls p (by simp [hq])
      · rename_i q hq
        exact absurd (by simp [hq]) h.noFlush
      · rename_i q hq
        have hoff : s.installed = false := by
          cases hi : s.installed
          · rfl
          · exact absurd (h.inst.inst hi).2.2 (by simp [hq])
        refine PInv.settle ⟨Inst.off hoff, ?_, ?_, h.pcFlush, fun hne => absurd hpc hne⟩
        · exact fun hm => h.noFlush (by simp [hq, hm])
        · exact fun p' hp' => h.calls p' (by rw [hq]; exact List.mem_cons_of_mem _ hp')
    · exact h
  | timer p =>
    simp only [step, Option.some.injEq] at hs; subst hs
    split
    · exact PInv.finish ⟨h.inst.same rfl rfl rfl (by simp), h.noFlush, h.calls, ho, fun _ => Or.inl rfl⟩
    · exact h
  | micro =>
    simp only [step] at hs
    split at hs
    · simp only [Option.some.injEq] at hs; subst hs; exact h
    · rename_i m t hpc
      obtain ⟨x, hx, rfl⟩ := Option.map_eq_some_iff.1 hs
      refine PInv.finish ?_
      have hm : m ≠ .flush := fun e => h.pcFlush (by simp [hpc, e])
      have ht : .flush ∉ t := fun e => h.pcFlush (by simp [hpc, e])
      have hxi := exec_inst c { s with pc := t } x m (h.inst.same rfl rfl rfl (by simp)) hx
      have hb := h.busy (by simp [hpc])
      rw [hpc] at hb
      unfold exec at hx
      split at hx
      · cases hx
      simp only [Option.some.injEq] at hx; subst hx
      cases m with
      | touch => exact ⟨hxi, h.noFlush, h.calls, ht, fun _ => hb⟩
      | flush => exact absurd rfl hm
      | arm => exact ⟨hxi, h.noFlush, h.calls, ht, fun _ => hb⟩
      | notify =>
        have hb' : t ≠ [] → s.held = true := by
          intro hne
          rcases hb with hb | hb
          · exact hb
          · exact absurd hb.2 hne
        simp only [] at hxi ⊢
        split
        · rename_i hin
          rw [if_pos hin] at hxi
          exact ⟨hxi, h.noFlush, h.calls, ht, fun hne => Or.inl (hb' hne)⟩
        · rename_i hin
          rw [if_neg hin] at hxi
          split
          · rename_i hot
            rw [if_pos hot] at hxi
            exact ⟨hxi, h.noFlush, h.calls, ht, fun hne => Or.inl (hb' hne)⟩
          · rename_i hot
            rw [if_neg hot] at hxi
            refine ⟨hxi, ?_, ?_, ht, fun hne => Or.inl (hb' hne)⟩
            · simpa using h.noFlush
            · intro p hp
              exact h.calls p (by simpa using hp)
  | other =>
    simp only [step, Option.some.injEq] at hs; subst hs
    split
    · rename_i hr
      have hoff : s.installed = false := by
        cases hi : s.installed
        · rfl
        · exact absurd (h.inst.inst hi).2.1 (by omega)
      exact PInv.settle ⟨Inst.off hoff, h.noFlush, h.calls, h.pcFlush, h.busy⟩
    · exact h
  | share => simp only [step, Option.some.injEq] at hs; subst hs; split <;> exact ⟨h.inst.same rfl rfl rfl (by simp), h.noFlush, h.calls, h.pcFlush, h.busy⟩
  | drop =>
    simp only [step, Option.some.injEq] at hs; subst hs
    exact PInv.settle ⟨h.inst.same rfl rfl rfl (by simp), h.noFlush, h.calls, h.pcFlush, h.busy⟩
  | post p =>
    simp only [step, Option.some.injEq] at hs; subst hs
    split
    · refine ⟨h.inst.same rfl rfl rfl (by simp), ?_, ?_, h.pcFlush, h.busy⟩
      · simpa using h.noFlush
      · intro p' hp'
        simp only [List.mem_append, List.mem_singleton, Task.call.injEq] at hp'
        rcases hp' with hp' | hp'
        · exact h.calls p' hp'
        · subst hp'; exact ho
    · exact h

/-- **C198, raw and line.** Whoever the owner is and however its thread, time-outs and replies interleave, the object of a connection whose
codec neither closes it in `OnDataReceived` nor posts a task with a plain pointer is never used after it was deleted. -/
theorem c198_plain (c : Cfg) (ops : List Op) (h : ∀ o ∈ ops, PlainOp o) : run c St.init ops ≠ none := by
  have h0 : PInv St.init := ⟨init_inst, by simp [St.init], by simp [St.init], by simp [St.init], fun hne => absurd rfl hne⟩
  have hp : ∀ s, PInv s → s.pc ≠ [] → refs s = true := by
    intro s hs hne
    rcases hs.busy hne with hb | hb
    · simp [refs, hb]
    · simp [refs, (hs.inst.inst hb.1).1]
  obtain ⟨s', hs', _⟩ := run_of_inv c PInv (fun _ o => PlainOp o) hp (fun s s' o hs ho hst => pinv_step c s s' o hs ho hst)
    ops St.init h0 init_counted (along_of_forall c PlainOp ops _ h)
  simp [hs']

/-! ### A server with one loop -/

/-- No flush task after a removal. -/
def Ordered : List Task → Prop
  | [] => True
  | .removal :: q => .flush ∉ q ∧ Ordered q
  | _ :: q => Ordered q

theorem ordered_snoc (q : List Task) (x : Task) (h : Ordered q) (hx : x ≠ .flush ∨ .removal ∉ q) : Ordered (q ++ [x]) := by
  induction q with
  | nil => cases x <;> simp [Ordered]
  | cons y q ih =>
    cases y with
    | removal =>
      have hx' : x ≠ .flush := by
        rcases hx with hx | hx
        · exact hx
        · exact absurd List.mem_cons_self hx
      exact ⟨fun e => (List.mem_append.1 e).elim h.1 (fun e => hx' (List.mem_singleton.1 e).symm), ih h.2 (Or.inl hx')⟩
    | call p =>
      refine ih h ?_
      rcases hx with hx | hx
      · exact Or.inl hx
      · exact Or.inr (fun e => hx (List.mem_cons_of_mem _ e))
    | flush =>
      refine ih h ?_
      rcases hx with hx | hx
      · exact Or.inl hx
      · exact Or.inr (fun e => hx (List.mem_cons_of_mem _ e))

theorem ordered_tail (x : Task) (q : List Task) (h : Ordered (x :: q)) : Ordered q := by
  cases x with
  | removal => exact h.2
  | _ => exact h

structure SInv (s : St) : Prop where
  inst : Inst s
  gone : s.listed = false → .flush ∉ s.queue
  order : Ordered s.queue
  removals : s.removals = 0
  busy : s.pc ≠ [] → s.listed = true ∨ s.held = true
  pending : s.pending = true → .flush ∈ s.queue

theorem SInv.finish {s : St} (h : SInv s) : SInv (finish s) := by
  obtain ⟨a, _, p, d, _, r, _, g, i⟩ := finish_same s
  refine ⟨h.inst.finish, by rw [a, g]; exact h.gone, by rw [g]; exact h.order, by rw [r]; exact h.removals, ?_, by rw [p, g]; exact h.pending⟩
  rw [i, a, d]
  intro hne
  rw [if_neg hne]; exact h.busy hne

theorem SInv.settle {s : St} (h : SInv s) : SInv (settle s) := by
  obtain ⟨a, _, p, d, _, r, _, g, i⟩ := settle_same s
  refine ⟨h.inst.settle, by rw [a, g]; exact h.gone, by rw [g]; exact h.order, by rw [r]; exact h.removals, ?_, by rw [p, g]; exact h.pending⟩
  rw [i, a, d]; exact h.busy

/-- A reply is written only on an open connection, or where a flush task is on its way already. -/
def Prompt (s : St) (o : Op) : Prop := o = .micro → s.pc.head? = some .flush → s.installed = true ∨ s.pending = true

/-- The owner: an `IOService` whose acceptor runs on the connection's loop. -/
def oneLoop : Cfg := ⟨false, false⟩

theorem sinv_step (s s' : St) (o : Op) (h : SInv s) (ho : Prompt s o) (hs : step oneLoop s o = some s') : SInv s' := by
  have hI := step_inst oneLoop s s' o h.inst hs
  cases o with
  | event p =>
    simp only [step, Option.some.injEq] at hs; subst hs
    split
    · rename_i hc
      exact ⟨h.inst.same rfl rfl rfl (by simp), h.gone, h.order, h.removals, fun _ => Or.inl (h.inst.inst hc.1).1, h.pending⟩
    · exact h
  | task fin =>
    simp only [step, Option.some.injEq] at hs; subst hs
    split
    · rename_i hpc
      split
      · exact h
      · rename_i p q hq
        refine SInv.finish ⟨h.inst.same rfl rfl rfl (by simp [hq]), ?_, ?_, h.removals, fun _ => Or.inr rfl, ?_⟩
        · exact fun hl hm => h.gone hl (by simp [hq, hm])
        · exact ordered_tail _ _ (hq ▸ h.order)
        · intro hp
          have := h.pending hp
          simpa [hq] using this
      · rename_i q hq
        have hl : s.listed = true := by
          cases hl : s.listed
          · exact absurd (by simp [hq]) (h.gone hl)
          · rfl
        refine ⟨h.inst.same rfl rfl rfl (by simp [hq]), ?_, ?_, h.removals, fun _ => Or.inl hl, ?_⟩
        · exact fun hl' => absurd (hl.symm.trans hl') (by decide)
        · exact ordered_tail _ _ (hq ▸ h.order)
        · simp
      · rename_i q hq
        have hoff : s.installed = false := by
          cases hi : s.installed
          · rfl
          · exact absurd (h.inst.inst hi).2.2 (by simp [hq])
        have hord : Ordered (.removal :: q) := hq ▸ h.order
        refine SInv.settle ⟨Inst.off hoff, fun _ => hord.1, hord.2, h.removals, fun hne => absurd hpc hne, ?_⟩
        intro hp
        have := h.pending hp
        simpa [hq] using this
    · exact h
  | timer p =>
    simp only [step, Option.some.injEq] at hs; subst hs
    split
    · exact SInv.finish ⟨h.inst.same rfl rfl rfl (by simp), h.gone, h.order, h.removals, fun _ => Or.inr rfl, h.pending⟩
    · exact h
  | micro =>
    simp only [step] at hs
    split at hs
    · simp only [Option.some.injEq] at hs; subst hs; exact h
    · rename_i m t hpc
      obtain ⟨x, hx, rfl⟩ := Option.map_eq_some_iff.1 hs
      refine SInv.finish ?_
      have hxi := exec_inst oneLoop { s with pc := t } x m (h.inst.same rfl rfl rfl (by simp)) hx
      have hb := h.busy (by simp [hpc])
      unfold exec at hx
      split at hx
      · cases hx
      simp only [Option.some.injEq] at hx; subst hx
      cases m with
      | touch => exact ⟨hxi, h.gone, h.order, h.removals, fun _ => hb, h.pending⟩
      | arm => exact ⟨hxi, h.gone, h.order, h.removals, fun _ => hb, h.pending⟩
      | notify =>
        refine ⟨hxi, ?_, ?_, h.removals, fun _ => hb, ?_⟩
        · intro hl
          have := h.gone hl
          simpa [oneLoop] using this
        · exact ordered_snoc _ _ h.order (Or.inl (by simp))
        · intro hp
          have := h.pending hp
          simp [oneLoop, this]
      | flush =>
        simp only [] at hxi ⊢
        split
        · rename_i hp
          rw [if_pos hp] at hxi
          exact ⟨hxi, h.gone, h.order, h.removals, fun _ => hb, h.pending⟩
        · rename_i hp
          rw [if_neg hp] at hxi
          have hin : s.installed = true := by
            rcases ho rfl (by simp [hpc]) with hi | hi
            · exact hi
            · exact absurd hi hp
          obtain ⟨hl, _, hrm⟩ := h.inst.inst hin
          refine ⟨hxi, ?_, ?_, h.removals, fun _ => hb, ?_⟩
          · exact fun hl' => absurd (hl.symm.trans hl') (by decide)
          · exact ordered_snoc _ _ h.order (Or.inr hrm)
          · simp
  | other =>
    simp only [step, Option.some.injEq] at hs; subst hs
    rw [if_neg (by rw [h.removals]; omega)]
    exact h
  | share => simp only [step, Option.some.injEq] at hs; subst hs; split <;> exact ⟨h.inst.same rfl rfl rfl (by simp), h.gone, h.order, h.removals, h.busy, h.pending⟩
  | drop =>
    simp only [step, Option.some.injEq] at hs; subst hs
    exact SInv.settle ⟨h.inst.same rfl rfl rfl (by simp), h.gone, h.order, h.removals, h.busy, h.pending⟩
  | post p =>
    simp only [step, Option.some.injEq] at hs; subst hs
    split
    · refine ⟨h.inst.same rfl rfl rfl (by simp), ?_, ordered_snoc _ _ h.order (Or.inl (by simp)), h.removals, h.busy, ?_⟩
      · intro hl
        have := h.gone hl
        simpa using this
      · intro hp
        have := h.pending hp
        simp [this]
    · exact h

theorem init_sinv : SInv St.init := ⟨init_inst, by simp [St.init], trivial, rfl, fun hne => absurd rfl hne, by simp [St.init]⟩

theorem sinv_refs (s : St) (h : SInv s) (hne : s.pc ≠ []) : refs s = true := by
  rcases h.busy hne with hb | hb <;> simp [refs, hb]

/-- **C198, a server with one loop.** Whatever the codec, the handlers, time-outs and replies do: as long as no reply is written on a connection
closed before, its object is never used after it was deleted. -/
theorem c198_server (ops : List Op) (h : Along oneLoop Prompt St.init ops) : run oneLoop St.init ops ≠ none := by
  obtain ⟨s', hs', _⟩ := run_of_inv oneLoop SInv Prompt (fun s hs hne => sinv_refs s hs hne) (fun s s' o hs ho hst => sinv_step s s' o hs ho hst)
    ops St.init init_sinv init_counted h
  simp [hs']

/-- No step flushes unless a flush is on its way or the connection open. -/
def Fine : Bool → Bool → List Micro → Prop
  | _, _, [] => True
  | _, p, .notify :: t => Fine false p t
  | i, p, .flush :: t => (i = true ∨ p = true) ∧ Fine i true t
  | i, p, _ :: t => Fine i p t

theorem fine_pending (i : Bool) (l : List Micro) : Fine i true l := by
  induction l generalizing i with
  | nil => simp [Fine]
  | cons m t ih => cases m <;> simp [Fine, ih]

theorem fine_quiet (i p : Bool) (l : List Micro) (h : .flush ∉ l) : Fine i p l := by
  induction l generalizing i with
  | nil => simp [Fine]
  | cons m t ih =>
    have ht : .flush ∉ t := fun e => h (List.mem_cons_of_mem _ e)
    cases m with
    | flush => exact absurd (by simp) h
    | notify => exact ih false ht
    | touch => exact ih i ht
    | arm => exact ih i ht

/-- The courses of a handler flush first. -/
theorem event_fine (k : Codec) (s : List Micro) (p : Bool) (h : Event k s) : Fine true p s := by
  obtain ⟨recv, ok, close, fin, hr, rfl⟩ := h
  have key : .flush ∉ recv → Fine true p (handle k recv ok close fin) := by
    intro hq
    apply fine_quiet
    unfold handle handleBase
    cases ok <;> cases close <;> simp [hq] <;> (split <;> simp <;> (try split) <;> simp)
  cases hr with
  | nothing => exact key (by simp)
  | messages _ n => exact key (by simp [List.mem_replicate])
  | redisRefused => exact key (by simp)
  | h2Bad => exact key (by simp)
  | wsBad => exact key (by simp)
  | http rs bad =>
    cases rs with
    | nil => exact key (by cases bad <;> simp)
    | cons r rs =>
      cases r <;> exact ⟨Or.inl rfl, fine_pending _ _⟩

structure FInv (s : St) : Prop where
  fine : Fine s.installed s.pending s.pc
  calls : ∀ p, .call p ∈ s.queue → .flush ∉ p

/-- Of any codec, whose replies are given by the handler itself. -/
def ServerOp (k : Codec) : Op → Prop
  | .event p => Event k p
  | .timer p => .flush ∉ p
  | .post p => .flush ∉ p
  | _ => True

theorem FInv.finish {s : St} (h : FInv s) : FInv (finish s) := by
  obtain ⟨_, b, p, _, _, _, _, g, i⟩ := finish_same s
  exact ⟨by rw [b, p, i]; exact h.fine, by rw [g]; exact h.calls⟩

theorem FInv.settle {s : St} (h : FInv s) : FInv (settle s) := by
  obtain ⟨_, b, p, _, _, _, _, g, i⟩ := settle_same s
  exact ⟨by rw [b, p, i]; exact h.fine, by rw [g]; exact h.calls⟩

theorem finv_step (k : Codec) (s s' : St) (o : Op) (h : FInv s) (ho : ServerOp k o) (hs : step oneLoop s o = some s') : FInv s' := by
  cases o with
  | event p =>
    simp only [step, Option.some.injEq] at hs; subst hs
    split
    · rename_i hc
      refine ⟨?_, h.calls⟩
      show Fine s.installed s.pending p
      rw [hc.1]; exact event_fine k p _ ho
    · exact h
  | task fin =>
    simp only [step, Option.some.injEq] at hs; subst hs
    split
    · rename_i hpc
      split
      · exact h
      · rename_i p q hq
        refine FInv.finish ⟨fine_quiet _ _ _ (h.calls p (by simp [hq])), ?_⟩
        exact fun p' hp' => h.calls p' (by rw [hq]; exact List.mem_cons_of_mem _ hp')
      · rename_i q hq
        refine ⟨fine_quiet _ _ _ ?_, ?_⟩
        · cases fin <;> simp [flushSteps]
        · exact fun p' hp' => h.calls p' (by rw [hq]; exact List.mem_cons_of_mem _ hp')
      · rename_i q hq
        refine FInv.settle ⟨h.fine, ?_⟩
        exact fun p' hp' => h.calls p' (by rw [hq]; exact List.mem_cons_of_mem _ hp')
    · exact h
  | timer p =>
    simp only [step, Option.some.injEq] at hs; subst hs
    split
    · exact FInv.finish ⟨fine_quiet _ _ _ ho, h.calls⟩
    · exact h
  | micro =>
    simp only [step] at hs
    split at hs
    · simp only [Option.some.injEq] at hs; subst hs; exact h
    · rename_i m t hpc
      obtain ⟨x, hx, rfl⟩ := Option.map_eq_some_iff.1 hs
      refine FInv.finish ?_
      have hf := h.fine
      rw [hpc] at hf
      unfold exec at hx
      split at hx
      · cases hx
      simp only [Option.some.injEq] at hx; subst hx
      cases m with
      | touch => exact ⟨hf, h.calls⟩
      | arm => exact ⟨hf, h.calls⟩
      | notify =>
        refine ⟨hf, ?_⟩
        intro p hp
        exact h.calls p (by simpa [oneLoop] using hp)
      | flush =>
        simp only []
        split
        · rename_i hp
          refine ⟨?_, h.calls⟩
          show Fine s.installed s.pending t
          rw [show s.pending = true from hp]; exact fine_pending _ _
        · refine ⟨hf.2, ?_⟩
          intro p hp
          exact h.calls p (by simpa using hp)
  | other => simp only [step, Option.some.injEq] at hs; subst hs; split <;> first | exact FInv.settle ⟨h.fine, h.calls⟩ | exact h
  | share => simp only [step, Option.some.injEq] at hs; subst hs; split <;> exact ⟨h.fine, h.calls⟩
  | drop => simp only [step, Option.some.injEq] at hs; subst hs; exact FInv.settle ⟨h.fine, h.calls⟩
  | post p =>
    simp only [step, Option.some.injEq] at hs; subst hs
    split
    · refine ⟨h.fine, ?_⟩
      intro p' hp'
      simp only [List.mem_append, List.mem_singleton, Task.call.injEq] at hp'
      rcases hp' with hp' | hp'
      · exact h.calls p' hp'
      · subst hp'; exact ho
    · exact h

theorem finv_prompt (s : St) (o : Op) (h : FInv s) : Prompt s o := by
  intro _ hh
  have hf := h.fine
  cases hpc : s.pc with
  | nil => rw [hpc] at hh; simp at hh
  | cons m t =>
    rw [hpc] at hh hf
    simp only [List.head?_cons, Option.some.injEq] at hh
    subst hh
    exact hf.1

/-- **C198, a server with one loop whose handler replies itself.** Whatever the codec. -/
theorem c198_replies (k : Codec) (ops : List Op) (h : ∀ o ∈ ops, ServerOp k o) : run oneLoop St.init ops ≠ none := by
  have h0 : FInv St.init := ⟨by simp [St.init, Fine], by simp [St.init]⟩
  obtain ⟨s', hs', _⟩ := run_of_inv oneLoop (fun s => SInv s ∧ FInv s) (fun _ o => ServerOp k o) (fun s hs hne => sinv_refs s hs.1 hne)
    (fun s s' o hs ho hst => ⟨sinv_step s s' o hs.1 (finv_prompt s o hs.2) hst, finv_step k s s' o hs.2 ho hst⟩)
    ops St.init ⟨init_sinv, h0⟩ init_counted (along_of_forall oneLoop (ServerOp k) ops _ h)
  simp [hs']

/-! ### Uses after the deletion -/

/-- A client whose work loop is the connection's loop. -/
def inlineClient : Cfg := ⟨true, false⟩
/-- An owner in another thread: a server with several loops, a client with a work loop of its own. -/
def otherThread : Cfg := ⟨false, true⟩

/-- The whole handler runs, undisturbed. -/
def whole (p : List Micro) : List Op := .event p :: List.replicate p.length .micro

/-- The courses in which `OnDataReceived` closes the connection. -/
def bad : Codec → Option (List Micro)
  | .plain => none
  | .http => some [.touch, .notify]
  | .redis => some [.touch, .notify, .touch]
  | .h2 => some [.touch, .notify]
  | .ws => some [.touch, .notify]

/-- **C197 violation.** A client whose work loop is the connection's own, an http, redis, h2 or websocket connection, and bytes which the codec closes it for,
while nothing else holds a reference: the client lets the object go inside the notification and the rest of `HandleEvent` uses it (codec_service.cc:133-142). -/
theorem c197_client_violated (k : Codec) (p : List Micro) (ok close fin : Bool) (h : bad k = some p) :
    Event k (handle k p ok close fin) ∧ run inlineClient St.init (whole (handle k p ok close fin)) = none := by
  cases k with
  | plain => simp [bad] at h
  | http =>
    simp only [bad, Option.some.injEq] at h; subst h
    refine ⟨⟨_, ok, close, fin, Recv.http [] true, rfl⟩, ?_⟩
    cases ok <;> cases close <;> cases fin <;> decide
  | redis =>
    simp only [bad, Option.some.injEq] at h; subst h
    refine ⟨⟨_, ok, close, fin, Recv.redisRefused, rfl⟩, ?_⟩
    cases ok <;> cases close <;> cases fin <;> decide
  | h2 =>
    simp only [bad, Option.some.injEq] at h; subst h
    refine ⟨⟨_, ok, close, fin, Recv.h2Bad, rfl⟩, ?_⟩
    cases ok <;> cases close <;> cases fin <;> decide
  | ws =>
    simp only [bad, Option.some.injEq] at h; subst h
    refine ⟨⟨_, ok, close, fin, Recv.wsBad, rfl⟩, ?_⟩
    cases ok <;> cases close <;> cases fin <;> decide

/-- **C197 violation.** An h2 client with such a work loop uses the object of every connection the peer closes: after `CodecService::HandleEvent`
has closed it, `H2CodecService::HandleEvent` asks whether it is closed (h2_codec_service.cc:394-396). -/
theorem c197_h2_violated (ok close fin : Bool) (h : ok = false ∨ close = true) :
    Event .h2 (handle .h2 [] ok close fin) ∧ run inlineClient St.init (whole (handle .h2 [] ok close fin)) = none := by
  refine ⟨⟨_, ok, close, fin, Recv.nothing _, rfl⟩, ?_⟩
  cases ok <;> cases close <;> cases fin <;> first | decide | simp at h

/-- **C197 violation.** With the owner in another thread the same handlers are a race: the removal may run right after the notification. -/
theorem c197_race_violated (k : Codec) (p : List Micro) (ok close fin : Bool) (h : bad k = some p) :
    Event k (handle k p ok close fin) ∧
    run otherThread St.init (.event (handle k p ok close fin) :: .micro :: .micro :: .micro :: .other :: [.micro]) = none := by
  refine ⟨(c197_client_violated k p ok close fin h).1, ?_⟩
  cases k <;> simp only [bad, Option.some.injEq, reduceCtorEq] at h <;> subst h <;> cases ok <;> cases close <;> cases fin <;> decide

/-- **C197 violation.** A server with several loops, an http request with "Connection: close", answered at once: the flush task, which has only a plain pointer,
is posted, the connection closed, and the acceptor's thread removes it before the task runs.  (It is this task that would have sent the reply.) -/
theorem c197_flush_violated : ∃ p, Event .http p ∧ run otherThread St.init (whole p ++ [.other, .task false, .micro]) = none :=
  ⟨_, ⟨_, true, false, false, Recv.http [.closing] false, rfl⟩, by decide⟩

/-- **C197 violation.** A server with one loop: another thread has a request's reply posted (http_context.cc:93-100) just after the peer has closed. The
connection is removed, the reply still written, and the flush task it posts runs when the object is gone. -/
theorem c197_late_violated : ∃ p, Event .http p ∧
    run oneLoop St.init (.share :: whole p ++ [.post [.touch, .flush], .drop, .task false, .task false, .micro, .micro, .task false, .micro]) = none :=
  ⟨_, ⟨_, false, false, false, Recv.nothing _, rfl⟩, by decide⟩

/-! ### Examples -/

/-- A request answered at once and closed, on a server with one loop: the flush task runs on the object, which then goes. -/
theorem w_c198_server : ∃ p, Event .http p ∧
    (run oneLoop St.init (whole p ++ [.task true, .micro, .micro, .micro, .task false])).map (fun s => (s.freed, s.listed)) = some (false, false) ∧
    (run oneLoop St.init (whole p ++ [.task true, .micro, .micro, .micro, .task false, .task false])).map (fun s => (s.freed, s.listed)) = some (true, false) :=
  ⟨_, ⟨_, true, false, false, Recv.http [.closing] false, rfl⟩, by decide, by decide⟩

/-- A raw connection of a client, with a request under way: the object goes with the time-out. -/
theorem w_c198_plain : ∃ p, Event .plain p ∧
    (run inlineClient St.init ([.share, .post [.touch, .arm], .drop, .task false, .micro, .micro] ++ whole p)).map (fun s => (s.freed, s.listed)) = some (false, false) ∧
    (run inlineClient St.init ([.share, .post [.touch, .arm], .drop, .task false, .micro, .micro] ++ whole p ++ [.timer [.touch], .micro])).map
      (fun s => (s.freed, s.listed)) = some (true, false) :=
  ⟨_, ⟨_, false, false, false, Recv.nothing _, rfl⟩, by decide, by decide⟩

/-- Somebody else's reference keeps the object of a malformed response. -/
theorem w_c198_shared : (run inlineClient St.init (.share :: whole (handle .http [.touch, .notify] true true false))).map (fun s => (s.freed, s.users)) = some (false, 1) := by decide

end Ltio.Net.Lifetime
