import Verif.Net.Acceptor
import Mathlib.Tactic.ByContra
/-
Model of the coroutine server, net_io/coronet/io_service.cc: the accept loop (lines 36-62) and the coroutine of a
connection (`handle_connection`, lines 64-104), with `co::IOEvent` (base/coroutine/io_event.cc, C51) and
`CodecService::HandleEvent`, `CloseService` (net_io/codec/codec_service.cc:65-81, 124-137).

The descriptors are watched level-triggered: the pump tells the `IOEvent` whenever it runs and there is something to read
(C139).  Everything happens on one loop, so nothing happens while a coroutine runs.  Reading takes all there is
(`TcpChannel::HandleRead`, C25); what the codec makes of the bytes is its own business (C01-C10).  Writing is left out.
-/
namespace Ltio.Coro.Server

/-- Where the coroutine of a connection is. -/
inductive Ph where
  /-- in `ioev.Wait()` -/
  | waiting
  /-- resumed, to run soon -/
  | ready
  /-- the user's handler, called in this coroutine, waits for something else -/
  | parked
  /-- `handle_connection` has returned -/
  | ended
  /-- an empty `std::function` was called -/
  | crashed
deriving DecidableEq, Repr

structure Conn where
  ph : Ph := .waiting
  /-- `status_ == CLOSED` -/
  closed : Bool := false
  /-- the descriptor is open -/
  sock : Bool := true
  unread : List UInt8 := []
  /-- the peer has closed -/
  eof : Bool := false
  /-- the read of the event being handled met the end -/
  failed : Bool := false
  /-- bytes given to the codec, bytes sent by the peer (ghosts) -/
  delivered : List UInt8 := []
  arrived : List UInt8 := []
deriving DecidableEq, Repr

/-- What the user's handler does with the messages. -/
inductive Act where
  /-- returns, after closing the service or not (a codec error closes too) -/
  | done (close : Bool)
  /-- waits in the connection's coroutine -/
  | wait
deriving DecidableEq, Repr

inductive Lab where
  | recv (bs : List UInt8)
  | peerClose
  /-- the pump invokes the event -/
  | poll
  /-- the runner runs the coroutine, which handles the event -/
  | run (a : Act)
  /-- the handler goes on and returns -/
  | finish (close : Bool)
  /-- `CloseService` from another coroutine or a task of the loop (e.g. http_context.cc:75-107) -/
  | closeElsewhere
deriving DecidableEq, Repr

/-- The end of `HandleEvent` and of the loop's body (codec_service.cc:132-137, io_service.cc:101-103): the descriptor is closed with the
last reference to the event. -/
def Conn.leave (c : Conn) (close : Bool) : Conn :=
  if c.closed = true ∨ close = true ∨ c.failed = true then { c with ph := .ended, closed := true, sock := false }
  else { c with ph := .waiting }

def Conn.step (c : Conn) : Lab → Option Conn
  | .recv bs => if c.eof = true ∨ bs = [] then none else some { c with unread := c.unread ++ bs, arrived := c.arrived ++ bs }
  | .peerClose => if c.eof = true then none else some { c with eof := true }
  | .poll =>
    if c.sock = true ∧ (c.unread ≠ [] ∨ c.eof = true) then
      match c.ph with
      | .waiting => some { c with ph := .ready }
      | .ready => some c
      | .parked => some { c with ph := .crashed }        -- io_event.cc:82-88: `resumer_` is empty
      | .ended => none
      | .crashed => none
    else none
  | .run a =>
    if c.ph = .ready then
      if c.unread = [] then some (({ c with failed := c.eof } : Conn).leave false)
      else match a with
        | .done close => some (({ c with unread := [], delivered := c.delivered ++ c.unread, failed := c.eof } : Conn).leave close)
        | .wait => some { c with ph := .parked, unread := [], delivered := c.delivered ++ c.unread, failed := c.eof }
    else none
  | .finish close => if c.ph = .parked then some (c.leave close) else none
  | .closeElsewhere => if c.ph = .ended ∨ c.ph = .crashed then none else some { c with closed := true }

def Conn.exec (c : Conn) : List Lab → Option Conn
  | [] => some c
  | l :: t => match c.step l with
    | none => none
    | some c' => c'.exec t

/-! ### The accept loop -/

/-- The listening socket and the coroutine of `accept_loop`. -/
structure Acc where
  /-- connections the kernel holds for us: their numbers and raw addresses -/
  backlog : List (Nat × List UInt8) := []
  ready : Bool := false
  /-- connections given to a coroutine, with the address told to it -/
  spawned : List (Nat × Ip.EndPoint) := []
  /-- `CHECK(codec)` failed (io_service.cc:84-85) -/
  aborted : Bool := false

inductive ALab where
  | arrive (c : Nat) (addr : List UInt8)
  | poll
  /-- the coroutine runs one round; `accept4` succeeds or not -/
  | run (ok : Bool)

/-- `known`: the codec's name is registered (C144). -/
def Acc.step (known : Bool) (s : Acc) : ALab → Option Acc
  | .arrive c a => some { s with backlog := s.backlog ++ [(c, a)] }
  | .poll => if s.aborted = false ∧ s.backlog ≠ [] then some { s with ready := true } else none
  | .run ok =>
    if s.aborted = false ∧ s.ready = true then
      match s.backlog, ok with
      | c :: t, true => some { backlog := t, ready := false, spawned := s.spawned ++ [(c.1, Net.Acceptor.peerOf c.2)], aborted := !known }
      | _, _ => some { s with ready := false }
    else none

def Acc.exec (known : Bool) (s : Acc) : List ALab → Option Acc
  | [] => some s
  | l :: t => match s.step known l with
    | none => none
    | some s' => s'.exec known t

/-- The connections that arrived in a history. -/
def arrivals : List ALab → List Nat
  | [] => []
  | .arrive c _ :: t => c :: arrivals t
  | _ :: t => arrivals t

/-! ### Connections -/

/-- Histories in which the user's handler never waits in the connection's coroutine. -/
def NoWait (h : List Lab) : Prop := Lab.run .wait ∉ h

theorem Conn.exec_append (c : Conn) (h g : List Lab) : c.exec (h ++ g) = (c.exec h).bind (fun c' => c'.exec g) := by
  induction h generalizing c with
  | nil => rfl
  | cons l t ih =>
    simp only [List.cons_append, Conn.exec]
    cases c.step l with
    | none => rfl
    | some c' => exact ih c'

theorem leave_same (c : Conn) (b : Bool) : (c.leave b).delivered = c.delivered ∧ (c.leave b).unread = c.unread ∧
    (c.leave b).arrived = c.arrived ∧ (c.leave b).eof = c.eof := by
  unfold Conn.leave
  split <;> exact ⟨rfl, rfl, rfl, rfl⟩

theorem leave_ph (c : Conn) (b : Bool) : ((c.leave b).ph = .ended ∧ (c.leave b).sock = false ∧ (c.closed = true ∨ b = true ∨ c.failed = true)) ∨
    ((c.leave b).ph = .waiting ∧ (c.leave b).sock = c.sock ∧ c.closed = false ∧ b = false ∧ c.failed = false) := by
  unfold Conn.leave
  split
  · rename_i h; exact Or.inl ⟨rfl, rfl, h⟩
  · rename_i h
    refine Or.inr ⟨rfl, rfl, ?_, ?_, ?_⟩ <;> (by_contra hc; simp only [Bool.not_eq_false] at hc; exact h (by simp [hc]))

/-- What every connection keeps. -/
structure CInv (c : Conn) : Prop where
  stream : c.delivered ++ c.unread = c.arrived
  sock : c.sock = true ↔ c.ph ≠ .ended
  why : c.ph = .ready → c.unread ≠ [] ∨ c.eof = true
  gone : c.ph = .ended → c.closed = true

theorem CInv.leave {c : Conn} (h1 : c.delivered ++ c.unread = c.arrived) (h2 : c.sock = true) (b : Bool) : CInv (c.leave b) := by
  obtain ⟨e1, e2, e3, e4⟩ := leave_same c b
  have hst : (c.leave b).delivered ++ (c.leave b).unread = (c.leave b).arrived := by rw [e1, e2, e3]; exact h1
  unfold Conn.leave at hst ⊢
  split at hst
  · rename_i hc
    rw [if_pos hc]
    exact ⟨hst, by simp, by simp, by simp⟩
  · rename_i hc
    rw [if_neg hc]
    exact ⟨hst, by simp [h2], by simp, by simp⟩

theorem CInv.step {c c' : Conn} (h : CInv c) (l : Lab) (hs : c.step l = some c') : CInv c' := by
  obtain ⟨h1, h2, h3, h4⟩ := h
  cases l with
  | recv bs =>
    simp only [Conn.step] at hs
    split at hs
    · simp at hs
    · simp only [Option.some.injEq] at hs; subst hs
      refine ⟨?_, h2, fun hr => ?_, h4⟩
      · simp only []; rw [← List.append_assoc, h1]
      · rcases h3 hr with h | h
        · exact Or.inl (by simp [h])
        · exact Or.inr h
  | peerClose =>
    simp only [Conn.step] at hs
    split at hs
    · simp at hs
    · simp only [Option.some.injEq] at hs; subst hs
      exact ⟨h1, h2, fun _ => Or.inr rfl, h4⟩
  | poll =>
    simp only [Conn.step] at hs
    split at hs
    · rename_i hc
      split at hs
      · simp only [Option.some.injEq] at hs; subst hs
        exact ⟨h1, by simp [hc.1], fun _ => hc.2, by simp⟩
      · simp only [Option.some.injEq] at hs; subst hs; exact ⟨h1, h2, h3, h4⟩
      · simp only [Option.some.injEq] at hs; subst hs
        exact ⟨h1, by simp [hc.1], by simp, by simp⟩
      · simp at hs
      · simp at hs
    · simp at hs
  | run a =>
    simp only [Conn.step] at hs
    split at hs
    · rename_i hr
      have hsk : c.sock = true := h2.2 (by rw [hr]; simp)
      split at hs
      · simp only [Option.some.injEq] at hs; subst hs
        exact CInv.leave (c := { c with failed := c.eof }) h1 hsk _
      · cases a with
        | done close =>
          simp only [Option.some.injEq] at hs; subst hs
          exact CInv.leave (c := { c with unread := [], delivered := c.delivered ++ c.unread, failed := c.eof }) (by simpa using h1) hsk _
        | wait =>
          simp only [Option.some.injEq] at hs; subst hs
          exact ⟨by simpa using h1, by simp [hsk], by simp, by simp⟩
    · simp at hs
  | finish close =>
    simp only [Conn.step] at hs
    split at hs
    · rename_i hr
      simp only [Option.some.injEq] at hs; subst hs
      exact CInv.leave h1 (h2.2 (by rw [hr]; simp)) _
    · simp at hs
  | closeElsewhere =>
    simp only [Conn.step] at hs
    split at hs
    · simp at hs
    · simp only [Option.some.injEq] at hs; subst hs
      exact ⟨h1, h2, h3, fun _ => rfl⟩

theorem CInv.exec {c c' : Conn} (h : CInv c) (l : List Lab) (hs : c.exec l = some c') : CInv c' := by
  induction l generalizing c with
  | nil => simp only [Conn.exec, Option.some.injEq] at hs; subst hs; exact h
  | cons x t ih =>
    simp only [Conn.exec] at hs
    cases hx : c.step x with
    | none => rw [hx] at hs; simp at hs
    | some c1 => rw [hx] at hs; exact ih (h.step x hx) hs

theorem cinv_init : CInv {} := ⟨rfl, by simp, by simp, by simp⟩

/-- **C152.** Whatever happens: the bytes given to the codec and those not yet read are, together and in order, exactly what
the peer has sent, and the descriptor is open exactly until the connection's coroutine has ended, which closes it. -/
theorem c152_stream {h : List Lab} {c : Conn} (hr : Conn.exec {} h = some c) :
    c.delivered ++ c.unread = c.arrived ∧ (c.sock = false ↔ c.ph = .ended) ∧ (c.ph = .ended → c.closed = true) := by
  have hi := cinv_init.exec h hr
  refine ⟨hi.stream, ?_, hi.gone⟩
  have := hi.sock
  cases hc : c.sock
  · simp only [hc, Bool.false_eq_true, ne_eq, false_iff, Decidable.not_not] at this; simp [this]
  · simp only [hc, true_iff] at this; simp [this]

theorem safe_step {c c' : Conn} {l : Lab} (hl : l ≠ .run .wait) (h : c.ph ≠ .parked ∧ c.ph ≠ .crashed) (hs : c.step l = some c') :
    c'.ph ≠ .parked ∧ c'.ph ≠ .crashed := by
  have hlv : ∀ (q : Conn) b, (q.leave b).ph ≠ .parked ∧ (q.leave b).ph ≠ .crashed := by
    intro q b
    rcases leave_ph q b with h | h <;> simp [h.1]
  cases l with
  | recv bs =>
    simp only [Conn.step] at hs
    split at hs
    · simp at hs
    · simp only [Option.some.injEq] at hs; subst hs; exact h
  | peerClose =>
    simp only [Conn.step] at hs
    split at hs
    · simp at hs
    · simp only [Option.some.injEq] at hs; subst hs; exact h
  | poll =>
    simp only [Conn.step] at hs
    split at hs
    · split at hs
      · simp only [Option.some.injEq] at hs; subst hs; simp
      · simp only [Option.some.injEq] at hs; subst hs; exact h
      · rename_i hp; exact absurd hp h.1
      · simp at hs
      · simp at hs
    · simp at hs
  | run a =>
    simp only [Conn.step] at hs
    split at hs
    · split at hs
      · simp only [Option.some.injEq] at hs; subst hs; exact hlv _ _
      · cases a with
        | done close => simp only [Option.some.injEq] at hs; subst hs; exact hlv _ _
        | wait => exact absurd rfl hl
    · simp at hs
  | finish close =>
    simp only [Conn.step] at hs
    rw [if_neg h.1] at hs; simp at hs
  | closeElsewhere =>
    simp only [Conn.step] at hs
    split at hs
    · simp at hs
    · simp only [Option.some.injEq] at hs; subst hs; exact h

/-- **C152.** If no handler waits in the connection's coroutine, the process survives whatever the peer does. -/
theorem c152_safe {h : List Lab} {c : Conn} (hn : NoWait h) (hr : Conn.exec {} h = some c) : c.ph ≠ .parked ∧ c.ph ≠ .crashed := by
  have key : ∀ (h : List Lab) (a : Conn), NoWait h → a.ph ≠ .parked ∧ a.ph ≠ .crashed → a.exec h = some c → c.ph ≠ .parked ∧ c.ph ≠ .crashed := by
    intro h
    induction h with
    | nil => intro a _ ha hr; simp only [Conn.exec, Option.some.injEq] at hr; subst hr; exact ha
    | cons l t ih =>
      intro a hn ha hr
      simp only [Conn.exec] at hr
      cases hl : a.step l with
      | none => rw [hl] at hr; simp at hr
      | some a' =>
        rw [hl] at hr
        exact ih a' (fun hm => hn (List.mem_cons_of_mem _ hm)) (safe_step (fun he => hn (by simp [he])) ha hl) hr
  exact key h {} hn (by simp) hr

/-- **C152.** Whatever the peer has sent is given to the codec as soon as the loop and then the runner get to it, also what
was sent just before the peer closed; if the peer has closed or the handler closes the service, the descriptor is closed
right then, and else the connection goes on. -/
theorem c152_progress {h : List Lab} {c : Conn} (hn : NoWait h) (hr : Conn.exec {} h = some c) (hs : c.sock = true)
    (hd : c.unread ≠ [] ∨ c.eof = true) (close : Bool) :
    ∃ c', c.exec [.poll, .run (.done close)] = some c' ∧ c'.delivered = c.arrived ∧ c'.unread = [] ∧
      (c.eof = true ∨ c.closed = true ∨ (close = true ∧ c.unread ≠ []) → c'.sock = false) ∧
      (c.eof = false → c.closed = false → close = false → c'.sock = true ∧ c'.ph = .waiting) := by
  have hi := cinv_init.exec h hr
  obtain ⟨hp1, hp2⟩ := c152_safe hn hr
  have hp3 : c.ph ≠ .ended := hi.sock.1 hs
  have hpoll : c.step .poll = some { c with ph := .ready } := by
    simp only [Conn.step]
    rw [if_pos ⟨hs, hd⟩]
    cases hph : c.ph with
    | waiting => rfl
    | ready => simp only []; rw [← hph]
    | parked => exact absurd hph hp1
    | ended => exact absurd hph hp3
    | crashed => exact absurd hph hp2
  by_cases hu : c.unread = []
  · have he : c.eof = true := hd.resolve_left (fun h => h hu)
    refine ⟨(Conn.leave { c with ph := .ready, failed := c.eof } false), ?_, ?_, ?_, ?_, ?_⟩
    · simp only [Conn.exec, hpoll]
      simp only [Conn.step, if_true]
      rw [if_pos hu]
    · rw [(leave_same _ _).1]; have := hi.stream; rw [hu] at this; simpa using this
    · rw [(leave_same _ _).2.1]; exact hu
    · intro _
      rcases leave_ph { c with ph := .ready, failed := c.eof } false with h | h
      · exact h.2.1
      · have := h.2.2.2.2; simp only [] at this; rw [he] at this; simp at this
    · intro h; rw [he] at h; simp at h
  · refine ⟨(Conn.leave { c with ph := .ready, unread := [], delivered := c.delivered ++ c.unread, failed := c.eof } close), ?_, ?_, ?_, ?_, ?_⟩
    · simp only [Conn.exec, hpoll]
      simp only [Conn.step, if_true]
      rw [if_neg hu]
    · rw [(leave_same _ _).1]; exact hi.stream
    · rw [(leave_same _ _).2.1]
    · intro hcl
      rcases leave_ph { c with ph := .ready, unread := [], delivered := c.delivered ++ c.unread, failed := c.eof } close with h | h
      · exact h.2.1
      · obtain ⟨-, -, h3, h4, h5⟩ := h
        simp only [] at h3 h5
        rcases hcl with hcl | hcl | hcl
        · rw [h5] at hcl; simp at hcl
        · rw [h3] at hcl; simp at hcl
        · rw [h4] at hcl; simp at hcl
    · intro h1 h2 h3
      rcases leave_ph { c with ph := .ready, unread := [], delivered := c.delivered ++ c.unread, failed := c.eof } close with h | h
      · obtain ⟨-, -, h⟩ := h
        simp only [] at h
        rw [h1, h2, h3] at h; simp at h
      · exact ⟨h.2.1.trans hs, h.1⟩

/-- **C152.** Once closed, a connection is not handled again. -/
theorem c152_ended {h : List Lab} {c : Conn} (hr : Conn.exec {} h = some c) (he : c.sock = false) (a : Act) (b : Bool) :
    c.step .poll = none ∧ c.step (.run a) = none ∧ c.step (.finish b) = none := by
  have hp := (c152_stream hr).2.1.1 he
  refine ⟨?_, ?_, ?_⟩
  · simp only [Conn.step]; rw [if_neg (by rw [he]; simp)]
  · simp only [Conn.step]; rw [if_neg (by rw [hp]; simp)]
  · simp only [Conn.step]; rw [if_neg (by rw [hp]; simp)]

/-! ### Accepting -/

theorem accept_run {h : List ALab} {s s' : Acc} (hr : s.exec true h = some s') (ha : s.aborted = false) :
    s'.spawned.map Prod.fst ++ s'.backlog.map Prod.fst = s.spawned.map Prod.fst ++ s.backlog.map Prod.fst ++ arrivals h ∧ s'.aborted = false := by
  induction h generalizing s with
  | nil => simp only [Acc.exec, Option.some.injEq] at hr; subst hr; simp [arrivals, ha]
  | cons l t ih =>
    simp only [Acc.exec] at hr
    cases l with
    | arrive c a =>
      simp only [Acc.step] at hr
      have := ih hr ha
      rw [this.1]
      exact ⟨by simp [arrivals], this.2⟩
    | poll =>
      simp only [Acc.step] at hr
      split at hr
      · simp at hr
      · rename_i s1 he
        split at he
        · simp only [Option.some.injEq] at he; subst he
          have := ih hr ha
          rw [this.1]
          exact ⟨by simp [arrivals], this.2⟩
        · simp at he
    | run ok =>
      simp only [Acc.step] at hr
      split at hr
      · simp at hr
      · rename_i s1 he
        split at he
        · split at he
          · rename_i c tl _ hb
            simp only [Option.some.injEq] at he; subst he
            have := ih hr (by rfl)
            rw [this.1, hb]
            exact ⟨by simp [arrivals], this.2⟩
          · simp only [Option.some.injEq] at he; subst he
            have := ih hr ha
            rw [this.1]
            exact ⟨by simp [arrivals], this.2⟩
        · simp at he

/-- **C152.** With a registered codec, every connection that arrived has its coroutine or still waits with the kernel, in order
of arrival; none is lost by a failing `accept4`. -/
theorem c152_accepted {h : List ALab} {s : Acc} (hr : Acc.exec true {} h = some s) :
    s.spawned.map Prod.fst ++ s.backlog.map Prod.fst = arrivals h ∧ s.aborted = false := by
  have := accept_run (s := {}) hr rfl
  simpa using this

/-- **C152.** A waiting connection can always be accepted, and the accepted one's address is told. -/
theorem c152_accepts (s : Acc) (ha : s.aborted = false) (c : Nat) (addr : List UInt8) (rest : List (Nat × List UInt8))
    (hb : s.backlog = (c, addr) :: rest) :
    ∃ s', s.exec true [.poll, .run true] = some s' ∧ s'.backlog = rest ∧ s'.aborted = false ∧
      s'.spawned = s.spawned ++ [(c, Net.Acceptor.peerOf addr)] := by
  refine ⟨{ backlog := rest, ready := false, spawned := s.spawned ++ [(c, Net.Acceptor.peerOf addr)], aborted := false }, ?_, rfl, rfl, rfl⟩
  simp only [Acc.exec, Acc.step]
  rw [if_pos ⟨ha, by rw [hb]; simp⟩]
  simp only [hb, ha, and_self, if_true, Bool.not_true]

/-- **C152.** The address of an IPv4 peer is told exactly. -/
theorem c152_peer_v4 (e : Ip.EndPoint) (h : e.addr.length = 4) (addr : List UInt8) (hs : Ip.toSockAddr e 28 = some addr) :
    Net.Acceptor.peerOf addr = e := by
  obtain ⟨s', h1, h2, h3⟩ := (Ip.c49_sockaddr e 28).1 h (by decide)
  rw [hs] at h1
  cases h1
  unfold Net.Acceptor.peerOf
  rw [← h2, List.take_length, h3]
  rfl

/-! ### Violations -/

/-- **C153, violation.** A handler that waits in the connection's coroutine (`co_sleep`, a `WaitGroup`, a request to another
server): anything more from the peer, or its closing, calls the empty resumer, and the exception ends the process. -/
theorem c153_handler_waits_violated (bs more : List UInt8) (hb : bs ≠ []) (hm : more ≠ []) :
    (∃ c, Conn.exec {} [.recv bs, .poll, .run .wait, .recv more, .poll] = some c ∧ c.ph = .crashed) ∧
    (∃ c, Conn.exec {} [.recv bs, .poll, .run .wait, .peerClose, .poll] = some c ∧ c.ph = .crashed) := by
  refine ⟨⟨{ ph := .crashed, unread := more, delivered := bs, arrived := bs ++ more }, ?_, rfl⟩,
    ⟨{ ph := .crashed, eof := true, delivered := bs, arrived := bs }, ?_, rfl⟩⟩
  · simp [Conn.exec, Conn.step, hb, hm]
  · simp [Conn.exec, Conn.step, hb]

/-- The peer does nothing. -/
def Quiet (h : List Lab) : Prop := ∀ l ∈ h, l ≠ .peerClose ∧ ∀ bs, l ≠ .recv bs

/-- **C153, violation.** A service closed from outside the connection's coroutine (a reply given by another coroutine or a
task that closes the connection) does not close the descriptor: as long as the peer does nothing, the connection stays
open, whatever the server does. -/
theorem c153_close_elsewhere_violated (c : Conn) (hw : c.ph = .waiting) (hs : c.sock = true) (hu : c.unread = []) (he : c.eof = false) :
    ∃ c1, c.step .closeElsewhere = some c1 ∧ c1.closed = true ∧
      ∀ (h : List Lab) (c2 : Conn), Quiet h → c1.exec h = some c2 → c2.sock = true ∧ c2.ph = .waiting := by
  refine ⟨{ c with closed := true }, ?_, rfl, ?_⟩
  · simp only [Conn.step]; rw [if_neg (by rw [hw]; simp)]
  · intro h
    have key : ∀ (h : List Lab) (a c2 : Conn), Quiet h → a.ph = .waiting → a.sock = true → a.unread = [] → a.eof = false → a.exec h = some c2 →
        c2.sock = true ∧ c2.ph = .waiting := by
      intro h
      induction h with
      | nil => intro a c2 _ h1 h2 _ _ hr; simp only [Conn.exec, Option.some.injEq] at hr; subst hr; exact ⟨h2, h1⟩
      | cons l t ih =>
        intro a c2 hq h1 h2 h3 h4 hr
        have hq' : Quiet t := fun x hx => hq x (List.mem_cons_of_mem _ hx)
        simp only [Conn.exec] at hr
        cases l with
        | recv bs => exact absurd rfl ((hq (.recv bs) (by simp)).2 bs)
        | peerClose => exact absurd rfl (hq .peerClose (by simp)).1
        | poll => simp [Conn.step, h3, h4] at hr
        | run x => simp [Conn.step, h1] at hr
        | finish x => simp [Conn.step, h1] at hr
        | closeElsewhere =>
          have : a.step .closeElsewhere = some { a with closed := true } := by simp only [Conn.step]; rw [if_neg (by rw [h1]; simp)]
          rw [this] at hr
          exact ih { a with closed := true } c2 hq' h1 h2 h3 h4 hr
    intro c2 hq hr
    exact key h { c with closed := true } c2 hq hw hs hu he hr

/-- **C153, violation.** And what the peer sends after the service was closed is still given to the codec and the handler. -/
theorem c153_after_close_violated (bs : List UInt8) (hb : bs ≠ []) : ∃ c1 c2, Conn.exec {} [.closeElsewhere] = some c1 ∧ c1.closed = true ∧
    c1.delivered = [] ∧ c1.exec [.recv bs, .poll, .run (.done false)] = some c2 ∧ c2.delivered = bs := by
  refine ⟨{ closed := true }, { ph := .ended, closed := true, sock := false, delivered := bs, arrived := bs }, rfl, rfl, rfl, ?_, rfl⟩
  simp [Conn.exec, Conn.step, hb, Conn.leave]

/-- **C153, violation.** With the name of an unknown codec the server starts, and the first connection ends the process. -/
theorem c153_unknown_codec_violated (c : Nat) (addr : List UInt8) : ∃ s, Acc.exec false {} [.arrive c addr, .poll, .run true] = some s ∧
    s.aborted = true := ⟨_, rfl, rfl⟩

/-- **C153, violation.** The address of an IPv6 peer is lost. -/
theorem c153_peer_v6_violated (e : Ip.EndPoint) (h : e.addr.length = 16) (addr : List UInt8) (hs : Ip.toSockAddr e 28 = some addr) (c : Nat) :
    ∃ s, Acc.exec true {} [.arrive c addr, .poll, .run true] = some s ∧ s.spawned = [(c, ⟨[], 0⟩)] := by
  refine ⟨_, rfl, ?_⟩
  show [(c, Net.Acceptor.peerOf addr)] = _
  rw [Net.Acceptor.c125_peer_v6_violated e h addr hs]

/-! ### The hypotheses are met -/

/-- A message in two pieces, a second message, and the peer closes with a last one. -/
def sample : List Lab := [.recv [1, 2], .poll, .recv [3], .poll, .run (.done false), .recv [4], .peerClose, .poll, .run (.done false)]

example : Conn.exec {} sample = some { ph := .ended, closed := true, sock := false, eof := true, failed := true, delivered := [1, 2, 3, 4], arrived := [1, 2, 3, 4] } := by
  decide
example : NoWait sample := by simp [NoWait, sample]
example : Quiet [.closeElsewhere, .run .wait, .poll] := by
  intro l hl
  simp only [List.mem_cons, List.not_mem_nil, or_false] at hl
  rcases hl with rfl | rfl | rfl <;> simp

end Ltio.Coro.Server
