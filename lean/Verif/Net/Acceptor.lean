import Verif.Net.IpProps2

/-
net_io/socket_acceptor.cc (all), and of net_io/socket_utils.cc `AcceptSocket` (106-143), `GetPeerEndpoint` and
`GetLocalEndpoint` (177-198), `IsSelfConnect` (230-271).

The system calls are outcomes given with each event.  A descriptor is closed by the destructor of the `FdEvent`
that owns it (base/message_loop/fd_event.cc:42-46) or by `CloseSocket`.
-/
namespace Ltio.Net.Acceptor
open Ltio.Ip

/-- Outcome of `InitListener`'s system calls (45-72): `socket` failed, `bind` failed for this descriptor, or both
worked. -/
inductive Init | noSocket | noBind (fd : Nat) | ok (fd : Nat)
deriving DecidableEq, Repr

/-- Outcome of `accept4`: failed, or the new descriptor and the peer's socket address. -/
inductive Accept | fail | conn (fd : Nat) (addr : List UInt8)
deriving DecidableEq, Repr

/-- The acceptor and what it has done. -/
structure Acc where
  /-- The descriptor of `socket_event_`. -/
  fd : Nat
  /-- Read interest of `socket_event_`. -/
  reading : Bool
  /-- `listening_`. -/
  listening : Bool
  /-- Descriptors registered with the event pump. -/
  installed : List Nat
  /-- Descriptors of listeners that were opened and not closed. -/
  opened : List Nat
  /-- `listen` succeeded for `fd`: the kernel completes connections. -/
  kernel : Bool
  /-- Calls of `Actor::OnNewConnection`. -/
  delivered : List (Nat × EndPoint)
  /-- Successful calls of `accept4`. -/
  accepted : List (Nat × List UInt8)

/-- The constructor after a successful `InitListener` (29-38); a failure ends the process. -/
def Acc.new (fd : Nat) : Acc := ⟨fd, false, false, [], [fd], false, [], []⟩

/-- `InitListener` (45-72): whether it succeeded.  Replacing `socket_event_` destroys the old one, which closes
its descriptor. -/
def Acc.init (a : Acc) : Init → Acc × Bool
  | .noSocket => (a, false)
  | .noBind fd => ({ a with opened := (fd :: a.opened).erase fd }, false)
  | .ok fd => ({ a with fd := fd, reading := false, kernel := false, opened := (fd :: a.opened).erase a.fd }, true)

/-- `StartListen` (74-94), `ok` being the outcome of `listen`; the result is the return value. -/
def Acc.start (a : Acc) (ok : Bool) : Acc × Bool :=
  if a.listening then (a, true)
  else if ok then ({ a with reading := true, installed := a.fd :: a.installed, kernel := true, listening := true }, true)
  else ({ a with reading := false, installed := (a.fd :: a.installed).erase a.fd }, false)

/-- `StopListen` (96-106). -/
def Acc.stop (a : Acc) : Acc :=
  if a.listening then { a with installed := a.installed.erase a.fd, reading := false, listening := false } else a

/-- The peer address `AcceptRead` gets (117-129, socket_utils.cc:106-108): the kernel writes at most the 16
bytes of a `struct sockaddr`, and `FromSockAddr` is told 16; on failure the end point stays the default. -/
def peerOf (addr : List UInt8) : EndPoint := (fromSockAddr (addr.take 16)).getD ⟨[], 0⟩

/-- `AcceptRead` (117-132). -/
def Acc.acceptRead (a : Acc) : Accept → Acc
  | .fail => a
  | .conn fd addr => { a with accepted := a.accepted ++ [(fd, addr)], delivered := a.delivered ++ [(fd, peerOf addr)] }

/-- `HandleError` (134-145). -/
def Acc.handleError (a : Acc) (i : Init) (ok : Bool) : Acc :=
  if (a.stop.init i).2 then ((a.stop.init i).1.start ok).1 else (a.stop.init i).1

/-- What can happen: the owner starts and stops, and the event pump reports events of a registered descriptor
(`HandleEvent`, 108-115: first reading, then errors). -/
inductive Ev
  | start (ok : Bool)
  | stop
  | event (fd : Nat) (read : Option Accept) (error : Option (Init × Bool))

/-- The reading part of `HandleEvent` (108-115). -/
def Acc.readPart (a : Acc) : Option Accept → Acc
  | none => a
  | some r => a.acceptRead r

/-- The error part of `HandleEvent` (108-115). -/
def Acc.errorPart (a : Acc) : Option (Init × Bool) → Acc
  | none => a
  | some (i, ok) => a.handleError i ok

/-- One happening; an event of a descriptor that is not registered reaches nobody. -/
def Acc.step (a : Acc) : Ev → Acc
  | .start ok => (a.start ok).1
  | .stop => a.stop
  | .event fd r e => if fd ∈ a.installed then (a.readPart r).errorPart e else a

/-- The kernel gives descriptors that are not in use. -/
def fresh (a : Acc) : Ev → Prop
  | .event _ _ (some (.ok fd, _)) => fd ∉ a.opened
  | .event _ _ (some (.noBind fd, _)) => fd ∉ a.opened
  | _ => True

/-- Histories in which the kernel only gives descriptors that are not in use. -/
inductive Runs : Acc → List Ev → Acc → Prop
  | nil (a : Acc) : Runs a [] a
  | cons (a : Acc) (e : Ev) (es : List Ev) (b : Acc) : fresh a e → Runs (a.step e) es b → Runs a (e :: es) b

/-! ### Specification -/

/-- One listening socket is open, the current one, and it is registered exactly while listening. -/
def Tidy (a : Acc) : Prop :=
  a.opened = [a.fd] ∧ a.installed = (if a.listening then [a.fd] else []) ∧ a.reading = a.listening ∧ (a.listening = true → a.kernel = true)

theorem tidy_stop (a : Acc) (h : Tidy a) : Tidy a.stop ∧ a.stop.listening = false := by
  obtain ⟨h1, h2, h3, h4⟩ := h
  unfold Acc.stop
  by_cases hl : a.listening = true
  · rw [if_pos hl]
    refine ⟨⟨h1, ?_, rfl, fun hh => by cases hh⟩, rfl⟩
    rw [h2, if_pos hl]
    simp
  · rw [if_neg hl]
    have : a.listening = false := by simpa using hl
    exact ⟨⟨h1, h2, h3, h4⟩, this⟩

theorem tidy_start (a : Acc) (ok : Bool) (h : Tidy a) : Tidy (a.start ok).1 := by
  obtain ⟨h1, h2, h3, h4⟩ := h
  unfold Acc.start
  by_cases hl : a.listening = true
  · rw [if_pos hl]; exact ⟨h1, h2, h3, h4⟩
  · rw [if_neg hl]
    rw [if_neg hl] at h2
    have hlf : a.listening = false := by simpa using hl
    cases ok with
    | true => exact ⟨h1, by simp [h2], rfl, fun _ => rfl⟩
    | false => exact ⟨h1, by simp [h2, hlf], by simp [hlf], by simp [hlf]⟩

theorem tidy_init (a : Acc) (i : Init) (h : Tidy a) (hl : a.listening = false)
    (hf : ∀ fd, i = .ok fd ∨ i = .noBind fd → fd ∉ a.opened) : Tidy (a.init i).1 := by
  obtain ⟨h1, h2, h3, h4⟩ := h
  cases i with
  | noSocket => exact ⟨h1, h2, h3, h4⟩
  | noBind fd => exact ⟨by simp [Acc.init, h1], h2, h3, h4⟩
  | ok fd =>
    have hn : fd ≠ a.fd := by
      have := hf fd (Or.inl rfl)
      rw [h1] at this
      simpa using this
    refine ⟨?_, ?_, ?_, ?_⟩
    · have : ([fd, a.fd] : List Nat).erase a.fd = [fd] := by
        rw [List.erase_cons_tail (by simpa using hn)]
        simp
      simp only [Acc.init, h1, this]
    · rw [hl] at h2; simp [Acc.init, h2, hl]
    · simp [Acc.init, hl]
    · simp [Acc.init, hl]

theorem tidy_error (a : Acc) (i : Init) (ok : Bool) (h : Tidy a) (hf : ∀ fd, i = .ok fd ∨ i = .noBind fd → fd ∉ a.opened) :
    Tidy (a.handleError i ok) := by
  obtain ⟨hs, hl⟩ := tidy_stop a h
  have ho : a.stop.opened = a.opened := by unfold Acc.stop; split <;> rfl
  have hi := tidy_init a.stop i hs hl (by rw [ho]; exact hf)
  unfold Acc.handleError
  split
  · exact tidy_start _ _ hi
  · exact hi

theorem tidy_step (a : Acc) (e : Ev) (h : Tidy a) (hf : fresh a e) : Tidy (a.step e) := by
  cases e with
  | start ok => exact tidy_start a ok h
  | stop => exact (tidy_stop a h).1
  | event fd r e =>
    unfold Acc.step
    by_cases hm : fd ∈ a.installed
    · simp only [if_pos hm]
      have hr : Tidy (a.readPart r) ∧ (a.readPart r).opened = a.opened := by
        cases r with
        | none => exact ⟨h, rfl⟩
        | some r => cases r with
          | fail => exact ⟨h, rfl⟩
          | conn c ad => exact ⟨h, rfl⟩
      cases e with
      | none => exact hr.1
      | some x =>
        obtain ⟨i, ok⟩ := x
        refine tidy_error _ i ok hr.1 ?_
        rw [hr.2]
        intro fd' hi
        rcases hi with rfl | rfl
        · exact hf
        · exact hf
    · simp only [if_neg hm]; exact h

/-- **C123 (one listener, no leak)**: for every history of starts, stops, connections and errors and whatever
the system calls return, exactly one listening socket is open, the current one (every other one was closed
once), it is registered with the event pump exactly while the acceptor listens, and while it listens the kernel
does. -/
theorem c123_tidy (fd : Nat) (es : List Ev) (b : Acc) (h : Runs (Acc.new fd) es b) : Tidy b := by
  have gen : ∀ a es b, Runs a es b → Tidy a → Tidy b := by
    intro a es b h
    induction h with
    | nil a => exact id
    | cons a e es b hf _ ih => exact fun ht => ih (tidy_step a e ht hf)
  exact gen _ _ _ h ⟨rfl, rfl, rfl, fun hh => by cases hh⟩

theorem stop_logs (a : Acc) : a.stop.delivered = a.delivered ∧ a.stop.accepted = a.accepted := by
  unfold Acc.stop; split <;> exact ⟨rfl, rfl⟩

theorem start_logs (a : Acc) (ok : Bool) : (a.start ok).1.delivered = a.delivered ∧ (a.start ok).1.accepted = a.accepted := by
  unfold Acc.start
  split
  · exact ⟨rfl, rfl⟩
  · split <;> exact ⟨rfl, rfl⟩

theorem init_logs (a : Acc) (i : Init) : (a.init i).1.delivered = a.delivered ∧ (a.init i).1.accepted = a.accepted := by
  cases i <;> exact ⟨rfl, rfl⟩

theorem error_logs (a : Acc) (i : Init) (ok : Bool) :
    (a.handleError i ok).delivered = a.delivered ∧ (a.handleError i ok).accepted = a.accepted := by
  unfold Acc.handleError
  split
  · exact ⟨(start_logs _ _).1.trans ((init_logs _ _).1.trans (stop_logs a).1), (start_logs _ _).2.trans ((init_logs _ _).2.trans (stop_logs a).2)⟩
  · exact ⟨(init_logs _ _).1.trans (stop_logs a).1, (init_logs _ _).2.trans (stop_logs a).2⟩

/-- The connections a history brings, if each event counts that is reported for the registered descriptor. -/
def arrivals (a : Acc) : List Ev → List (Nat × List UInt8)
  | [] => []
  | .event fd r e :: es =>
    (if fd ∈ a.installed then (match r with | some (.conn c ad) => [(c, ad)] | _ => []) else []) ++ arrivals (a.step (.event fd r e)) es
  | .start ok :: es => arrivals (a.step (.start ok)) es
  | .stop :: es => arrivals (a.step .stop) es

theorem step_logs (a : Acc) (e : Ev) : (∃ l, (a.step e).accepted = a.accepted ++ l ∧
    (a.step e).delivered = a.delivered ++ l.map (fun c => (c.1, peerOf c.2)) ∧ arrivals a [e] = l) := by
  cases e with
  | start ok => exact ⟨[], by simp [Acc.step, start_logs], by simp [Acc.step, start_logs], rfl⟩
  | stop => exact ⟨[], by simp [Acc.step, stop_logs], by simp [Acc.step, stop_logs], rfl⟩
  | event fd r e =>
    have key : ∀ b : Acc, (b.errorPart e).delivered = b.delivered ∧ (b.errorPart e).accepted = b.accepted := by
      intro b
      cases e with
      | none => exact ⟨rfl, rfl⟩
      | some x => exact error_logs b x.1 x.2
    by_cases hm : fd ∈ a.installed
    · simp only [Acc.step, arrivals, if_pos hm, List.append_nil]
      rw [(key _).1, (key _).2]
      rcases r with _ | _ | ⟨c, ad⟩
      · exact ⟨[], by simp [Acc.readPart], by simp [Acc.readPart], rfl⟩
      · exact ⟨[], by simp [Acc.readPart, Acc.acceptRead], by simp [Acc.readPart, Acc.acceptRead], rfl⟩
      · exact ⟨[(c, ad)], by simp [Acc.readPart, Acc.acceptRead], by simp [Acc.readPart, Acc.acceptRead], rfl⟩
    · exact ⟨[], by simp [Acc.step, hm], by simp [Acc.step, hm], by simp [arrivals, hm]⟩

/-- **C123 (every connection once)**: for every history, the connections given to the actor are exactly those
the kernel gave, each once and in order, none lost by errors and restarts. -/
theorem c123_once (fd : Nat) (es : List Ev) (b : Acc) (h : Runs (Acc.new fd) es b) :
    b.accepted = arrivals (Acc.new fd) es ∧ b.delivered = b.accepted.map (fun c => (c.1, peerOf c.2)) := by
  have gen : ∀ a es b, Runs a es b → b.accepted = a.accepted ++ arrivals a es ∧
      b.delivered = a.delivered ++ (arrivals a es).map (fun c => (c.1, peerOf c.2)) := by
    intro a es b h
    induction h with
    | nil a => simp [arrivals]
    | cons a e es b _ _ ih =>
      obtain ⟨l, h1, h2, h3⟩ := step_logs a e
      have hc : arrivals a (e :: es) = l ++ arrivals (a.step e) es := by
        rw [← h3]
        cases e <;> simp [arrivals]
      rw [hc, ih.1, ih.2, h1, h2]
      simp
  have := gen _ _ _ h
  refine ⟨by simpa [Acc.new] using this.1, ?_⟩
  rw [this.1, this.2]
  simp [Acc.new]

/-- **C123 (nothing while stopped)**: while the acceptor does not listen, no event changes anything. -/
theorem c123_stopped (fd : Nat) (es : List Ev) (b : Acc) (h : Runs (Acc.new fd) es b) (hl : b.listening = false) (f : Nat)
    (r : Option Accept) (e : Option (Init × Bool)) : b.step (.event f r e) = b := by
  have := (c123_tidy fd es b h).2.1
  rw [hl] at this
  simp [Acc.step, this]

/-- **C123 (errors)**: after an error of the listening socket the acceptor listens exactly if a new socket could
be opened, bound and listened on. -/
theorem c123_error (a : Acc) (h : Tidy a) (hl : a.listening = true) (r : Option Accept) (i : Init) (ok : Bool) :
    (a.step (.event a.fd r (some (i, ok)))).listening = true ↔ (∃ fd, i = .ok fd) ∧ ok = true := by
  have hm : a.fd ∈ a.installed := by rw [h.2.1, if_pos hl]; simp
  simp only [Acc.step, if_pos hm, Acc.errorPart]
  have hlr : (a.readPart r).listening = true := by rcases r with _ | _ | ⟨c, ad⟩ <;> exact hl
  generalize a.readPart r = b at hlr
  unfold Acc.handleError
  have hs : b.stop.listening = false := by unfold Acc.stop; rw [if_pos hlr]
  cases i with
  | noSocket => simp [Acc.init, hs]
  | noBind fd => simp [Acc.init, hs]
  | ok fd => cases ok <;> simp [Acc.init, Acc.start, hs]

/-- **C123**: `StartListen` returns whether the acceptor listens afterwards; a socket that was opened anew does not
complete connections before that. -/
theorem c123_start (a : Acc) (ok : Bool) : (a.start ok).2 = (a.start ok).1.listening := by
  unfold Acc.start
  split
  · rename_i h; exact h.symm
  · rename_i h
    split
    · rfl
    · simp only; cases hl : a.listening with
      | true => exact absurd hl h
      | false => rfl

theorem c123_reopened (a : Acc) (fd : Nat) : (a.init (.ok fd)).1.kernel = false ∧ (a.init (.ok fd)).1.fd = fd ∧
    (a.init (.ok fd)).2 = true := ⟨rfl, rfl, rfl⟩

/-- **C124 (errors are final)**: violation.  If an error cannot be repaired at once, the acceptor stays deaf for
all later events until somebody starts it again; the actor is not told (`OnFatalError` and `AutoRestart` have no
caller). -/
theorem c124_deaf_violated (a : Acc) (h : Tidy a) (hl : a.listening = true) (i : Init) (hi : ∀ fd, i ≠ .ok fd) (ok : Bool)
    (es : List Ev) (hes : ∀ e ∈ es, ∀ b, e ≠ .start b) :
    (es.foldl Acc.step (a.step (.event a.fd none (some (i, ok))))).delivered = a.delivered ∧
    (es.foldl Acc.step (a.step (.event a.fd none (some (i, ok))))).listening = false := by
  have hm : a.fd ∈ a.installed := by rw [h.2.1, if_pos hl]; simp
  have h0 : (a.step (.event a.fd none (some (i, ok)))).delivered = a.delivered ∧
      (a.step (.event a.fd none (some (i, ok)))).listening = false ∧ (a.step (.event a.fd none (some (i, ok)))).installed = [] := by
    simp only [Acc.step, if_pos hm, Acc.readPart, Acc.errorPart]
    refine ⟨(error_logs a i ok).1, ?_, ?_⟩
    · unfold Acc.handleError Acc.stop
      cases i with
      | noSocket => simp [Acc.init, hl]
      | noBind fd => simp [Acc.init, hl]
      | ok fd => exact absurd rfl (hi fd)
    · have hin := h.2.1
      rw [if_pos hl] at hin
      unfold Acc.handleError Acc.stop
      cases i with
      | noSocket => simp [Acc.init, hl, hin]
      | noBind fd => simp [Acc.init, hl, hin]
      | ok fd => exact absurd rfl (hi fd)
  generalize a.step (.event a.fd none (some (i, ok))) = b at h0
  induction es generalizing b with
  | nil => exact ⟨h0.1, h0.2.1⟩
  | cons e es ih =>
    have hb : b.step e = b := by
      cases e with
      | start ok' => exact absurd rfl (hes _ (by simp) ok')
      | stop => simp [Acc.step, Acc.stop, h0.2.1]
      | event f r x => simp [Acc.step, h0.2.2]
    rw [List.foldl_cons, hb]
    exact ih (fun e he => hes e (by simp [he])) b h0

/-- **C124 (stopping)**: violation.  `StopListen` only removes the event: the kernel keeps completing
connections of clients, which nobody serves, until the acceptor is destroyed. -/
theorem c124_stop_violated (fd : Nat) : ((((Acc.new fd).start true).1).stop).kernel = true ∧ ((((Acc.new fd).start true).1).stop).listening = false ∧
    ((((Acc.new fd).start true).1).stop).opened = [fd] := by
  simp [Acc.new, Acc.start, Acc.stop]

/-! ### Addresses -/

/-- **C125 (IPv4 peers)**: the actor gets exactly the address of every IPv4 peer. -/
theorem c125_peer_v4 (e : EndPoint) (h : e.addr.length = 4) (s : List UInt8) (hs : toSockAddr e 28 = some s) : peerOf s = e := by
  obtain ⟨s', h1, h2, h3⟩ := (c49_sockaddr e 28).1 h (by decide)
  rw [hs] at h1
  cases h1
  unfold peerOf
  rw [← h2, List.take_length, h3]
  rfl

/-- **C125 (IPv6 peers)**: violation.  A `struct sockaddr` is too small for IPv6: whatever the peer's address,
the actor gets an empty address and port 0. -/
theorem c125_peer_v6_violated (e : EndPoint) (h : e.addr.length = 16) (s : List UInt8) (hs : toSockAddr e 28 = some s) :
    peerOf s = ⟨[], 0⟩ := by
  have e1 : s = [10, 0, UInt8.ofNat (e.port.toNat / 256), UInt8.ofNat (e.port.toNat % 256)] ++ List.replicate 4 0 ++ e.addr ++ List.replicate 4 0 := by
    unfold toSockAddr at hs
    simp only [] at hs
    rw [if_neg (by omega), if_pos h, if_neg (by omega)] at hs
    exact (Option.some.inj hs).symm
  unfold peerOf
  have : fromSockAddr (s.take 16) = none := by
    rw [e1]
    simp only [List.cons_append, List.nil_append, List.take_succ_cons]
    unfold fromSockAddr
    simp only []
    rw [if_neg (by decide), if_pos (by decide), if_pos]
    simp [List.length_take]
    omega
  rw [this]
  rfl

/-- `GetPeerEndpoint` and `GetLocalEndpoint` (socket_utils.cc:177-198): the kernel fills the 16 bytes of a zeroed
`struct sockaddr` and reports the true size; `FromSockAddr` reads that many bytes, the rest from whatever lies
behind. -/
def getEndpoint (addr behind : List UInt8) : Option EndPoint :=
  fromSockAddr (((addr.take 16 ++ List.replicate (16 - addr.length) 0) ++ behind).take addr.length)

/-- **C125 (IPv4 end points)**: local and peer end points of IPv4 connections are exact and need no byte outside. -/
theorem c125_endpoint_v4 (e : EndPoint) (h : e.addr.length = 4) (s behind : List UInt8) (hs : toSockAddr e 28 = some s) :
    getEndpoint s behind = some e := by
  obtain ⟨s', h1, h2, h3⟩ := (c49_sockaddr e 28).1 h (by decide)
  rw [hs] at h1
  cases h1
  unfold getEndpoint
  rw [h2, List.take_of_length_le (by omega : s.length ≤ 16)]
  have : (s ++ List.replicate (16 - 16) 0 ++ behind).take 16 = s := by
    rw [Nat.sub_self, List.replicate_zero, List.append_nil, ← h2, List.take_left]
  rw [this, h3]

/-- **C125 (IPv6 end points)**: violation.  For IPv6 eight bytes behind the structure are read: the second half
of the address is whatever lies on the stack. -/
theorem c125_endpoint_v6_violated (e : EndPoint) (h : e.addr.length = 16) (s behind : List UInt8) (hs : toSockAddr e 28 = some s)
    (hb : 12 ≤ behind.length) : getEndpoint s behind = some ⟨e.addr.take 8 ++ behind.take 8, e.port⟩ := by
  obtain ⟨a, port⟩ := e
  simp only [] at h
  have e1 : s = [10, 0, UInt8.ofNat (port.toNat / 256), UInt8.ofNat (port.toNat % 256)] ++ List.replicate 4 0 ++ a ++ List.replicate 4 0 := by
    unfold toSockAddr at hs
    simp only [] at hs
    rw [if_neg (by omega), if_pos h, if_neg (by omega)] at hs
    exact (Option.some.inj hs).symm
  have hport : UInt16.ofNat ((UInt8.ofNat (port.toNat / 256)).toNat * 256 + (UInt8.ofNat (port.toNat % 256)).toNat) = port := by
    have hp := port.toNat_lt
    apply UInt16.toNat_inj.1
    rw [UInt16.toNat_ofNat', UInt8.toNat_ofNat', UInt8.toNat_ofNat']
    omega
  have hl : s.length = 28 := by rw [e1]; simp [h]
  have ht : s.take 16 = [10, 0, UInt8.ofNat (port.toNat / 256), UInt8.ofNat (port.toNat % 256)] ++ (List.replicate 4 0 ++ a.take 8) := by
    rw [e1]
    simp only [List.cons_append, List.nil_append, List.take_succ_cons, List.append_assoc]
    congr 4
    rw [List.take_append, List.take_append]
    simp [h]
  unfold getEndpoint
  rw [hl, ht, show (16 - 28 : Nat) = 0 from rfl, List.replicate_zero, List.append_nil]
  have e2 : (([10, 0, UInt8.ofNat (port.toNat / 256), UInt8.ofNat (port.toNat % 256)] ++ (List.replicate 4 0 ++ a.take 8)) ++ behind).take 28 =
      [10, 0, UInt8.ofNat (port.toNat / 256), UInt8.ofNat (port.toNat % 256)] ++ (List.replicate 4 0 ++ (a.take 8 ++ behind.take 12)) := by
    simp only [List.cons_append, List.nil_append, List.take_succ_cons, List.append_assoc]
    congr 4
    rw [List.take_append, List.take_append]
    simp [h]
    exact List.take_of_length_le (by simp)
  rw [e2]
  simp only [List.cons_append, List.nil_append]
  unfold fromSockAddr
  simp only []
  rw [if_neg (by decide), if_pos (by decide), if_neg (by simp [h]; omega), hport]
  have e3 : ((List.replicate 4 (0 : UInt8) ++ (a.take 8 ++ behind.take 12)).drop 4).take 16 = a.take 8 ++ behind.take 8 := by
    rw [List.drop_left' (by simp), List.take_append]
    have hal : (a.take 8).length = 8 := by simp [h]
    rw [List.take_of_length_le (by omega), hal, List.take_take]
    rfl
  rw [e3]

/-- `IsSelfConnect` (socket_utils.cc:230-271), given what `GetLocalEndpoint` and `GetPeerEndpoint` found:
the ports and the addresses of the local end point's family are compared in their socket addresses. -/
def isSelfConnect (local' peer : Option EndPoint) : Bool :=
  match local', peer with
  | some l, some p =>
    match toSockAddr l 128, toSockAddr p 128 with
    | some a, some b =>
      if l.addr.length = 4 then ((a.drop 2).take 2 == (b.drop 2).take 2) && ((a.drop 4).take 4 == (b.drop 4).take 4)
      else if l.addr.length = 16 then ((a.drop 2).take 2 == (b.drop 2).take 2) && ((a.drop 8).take 16 == (b.drop 8).take 16)
      else false
    | _, _ => false
  | _, _ => false

theorem port_bytes (p q : UInt16) : ([UInt8.ofNat (p.toNat / 256), UInt8.ofNat (p.toNat % 256)] =
    [UInt8.ofNat (q.toNat / 256), UInt8.ofNat (q.toNat % 256)]) ↔ p = q := by
  constructor
  · intro h
    simp only [List.cons.injEq, and_true] at h
    have hp := p.toNat_lt
    have hq := q.toNat_lt
    have h1 := congrArg UInt8.toNat h.1
    have h2 := congrArg UInt8.toNat h.2
    rw [UInt8.toNat_ofNat', UInt8.toNat_ofNat'] at h1 h2
    apply UInt16.toNat_inj.1
    omega
  · rintro rfl; rfl

/-- **C125 (self connections)**: an IPv4 connection is taken for a connection to itself exactly if both end
points are the same. -/
theorem c125_self_v4 (l p : EndPoint) (hl : l.addr.length = 4) (hp : p.addr.length = 4) (sl sp b1 b2 : List UInt8)
    (h1 : toSockAddr l 28 = some sl) (h2 : toSockAddr p 28 = some sp) :
    isSelfConnect (getEndpoint sl b1) (getEndpoint sp b2) = true ↔ l = p := by
  rw [c125_endpoint_v4 l hl sl b1 h1, c125_endpoint_v4 p hp sp b2 h2]
  obtain ⟨la, lp⟩ := l
  obtain ⟨pa, pp⟩ := p
  simp only [] at hl hp
  have e1 : toSockAddr ⟨la, lp⟩ 128 = some ([2, 0, UInt8.ofNat (lp.toNat / 256), UInt8.ofNat (lp.toNat % 256)] ++ la ++ List.replicate 8 0) := by
    simp [toSockAddr, hl]
  have e2 : toSockAddr ⟨pa, pp⟩ 128 = some ([2, 0, UInt8.ofNat (pp.toNat / 256), UInt8.ofNat (pp.toNat % 256)] ++ pa ++ List.replicate 8 0) := by
    simp [toSockAddr, hp]
  unfold isSelfConnect
  simp only [e1, e2, hl, if_true]
  simp only [List.cons_append, List.nil_append, List.drop_succ_cons, List.drop_zero, List.take_succ_cons, List.take_zero]
  rw [List.take_left' hl, List.take_left' hp, Bool.and_eq_true, beq_iff_eq, beq_iff_eq, port_bytes]
  constructor
  · rintro ⟨rfl, rfl⟩; rfl
  · rintro h; cases h; exact ⟨rfl, rfl⟩

/-- **C125 (self connections)**: given the two end points of an IPv6 connection, it is taken for a connection to itself
exactly if they are the same. -/
theorem c125_self_v6 (l p : EndPoint) (hl : l.addr.length = 16) (hp : p.addr.length = 16) :
    isSelfConnect (some l) (some p) = true ↔ l = p := by
  obtain ⟨la, lp⟩ := l
  obtain ⟨pa, pp⟩ := p
  simp only [] at hl hp
  have e1 : toSockAddr ⟨la, lp⟩ 128 = some ([10, 0, UInt8.ofNat (lp.toNat / 256), UInt8.ofNat (lp.toNat % 256)] ++ List.replicate 4 0 ++ la ++ List.replicate 4 0) := by
    simp [toSockAddr, hl]
  have e2 : toSockAddr ⟨pa, pp⟩ 128 = some ([10, 0, UInt8.ofNat (pp.toNat / 256), UInt8.ofNat (pp.toNat % 256)] ++ List.replicate 4 0 ++ pa ++ List.replicate 4 0) := by
    simp [toSockAddr, hp]
  have drop8 : ∀ (x y : UInt8) (a : List UInt8), a.length = 16 →
      (([10, 0, x, y] ++ List.replicate 4 0 ++ a ++ List.replicate 4 (0 : UInt8)).drop 8).take 16 = a := by
    intro x y a ha
    rw [List.append_assoc, List.drop_left' (by simp), List.take_left' ha]
  have drop2 : ∀ (x y : UInt8) (a : List UInt8),
      (([10, 0, x, y] ++ List.replicate 4 0 ++ a ++ List.replicate 4 (0 : UInt8)).drop 2).take 2 = [x, y] := by
    intro x y a; rfl
  unfold isSelfConnect
  simp only [e1, e2, hl]
  rw [if_neg (by decide), if_pos trivial, drop8 _ _ _ hl, drop8 _ _ _ hp, drop2, drop2, Bool.and_eq_true, beq_iff_eq,
    beq_iff_eq, port_bytes]
  constructor
  · rintro ⟨rfl, rfl⟩; rfl
  · rintro h; cases h; exact ⟨rfl, rfl⟩

/-! ### Examples -/

/-- Start, a connection, an error repaired with a new socket, a connection on it, stop. -/
example : Runs (Acc.new 3) [.start true, .event 3 (some (.conn 7 [2, 0, 0, 80, 10, 0, 0, 1, 0, 0, 0, 0, 0, 0, 0, 0])) none,
    .event 3 none (some (.ok 5, true)), .event 5 (some (.conn 8 [])) none, .stop]
    ([.start true, .event 3 (some (.conn 7 [2, 0, 0, 80, 10, 0, 0, 1, 0, 0, 0, 0, 0, 0, 0, 0])) none,
    .event 3 none (some (.ok 5, true)), .event 5 (some (.conn 8 [])) none, .stop].foldl Acc.step (Acc.new 3)) := by
  refine .cons _ _ _ _ ?_ (.cons _ _ _ _ ?_ (.cons _ _ _ _ ?_ (.cons _ _ _ _ ?_ (.cons _ _ _ _ ?_ (.nil _)))))
  · exact True.intro
  · exact True.intro
  · show 5 ∉ [3]; decide
  · exact True.intro
  · exact True.intro

example : Tidy ((Acc.new 3).start true).1 ∧ ((Acc.new 3).start true).1.listening = true := by
  simp [Tidy, Acc.new, Acc.start]

end Ltio.Net.Acceptor
