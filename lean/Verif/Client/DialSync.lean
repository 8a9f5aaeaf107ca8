/-
C205, C206: `WsClient::DialSync` (net_io/clients/ws_client.cc:41-56), which connects without leaving the loop
(`OnConnected` demands the loop's thread, line 88), with `Connector::DialSync`
(net_io/clients/client_connector.cc:83-115) and what becomes of the connection's reads.

Descriptors are numbers; the operating system's answers are arbitrary.  `connect(2)` returns at some time (how long
the loop stands still for it is not modelled).  For the reads: bytes arrive at any time, a `read` gives any
non-empty part of what has arrived; with nothing there it fails with EAGAIN on a non-blocking socket and waits on
a blocking one (read(2)).  An error of a read counts as the end of the peer's bytes.
-/
namespace Ltio.Client.DialSync

/-! ### The program: connecting -/

/-- What the operating system answers to one attempt: the new descriptor, whether the address can be converted,
whether `connect` succeeds, and whether the names of both ends can be had. -/
structure Answers where
  sock : Option Nat
  addr : Bool
  conn : Bool
  names : Bool
deriving DecidableEq, Repr

/-- An open descriptor and whether it is non-blocking. -/
abbrev Fds := List (Nat × Bool)

def close (f : Fds) (s : Nat) : Fds := f.filter (fun p => p.1 ≠ s)

/-- `SetSocketBlocking` (socket_utils.cc:87-97) on an open descriptor. -/
def setBlocking (f : Fds) (s : Nat) : Fds := f.map (fun p => if p.1 = s then (s, false) else p)

/-- `Connector::DialSync` (client_connector.cc:83-115); `CreateBlockTCPSocket` (socket_utils.cc:118-123) makes a
blocking socket. -/
def dialSync (a : Answers) (f : Fds) : Option Nat × Fds :=
  match a.sock with
  | none => (none, f)
  | some s =>
    let f := (s, false) :: f
    if a.addr = false then (none, close f s)
    else if a.conn = false then (none, f)
    else if a.names = false then (none, close f s)
    else (some s, setBlocking f s)

/-- `ConnDetail::valid` (client_connector.h:46) with the answer of `WsClient::DialSync` (ws_client.cc:41-56) for an
address that could be parsed: the descriptor the connection gets. -/
def wsDialSync (a : Answers) (f : Fds) : Option Nat × Fds :=
  match dialSync a f with
  | (some s, f) => if s > 0 then (some s, f) else (none, f)
  | (none, f) => (none, f)

/-- Several attempts: the descriptors the user got, and those open. -/
def attempts : List Answers → Fds → List Nat × Fds
  | [], f => ([], f)
  | a :: as, f =>
    let x := wsDialSync a f
    let y := attempts as x.2
    (x.1.toList ++ y.1, y.2)

/-- The operating system gives descriptors not in use. -/
def Fresh (a : Answers) (f : Fds) : Prop := ∀ s, a.sock = some s → ∀ p ∈ f, p.1 ≠ s

/-! ### The program: reading -/

/-- A connection and its loop: bytes the peer has sent, those not read yet, whether the peer's bytes have ended,
`ReaderBuffer()`, whether the loop's thread is inside `HandleRead`, the bytes given to `OnDataReceived`, whether
the connection was closed, tasks posted to the loop and tasks run. -/
structure St where
  sent : List UInt8
  queue : List UInt8
  ended : Bool
  inb : List UInt8
  inRead : Bool
  handed : List UInt8
  closed : Bool
  tasks : Nat
  ran : Nat
deriving DecidableEq, Repr

/-- Just started (ws_client.cc:116-123). -/
def St.init : St := ⟨[], [], false, [], false, [], false, 0, 0⟩

/-- What the rest of the world does. -/
inductive World : St → St → Prop where
  | arrive (s : St) (bs : List UInt8) : s.ended = false → World s { s with sent := s.sent ++ bs, queue := s.queue ++ bs }
  | finish (s : St) : World s { s with ended := true }
  | post (s : St) : World s { s with tasks := s.tasks + 1 }

/-- What the loop's thread does; `nonblock`: the socket is non-blocking.
`HandleEvent` for a read event (codec_service.cc:109-143): `HandleRead` (tcp_channel.cc:53-81) reads until EAGAIN,
the end, or an error; then what was read goes to `OnDataReceived`, and after -1 the connection is closed. -/
inductive Loop (nonblock : Bool) : St → St → Prop where
  | task (s : St) (n : Nat) : s.inRead = false → s.tasks = n + 1 → Loop nonblock s { s with tasks := n, ran := s.ran + 1 }
  | event (s : St) : s.inRead = false → s.closed = false → (s.queue ≠ [] ∨ s.ended = true) → Loop nonblock s { s with inRead := true }
  | read (s : St) (bs rest : List UInt8) : s.inRead = true → s.queue = bs ++ rest → bs ≠ [] →
      Loop nonblock s { s with queue := rest, inb := s.inb ++ bs }
  | again (s : St) : s.inRead = true → s.queue = [] → s.ended = false → nonblock = true →
      Loop nonblock s { s with inRead := false, handed := s.handed ++ s.inb, inb := [] }
  | stop (s : St) : s.inRead = true → s.queue = [] → s.ended = true →
      Loop nonblock s { s with inRead := false, handed := s.handed ++ s.inb, inb := [], closed := true }

/-- Any number of steps of either. -/
inductive Run (nonblock : Bool) : St → St → Prop where
  | refl (s : St) : Run nonblock s s
  | world {s t u : St} : Run nonblock s t → World t u → Run nonblock s u
  | loop {s t u : St} : Run nonblock s t → Loop nonblock t u → Run nonblock s u

/-- Any number of steps of the loop alone. -/
inductive LoopRun (nonblock : Bool) : St → St → Prop where
  | refl (s : St) : LoopRun nonblock s s
  | step {s t u : St} : Loop nonblock s t → LoopRun nonblock t u → LoopRun nonblock s u

/-! ### Connecting -/

theorem close_fresh {f : Fds} {s : Nat} (h : ∀ p ∈ f, p.1 ≠ s) (b : Bool) : close ((s, b) :: f) s = f := by
  unfold close
  rw [List.filter_cons_of_neg (by simp)]
  exact List.filter_eq_self.2 (fun p hp => by simpa using h p hp)

theorem setBlocking_fresh {f : Fds} {s : Nat} (h : ∀ p ∈ f, p.1 ≠ s) : setBlocking ((s, false) :: f) s = (s, false) :: f := by
  unfold setBlocking
  rw [List.map_cons, if_pos rfl]
  congr 1
  conv => rhs; rw [← List.map_id f]
  exact List.map_congr_left (fun p hp => by rw [if_neg (h p hp)]; rfl)

/-- **C206: a socket or nothing.**  An attempt that gives a connection gives the new socket, connected, blocking, and opens nothing else; one that
fails for any other reason than `connect` leaves the open descriptors as they were. -/
theorem c206_dial (a : Answers) (f : Fds) (hf : Fresh a f) :
    (∀ s f', dialSync a f = (some s, f') ↔ a = ⟨some s, true, true, true⟩ ∧ f' = (s, false) :: f) ∧
    (∀ f', dialSync a f = (none, f') → (a.sock = none ∨ a.addr = false ∨ a.conn = true) → f' = f) := by
  obtain ⟨sock, addr, conn, names⟩ := a
  cases sock with
  | none => exact ⟨fun s f' => ⟨fun h => by simp [dialSync] at h, fun h => by simp at h⟩, fun f' h _ => by simp [dialSync] at h; exact h.symm⟩
  | some s =>
    have hs : ∀ p ∈ f, p.1 ≠ s := hf s rfl
    constructor
    · intro s' f'
      cases addr <;> cases conn <;> cases names <;> simp [dialSync, setBlocking_fresh hs]
      rintro rfl
      exact eq_comm
    · intro f'
      cases addr <;> cases conn <;> cases names <;> simp [dialSync, close_fresh hs] <;> exact fun h => h.symm

/-- **C206: what the user is told.**  `WsClient::DialSync` gives the connection just made, unless its descriptor is 0, and says nothing was
made if nothing was; which descriptors are open afterwards does not depend on that. -/
theorem c206_told (a : Answers) (f : Fds) (hf : Fresh a f) :
    (∀ s, (wsDialSync a f).1 = some s ↔ a = ⟨some s, true, true, true⟩ ∧ s ≠ 0) ∧ (wsDialSync a f).2 = (dialSync a f).2 := by
  have hd := (c206_dial a f hf).1
  unfold wsDialSync
  rcases e : dialSync a f with ⟨o, f'⟩
  rw [e] at hd
  cases o with
  | none =>
    refine ⟨fun s => ⟨fun h => by simp at h, fun h => ?_⟩, rfl⟩
    have := (hd s ((s, false) :: f)).2 ⟨h.1, rfl⟩
    simp at this
  | some s' =>
    have h' := ((hd s' f').1 rfl).1
    by_cases hz : s' > 0
    · simp only [if_pos hz, and_true]
      intro s
      subst h'
      simp only [Option.some.injEq, Answers.mk.injEq, and_true]
      constructor
      · rintro rfl; exact ⟨rfl, by omega⟩
      · rintro ⟨rfl, _⟩; rfl
    · simp only [if_neg hz, and_true]
      intro s
      subst h'
      simp only [Option.some.injEq, Answers.mk.injEq, and_true, reduceCtorEq, false_iff]
      rintro ⟨rfl, h⟩
      omega

/-- Attempts that are refused. -/
def Refused (a : Answers) : Prop := (∃ s, a.sock = some s) ∧ a.addr = true ∧ a.conn = false

/-- **C205, violation.**  Every attempt the peer refuses leaves its socket open: after any number of them no connection was made, and as many
more descriptors are open, for ever. -/
theorem c205_leak_violated (as : List Answers) (h : ∀ a ∈ as, Refused a) (f : Fds) :
    (attempts as f).1 = [] ∧ (attempts as f).2.length = f.length + as.length ∧ ∀ p ∈ f, p ∈ (attempts as f).2 := by
  induction as generalizing f with
  | nil => exact ⟨rfl, rfl, fun p hp => hp⟩
  | cons a as ih =>
    obtain ⟨⟨s, hs⟩, ha, hc⟩ := h a (List.mem_cons_self ..)
    have e : wsDialSync a f = (none, (s, false) :: f) := by simp [wsDialSync, dialSync, hs, ha, hc]
    obtain ⟨i1, i2, i3⟩ := ih (fun b hb => h b (List.mem_cons_of_mem _ hb)) ((s, false) :: f)
    unfold attempts
    rw [e]
    refine ⟨by simpa using i1, ?_, fun p hp => i3 p (List.mem_cons_of_mem _ hp)⟩
    rw [i2]
    simp
    omega

/-- **C205, violation.**  A process whose descriptor 0 is free: the attempt succeeds, the user is told it was refused, and the connection stays open. -/
theorem c205_descriptor_zero_violated (f : Fds) (h : ∀ p ∈ f, p.1 ≠ 0) :
    dialSync ⟨some 0, true, true, true⟩ f = (some 0, (0, false) :: f) ∧
    wsDialSync ⟨some 0, true, true, true⟩ f = (none, (0, false) :: f) := by
  have e : dialSync ⟨some 0, true, true, true⟩ f = (some 0, (0, false) :: f) := by simp [dialSync, setBlocking_fresh h]
  exact ⟨e, by unfold wsDialSync; rw [e]; rfl⟩

/-! ### Reading -/

/-- What holds always. -/
structure Inv (s : St) : Prop where
  bytes : s.handed ++ s.inb ++ s.queue = s.sent
  idle : s.inRead = false → s.inb = []
  over : s.closed = true → s.ended = true ∧ s.queue = [] ∧ s.inRead = false

theorem inv_world {s t : St} (h : Inv s) (w : World s t) : Inv t := by
  obtain ⟨h1, h2, h3⟩ := h
  cases w with
  | arrive bs hn =>
    exact ⟨by simp [← h1], h2, fun hc => absurd (h3 hc).1 (by simp [hn])⟩
  | finish => exact ⟨h1, h2, fun hc => ⟨rfl, (h3 hc).2⟩⟩
  | post => exact ⟨h1, h2, h3⟩

theorem inv_loop {nb : Bool} {s t : St} (h : Inv s) (w : Loop nb s t) : Inv t := by
  obtain ⟨h1, h2, h3⟩ := h
  cases w with
  | task n hi ht => exact ⟨h1, h2, h3⟩
  | event hi hc he => exact ⟨h1, fun h => absurd h (by simp), fun h => absurd (hc.symm.trans h) (by simp)⟩
  | read bs rest hi hq hb =>
    exact ⟨by rw [← h1, hq]; simp, fun h => absurd (hi.symm.trans h) (by simp), fun h => absurd (hi.symm.trans (h3 h).2.2) (by simp)⟩
  | again hi hq he hn =>
    exact ⟨by rw [← h1]; simp, fun _ => rfl, fun h => absurd (hi.symm.trans (h3 h).2.2) (by simp)⟩
  | stop hi hq he =>
    exact ⟨by rw [← h1]; simp, fun _ => rfl, fun _ => ⟨he, hq, rfl⟩⟩

theorem inv_run {nb : Bool} {s t : St} (h : Inv s) (r : Run nb s t) : Inv t := by
  induction r with
  | refl => exact h
  | world _ w ih => exact inv_world ih w
  | loop _ w ih => exact inv_loop ih w

theorem inv_init : Inv St.init := ⟨rfl, fun _ => rfl, fun h => by simp [St.init] at h⟩

/-- **C206: no byte is lost.**  On either kind of socket, what was handed on are the first bytes the peer sent, in order; and a connection is closed
only after the peer's bytes have ended and all of them were handed on. -/
theorem c206_bytes (nb : Bool) (s : St) (r : Run nb St.init s) :
    s.handed <+: s.sent ∧ (s.closed = true → s.ended = true ∧ s.handed = s.sent) := by
  have h := inv_run inv_init r
  refine ⟨⟨s.inb ++ s.queue, by rw [← h.bytes]; simp⟩, fun hc => ?_⟩
  obtain ⟨h1, h2, h3⟩ := h.over hc
  refine ⟨h1, ?_⟩
  have := h.bytes
  rw [h.idle h3, h2] at this
  simpa using this

/-- **C206: a non-blocking socket never holds the loop.**  Whenever the loop is reading, it goes on by itself, and comes back from the call with
everything handed on that had been sent. -/
theorem c206_returns (s : St) (r : Run true St.init s) (hi : s.inRead = true) :
    ∃ t, LoopRun true s t ∧ t.inRead = false ∧ t.handed = s.sent ∧ t.sent = s.sent ∧ t.ran = s.ran ∧ t.tasks = s.tasks := by
  have h := inv_run inv_init r
  have fin : ∀ u : St, Inv u → u.inRead = true → u.queue = [] →
      ∃ t, Loop true u t ∧ t.inRead = false ∧ t.handed = u.sent ∧ t.sent = u.sent ∧ t.ran = u.ran ∧ t.tasks = u.tasks := by
    intro u hu hui huq
    have hb := hu.bytes
    rw [huq, List.append_nil] at hb
    by_cases he : u.ended = true
    · exact ⟨_, Loop.stop u hui huq he, rfl, hb, rfl, rfl, rfl⟩
    · exact ⟨_, Loop.again u hui huq (by simpa using he) rfl, rfl, hb, rfl, rfl, rfl⟩
  by_cases hq : s.queue = []
  · obtain ⟨t, l, ht⟩ := fin s h hi hq
    exact ⟨t, .step l (.refl t), ht⟩
  · have l := Loop.read (nonblock := true) s s.queue [] hi (by simp) hq
    obtain ⟨t, l', ht⟩ := fin _ (inv_loop h l) hi rfl
    exact ⟨t, .step l (.step l' (.refl t)), ht⟩

/-- **C206: nothing more is needed.**  On a non-blocking socket the loop, left alone, reaches a state in which all that was sent was handed on. -/
theorem c206_delivers (s : St) (r : Run true St.init s) :
    ∃ t, LoopRun true s t ∧ t.inRead = false ∧ t.handed = s.sent := by
  have h := inv_run inv_init r
  by_cases hi : s.inRead = true
  · obtain ⟨t, l, h1, h2, _⟩ := c206_returns s r hi
    exact ⟨t, l, h1, h2⟩
  · have hi' : s.inRead = false := by simpa using hi
    by_cases hq : s.queue = []
    · refine ⟨s, .refl s, hi', ?_⟩
      have := h.bytes
      rw [h.idle hi', hq] at this
      simpa using this
    · have hc : s.closed = false := by
        cases hc : s.closed with
        | false => rfl
        | true => exact absurd (h.over hc).2.1 hq
      have l := Loop.event (nonblock := true) s hi' hc (.inl hq)
      obtain ⟨t, l', h1, h2, _⟩ := c206_returns _ (.loop r l) rfl
      exact ⟨t, .step l l', h1, h2⟩

theorem ended_mono {nb : Bool} {s t : St} (r : Run nb s t) : s.ended = true → t.ended = true := by
  intro h
  induction r with
  | refl => exact h
  | world _ w ih => cases w <;> first | exact ih | rfl
  | loop _ w ih => cases w <;> exact ih

/-- While the peer's bytes have not ended, a loop that reads from a blocking socket does nothing else. -/
theorem stuck {s t : St} (r : Run false s t) (hi : s.inRead = true) (ht : t.ended = false) :
    t.inRead = true ∧ t.ran = s.ran ∧ t.handed = s.handed ∧ t.closed = s.closed := by
  induction r with
  | refl => exact ⟨hi, rfl, rfl, rfl⟩
  | world _ w ih =>
    cases w with
    | arrive bs hn => exact ih hn
    | finish => simp at ht
    | post => exact ih ht
  | loop _ w ih =>
    cases w with
    | task n h1 h2 => exact absurd ((ih ht).1.symm.trans h1) (by simp)
    | event h1 h2 h3 => exact absurd ((ih ht).1.symm.trans h1) (by simp)
    | read bs rest h1 h2 h3 => exact ih ht
    | again h1 h2 h3 h4 => simp at h4
    | stop h1 h2 h3 => exact absurd (h3.symm.trans ht) (by simp)

/-- **C205, violation.**  A connection made by `DialSync` hands on nothing as long as the peer does not end it, so its handshake is never answered
to the user and no message is ever received, whatever is sent and whatever the loop does. -/
theorem c205_nothing_handed_violated (s : St) (r : Run false St.init s) (h : s.ended = false) :
    s.handed = [] ∧ s.closed = false := by
  have hc : s.closed = false := by
    cases hc : s.closed with
    | false => rfl
    | true => exact absurd ((inv_run inv_init r).over hc).1 (by simp [h])
  refine ⟨?_, hc⟩
  induction r with
  | refl => rfl
  | world r w ih =>
    have hcl := fun x => (inv_run inv_init r).over x
    cases w with
    | arrive bs hn => exact ih hn hc
    | finish => simp at h
    | post => exact ih h hc
  | loop r w ih =>
    cases w with
    | task n h1 h2 => exact ih h hc
    | event h1 h2 h3 => exact ih h hc
    | read bs rest h1 h2 h3 => exact ih h hc
    | again h1 h2 h3 h4 => simp at h4
    | stop h1 h2 h3 => simp at hc

/-- **C205, violation.**  The first bytes the peer sends stop the loop: it takes the event, and until the peer ends the connection no task posted
to it is run any more, no other connection is served. -/
theorem c205_loop_stands_violated (s : St) (hi : s.inRead = false) (hc : s.closed = false) (hq : s.queue ≠ []) :
    ∃ t, Loop false s t ∧ ∀ u, Run false t u → u.ended = false → u.inRead = true ∧ u.ran = s.ran :=
  ⟨_, .event s hi hc (.inl hq), fun _ r hu => ⟨(stuck r rfl hu).1, (stuck r rfl hu).2.1⟩⟩

/-! ### Examples -/

/-- Two refused attempts, then one that succeeds, with descriptors 3, 4, 5: 3 and 4 stay open. -/
theorem w_c205 : attempts [⟨some 3, true, false, true⟩, ⟨some 4, true, false, true⟩, ⟨some 5, true, true, true⟩] [(0, false)] =
    ([5], [(5, false), (4, false), (3, false), (0, false)]) ∧ Refused ⟨some 3, true, false, true⟩ ∧
    Fresh ⟨some 3, true, false, true⟩ [(0, false)] :=
  ⟨by decide, ⟨⟨3, rfl⟩, rfl, rfl⟩, fun s h p hp => by
    simp only [List.mem_singleton] at hp
    simp only [Option.some.injEq] at h
    subst hp; subst h
    decide⟩

/-- The peer answers with two bytes; the loop reads them; a task is posted. -/
def afterTwo : St := ⟨[1, 2], [], false, [1, 2], true, [], false, 1, 0⟩

theorem w_c205_reading (nb : Bool) : Run nb St.init afterTwo ∧ afterTwo.ended = false ∧ afterTwo.inRead = true := by
  refine ⟨?_, rfl, rfl⟩
  have r1 : Run nb St.init ⟨[1, 2], [1, 2], false, [], false, [], false, 0, 0⟩ := .world (.refl _) (.arrive St.init [1, 2] rfl)
  have r2 : Run nb St.init ⟨[1, 2], [1, 2], false, [], true, [], false, 0, 0⟩ := .loop r1 (.event _ rfl rfl (.inl (by simp)))
  have r3 : Run nb St.init ⟨[1, 2], [1, 2], false, [], true, [], false, 1, 0⟩ := .world r2 (.post _)
  exact .loop r3 (.read _ [1, 2] [] rfl rfl (by simp))

/-- The same on a socket of either kind: a non-blocking one hands the bytes on. -/
theorem w_c206 : ∃ t, LoopRun true afterTwo t ∧ t.handed = [1, 2] := by
  obtain ⟨t, l, _, h⟩ := c206_delivers afterTwo (w_c205_reading true).1
  exact ⟨t, l, h⟩

end Ltio.Client.DialSync
