/-
C205, C206: what becomes of sending on a connection made by `WsClient::DialSync` (net_io/clients/ws_client.cc:41-56),
whose socket is blocking (net_io/clients/client_connector.cc:83-115; see `Client/DialSync`).

A `write` copies any non-empty part of what it is given that fits into the socket's buffer; with no room it fails with
EAGAIN on a non-blocking socket and waits for room on a blocking one (write(2)).  Room comes only from the peer.
Errors other than EAGAIN and EINTR are not modelled; EINTR repeats the call, which changes nothing.
-/
namespace Ltio.Client.DialSend

/-! ### The program -/

/-- A connection and its loop: bytes given to `Send` so far, bytes handed to the operating system, those the thread is writing, `out_`, room in
the socket's buffer, room the peer has made in all, whether the loop's thread is inside `Send` or `HandleWrite`, tasks posted and run. -/
structure St where
  given : List UInt8
  wire : List UInt8
  left : List UInt8
  out : List UInt8
  room : Nat
  freed : Nat
  inSend : Bool
  tasks : Nat
  ran : Nat
deriving DecidableEq, Repr

/-- A new connection with a socket buffer of this size (client_connector.cc:112-114). -/
def St.init (size : Nat) : St := ⟨[], [], [], [], size, 0, false, 0, 0⟩

/-- What the rest of the world does: the peer takes `n + 1` bytes; a task is posted. -/
inductive World : St → St → Prop where
  | take (s : St) (n : Nat) : World s { s with room := s.room + (n + 1), freed := s.freed + (n + 1) }
  | post (s : St) : World s { s with tasks := s.tasks + 1 }

/-- What the loop's thread does; `nonblock`: the socket is non-blocking.  `TcpChannel::Send` (tcp_channel.cc:115-147), which appends to `out_` and
calls `HandleWrite` if `out_` is not empty, and writes directly if it is; a write event calls `HandleWrite` (tcp_channel.cc:83-113).  Both write until
nothing is left or EAGAIN, and what is left is then in `out_`. -/
inductive Loop (nonblock : Bool) : St → St → Prop where
  | task (s : St) (n : Nat) : s.inSend = false → s.tasks = n + 1 → Loop nonblock s { s with tasks := n, ran := s.ran + 1 }
  | send (s : St) (bs : List UInt8) : s.inSend = false → bs ≠ [] →
      Loop nonblock s { s with inSend := true, left := s.out ++ bs, out := [], given := s.given ++ bs }
  | event (s : St) : s.inSend = false → s.out ≠ [] → 0 < s.room → Loop nonblock s { s with inSend := true, left := s.out, out := [] }
  | write (s : St) (bs rest : List UInt8) : s.inSend = true → s.left = bs ++ rest → bs ≠ [] → bs.length ≤ s.room →
      Loop nonblock s { s with wire := s.wire ++ bs, left := rest, room := s.room - bs.length }
  | again (s : St) : s.inSend = true → s.left ≠ [] → s.room = 0 → nonblock = true →
      Loop nonblock s { s with inSend := false, out := s.left, left := [] }
  | done (s : St) : s.inSend = true → s.left = [] → Loop nonblock s { s with inSend := false }

/-- Any number of steps of either. -/
inductive Run (nonblock : Bool) : St → St → Prop where
  | refl (s : St) : Run nonblock s s
  | world {s t u : St} : Run nonblock s t → World t u → Run nonblock s u
  | loop {s t u : St} : Run nonblock s t → Loop nonblock t u → Run nonblock s u

/-- Any number of steps of the loop alone. -/
inductive LoopRun (nonblock : Bool) : St → St → Prop where
  | refl (s : St) : LoopRun nonblock s s
  | step {s t u : St} : Loop nonblock s t → LoopRun nonblock t u → LoopRun nonblock s u

/-! ### All bytes, in order -/

/-- What holds always. -/
structure Inv (size : Nat) (s : St) : Prop where
  bytes : s.wire ++ s.left ++ s.out = s.given
  idle : s.inSend = false → s.left = []
  busy : s.inSend = true → s.out = []
  room : s.wire.length + s.room = size + s.freed

theorem inv_run {nb : Bool} {size : Nat} {s : St} (r : Run nb (St.init size) s) : Inv size s := by
  induction r with
  | refl => exact ⟨rfl, fun _ => rfl, fun _ => rfl, by simp [St.init]⟩
  | world _ w ih =>
    have i := ih
    cases w with
    | take n => exact ⟨i.bytes, i.idle, i.busy, by have := i.room; simp only; omega⟩
    | post => exact ⟨i.bytes, i.idle, i.busy, i.room⟩
  | loop _ l ih =>
    have i := ih
    cases l with
    | task n a b => exact ⟨i.bytes, i.idle, i.busy, i.room⟩
    | send bs a b =>
      refine ⟨?_, fun h => (by cases h), fun _ => rfl, i.room⟩
      have := i.bytes
      rw [i.idle a] at this
      simp only [List.append_nil] at this ⊢
      rw [← this, List.append_assoc]
    | event a b c =>
      refine ⟨?_, fun h => (by cases h), fun _ => rfl, i.room⟩
      have := i.bytes
      rw [i.idle a] at this
      simpa using this
    | write bs rest a b c d =>
      refine ⟨?_, fun h => (by simp only [a] at h; cases h), i.busy, ?_⟩
      · have := i.bytes
        rw [b] at this
        simp only [List.append_assoc] at this ⊢
        exact this
      · have := i.room
        simp only [List.length_append]
        omega
    | again a b c d =>
      refine ⟨?_, fun _ => rfl, fun h => (by cases h), i.room⟩
      have := i.bytes
      rw [i.busy a] at this
      simpa using this
    | done a b => exact ⟨i.bytes, fun _ => b, fun h => (by cases h), i.room⟩

/-- **C206: nothing is lost, doubled or reordered.**  On either kind of socket, in every history: what has gone to the operating system is the
beginning of what was given to `Send`, never more than the peer has made room for, and all of it once nothing is kept. -/
theorem c206_sent {nb : Bool} {size : Nat} {s : St} (r : Run nb (St.init size) s) :
    s.wire <+: s.given ∧ s.wire.length ≤ size + s.freed ∧ (s.inSend = false → s.out = [] → s.wire = s.given) := by
  have i := inv_run r
  refine ⟨⟨s.left ++ s.out, by rw [← List.append_assoc]; exact i.bytes⟩, by have := i.room; omega, fun h ho => ?_⟩
  have := i.bytes
  rw [i.idle h, ho] at this
  simpa using this

/-- **C206: on a non-blocking socket `Send` returns.**  From every state the loop, by itself, comes back from a `Send`, whatever the peer does, having
written as much as there was room for. -/
theorem c206_send_returns (s : St) (h : s.inSend = true) :
    ∃ u, LoopRun true s u ∧ u.inSend = false ∧ u.ran = s.ran ∧ u.wire = s.wire ++ s.left.take s.room := by
  have fin : ∀ t : St, t.inSend = true → (t.left = [] ∨ t.room = 0) → ∃ u, LoopRun true t u ∧ u.inSend = false ∧ u.ran = t.ran ∧ u.wire = t.wire := by
    intro t ht hl
    by_cases hz : t.left = []
    · exact ⟨_, .step (.done t ht hz) (.refl _), rfl, rfl, rfl⟩
    · exact ⟨_, .step (.again t ht hz (hl.resolve_left hz) rfl) (.refl _), rfl, rfl, rfl⟩
  by_cases hz : s.left = [] ∨ s.room = 0
  · obtain ⟨u, u1, u2, u3, u4⟩ := fin s h hz
    refine ⟨u, u1, u2, u3, ?_⟩
    rw [u4]
    rcases hz with e | e <;> simp [e]
  · have hl : s.left ≠ [] := fun e => hz (.inl e)
    have hr : s.room ≠ 0 := fun e => hz (.inr e)
    have hw := Loop.write (nonblock := true) s (s.left.take s.room) (s.left.drop s.room) h (List.take_append_drop ..).symm
      (by simp [List.take_eq_nil_iff, hl, hr]) (by rw [List.length_take]; omega)
    obtain ⟨u, u1, u2, u3, u4⟩ := fin { s with wire := s.wire ++ s.left.take s.room, left := s.left.drop s.room, room := s.room - (s.left.take s.room).length } h (by
      by_cases hc : s.left.length ≤ s.room
      · exact .inl (List.drop_eq_nil_of_le hc)
      · right; simp only [List.length_take]; omega)
    exact ⟨u, .step hw u1, u2, u3, u4⟩

/-! ### The blocking socket -/

/-- While the peer takes nothing, a blocking socket keeps the thread. -/
theorem stuck {t u : St} (r : Run false t u) (hi : t.inSend = true) (hl : t.room < t.left.length) :
    t.freed ≤ u.freed ∧ (u.freed = t.freed → u.inSend = true ∧ u.room < u.left.length ∧ u.ran = t.ran) := by
  induction r with
  | refl => exact ⟨Nat.le_refl _, fun _ => ⟨hi, hl, rfl⟩⟩
  | world _ w ih =>
    cases w with
    | take n => exact ⟨by have := ih.1; simp only; omega, fun h => by have := ih.1; simp only at h; omega⟩
    | post => exact ih
  | loop _ l ih =>
    obtain ⟨i1, i2⟩ := ih
    cases l with
    | task n a b => exact ⟨i1, fun h => by have := (i2 h).1; rw [a] at this; cases this⟩
    | send bs a b => exact ⟨i1, fun h => by have := (i2 h).1; rw [a] at this; cases this⟩
    | event a b c => exact ⟨i1, fun h => by have := (i2 h).1; rw [a] at this; cases this⟩
    | write bs rest a b c d =>
      refine ⟨i1, fun h => ?_⟩
      obtain ⟨j1, j2, j3⟩ := i2 h
      refine ⟨j1, ?_, j3⟩
      rw [b] at j2
      simp only [List.length_append] at j2 ⊢
      omega
    | again a b c d => cases d
    | done a b => exact ⟨i1, fun h => by have := (i2 h).2.1; rw [b] at this; simp at this⟩

/-- **C205, violation.**  On a connection made by `DialSync`, a message larger than the room in the socket's buffer stops the loop until the peer
takes something: until then `Send` does not return and no task posted to the loop is run any more, so no other connection is served and no timeout fires. -/
theorem c205_send_stands_violated (s : St) (bs : List UInt8) (hi : s.inSend = false) (hb : s.room < bs.length) :
    ∃ t, Loop false s t ∧ t.given = s.given ++ bs ∧ ∀ u, Run false t u → u.freed = s.freed → u.inSend = true ∧ u.ran = s.ran := by
  refine ⟨_, .send s bs hi (fun e => by rw [e] at hb; simp at hb), rfl, fun u r hu => ?_⟩
  obtain ⟨a, _, c⟩ := (stuck r rfl (by simp only [List.length_append]; omega)).2 hu
  exact ⟨a, c⟩

/-! ### Examples -/

/-- Room for two bytes, three given: on a non-blocking socket the thread comes back with one byte kept, which is written when the peer has taken
one. -/
theorem w_c206_send : ∃ s, Run true (St.init 2) s ∧ s.wire = [1, 2, 3] ∧ s.given = [1, 2, 3] ∧ s.out = [] := by
  have r1 : Run true (St.init 2) ⟨[1, 2, 3], [], [1, 2, 3], [], 2, 0, true, 0, 0⟩ := .loop (.refl _) (.send _ [1, 2, 3] rfl (by simp))
  have r2 : Run true (St.init 2) ⟨[1, 2, 3], [1, 2], [3], [], 0, 0, true, 0, 0⟩ := .loop r1 (.write _ [1, 2] [3] rfl rfl (by simp) (by simp))
  have r3 : Run true (St.init 2) ⟨[1, 2, 3], [1, 2], [], [3], 0, 0, false, 0, 0⟩ := .loop r2 (.again _ rfl (by simp) rfl rfl)
  have r4 : Run true (St.init 2) ⟨[1, 2, 3], [1, 2], [], [3], 1, 1, false, 0, 0⟩ := .world r3 (.take _ 0)
  have r5 : Run true (St.init 2) ⟨[1, 2, 3], [1, 2], [3], [], 1, 1, true, 0, 0⟩ := .loop r4 (.event _ rfl (by simp) (by simp))
  have r6 : Run true (St.init 2) ⟨[1, 2, 3], [1, 2, 3], [], [], 0, 1, true, 0, 0⟩ := .loop r5 (.write _ [3] [] rfl rfl (by simp) (by simp))
  exact ⟨_, r6, rfl, rfl, rfl⟩

/-- The hypotheses of the violation: a new connection with room for two bytes and a message of three. -/
theorem w_c205_send : (St.init 2).inSend = false ∧ (St.init 2).room < ([1, 2, 3] : List UInt8).length := by decide

end Ltio.Client.DialSend
