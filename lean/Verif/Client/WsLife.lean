import Mathlib.Data.List.Nodup
import Mathlib.Tactic.ByContra

/-
C179, C180: the life of a `WsClient` (net_io/clients/ws_client.{h,cc}) with the attempts of its `Connector`
(net_io/clients/client_connector.cc), its codec (net_io/codec/codec_service.cc:46-82) and the table of installed
descriptors (base/message_loop/fdev_mgr.cc, io_mux_epoll.cc:103-125).

The connector keeps a plain pointer to the client, and so does the codec (`SetHandler(this)`, `SetDelegate(this)`,
ws_client.cc:94-95).  The user holds shared references.  The loop runs posted tasks in order and socket events in
any order between them; calls of the user may come at any time, from any thread.  What the frames and the handshake
do is not part of this model (C117, C118); an event says only whether it made a callback and whether it closed the
connection.  The callbacks the client makes hold a reference only while they run and are taken as one step.
-/
namespace Ltio.Client.WsLife

/-! ### The program -/

/-- What must not happen. -/
inductive Bad where
  | freed   -- the client is used after it was deleted
  | null    -- a null pointer is followed
  | abort   -- a CHECK fails
deriving DecidableEq, Repr

/-- `transport_`: its descriptor, and whether its `FdEvent` is installed. -/
structure Tr where
  fd : Nat
  installed : Bool
deriving DecidableEq, Repr

/-- Tasks posted to the loop: `Connector::Dial` with the plain pointer (ws_client.cc:38), `WsClient::Send` with a
reference (60), and those of the destructor (25-28). -/
inductive Task where
  | dial
  | send
  | stop
  | close
deriving DecidableEq, Repr

/-- `refs`: references the user holds; `dialing`: the descriptors of `inprogress_`; `slots`: the descriptors with
an entry in the `FdEventMgr` of the process. -/
structure St where
  refs : Nat
  alive : Bool
  dialing : List Nat
  transport : Option Tr
  queue : List Task
  slots : List Nat
deriving DecidableEq, Repr

/-- A client just created by `New` (ws_client.cc:15-23). -/
def St.init : St := ⟨1, true, [], none, [], []⟩

/-- `~WsClient` once no reference is left (ws_client.cc:25-28); a posted `Send` holds one. -/
def release (s : St) : St :=
  if s.refs = 0 ∧ Task.send ∉ s.queue ∧ s.alive = true then
    { s with alive := false, queue := s.queue ++ [.stop, .close] }
  else s

/-- `WsClient::OnConnected` (ws_client.cc:87-124): the new transport replaces the old one, which is deleted, its
`FdEvent` with it, whether installed or not; then the new `FdEvent` is installed
(io_mux_epoll.cc:103-112: `CHECK(fd_mgr_.Add(fd_ev) == Success)`). -/
def onConnected (s : St) (fd : Nat) : Except Bad St :=
  if s.alive = false then .error .freed
  else if fd ∈ s.slots then .error .abort
  else .ok { s with transport := some ⟨fd, true⟩, slots := fd :: s.slots }

/-- How `connect` answers in `Connector::Dial` (client_connector.cc:46-77). -/
inductive Answer where
  | refused
  | atOnce (fd : Nat)
  | pending (fd : Nat)
deriving DecidableEq, Repr

/-- `Connector::Dial` (client_connector.cc:32-78). -/
def dialTask (s : St) : Answer → Except Bad St
  | .refused => if s.alive = false then .error .freed else .ok s
  | .atOnce fd => onConnected s fd
  | .pending fd =>
    if fd ∈ s.slots then .error .abort else .ok { s with dialing := fd :: s.dialing, slots := fd :: s.slots }

/-- `CloseService` (codec_service.cc:68-82): the `FdEvent` is removed if it is installed. -/
def closeTr (s : St) (t : Tr) : St :=
  { s with transport := some ⟨t.fd, false⟩, slots := if t.installed then s.slots.erase t.fd else s.slots }

/-- `WsClient::Send` in the loop (ws_client.cc:65-79): if writing the frame fails the connection is closed. -/
def sendFrame (s : St) (broken : Bool) : St :=
  match s.transport with
  | some t => if t.installed = true ∧ broken = true then closeTr s t else s
  | none => s

/-- The task at the head of the queue. `a`: how `connect` answers; `broken`: whether writing the frame fails. -/
def runTask (s : St) (a : Answer) (broken : Bool) : Except Bad St :=
  match s.queue with
  | [] => .ok s
  | .dial :: q => dialTask { s with queue := q } a
  | .send :: q =>
    .ok (release (sendFrame { s with queue := q } broken))
  -- Connector::Stop (client_connector.cc:157-165)
  | .stop :: q => .ok { s with queue := q, slots := s.slots.filter (fun x => decide (x ∉ s.dialing)), dialing := [] }
  -- CloseService(true) on what `transport_` was; then the last reference to it goes
  | .close :: q =>
    match s.transport with
    | none => .error .null
    | some t => .ok { closeTr { s with queue := q } t with transport := none }

/-- What can happen. -/
inductive In where
  | share                                     -- the user copies a reference
  | drop                                      -- the user drops one
  | dial                                      -- Dial with an address that resolves
  | send                                      -- Send from another thread
  | run (a : Answer) (broken : Bool)          -- the loop runs the next task
  | connect (fd : Nat) (ok : Bool)            -- an attempt in progress ends (client_connector.cc:113-155, 167-186)
  | event (calls closes : Bool)               -- a socket event of the connection
deriving DecidableEq, Repr

/-- One step.  The user can call only with a reference. -/
def step (s : St) : In → Except Bad St
  | .share => .ok (if s.refs = 0 then s else { s with refs := s.refs + 1 })
  | .drop => .ok (if s.refs = 0 then s else release { s with refs := s.refs - 1 })
  | .dial => .ok (if s.refs = 0 then s else { s with queue := s.queue ++ [.dial] })
  | .send => .ok (if s.refs = 0 then s else { s with queue := s.queue ++ [.send] })
  | .run a broken => runTask s a broken
  | .connect fd ok =>
    if fd ∈ s.dialing then
      if ok then onConnected { s with dialing := s.dialing.erase fd, slots := s.slots.erase fd } fd
      else if s.alive = false then .error .freed
      else .ok { s with dialing := s.dialing.erase fd, slots := s.slots.erase fd }
    else .ok s
  | .event calls closes =>
    match s.transport with
    | none => .ok s
    | some t =>
      if t.installed = true ∧ (calls = true ∨ closes = true) then
        if s.alive = false then .error .freed
        else if closes then .ok (closeTr s t)
        else .ok s
      else .ok s

/-- A history. -/
def run : St → List In → Except Bad St
  | s, [] => .ok s
  | s, i :: is => match step s i with
    | .error b => .error b
    | .ok s' => run s' is

/-! ### Specification -/

/-- The kernel gives a new socket a number that is not in use: by an attempt or by the transport, whose socket is
open until the transport is deleted. -/
def Free (s : St) (fd : Nat) : Prop := fd ∉ s.dialing ∧ ∀ t, s.transport = some t → t.fd ≠ fd

def Kernel (s : St) : In → Prop
  | .run (.atOnce fd) _ => Free s fd
  | .run (.pending fd) _ => Free s fd
  | _ => True

/-- Nothing under way: no attempt, none posted, no open connection. -/
def Idle (s : St) : Prop :=
  s.dialing = [] ∧ Task.dial ∉ s.queue ∧ ∀ t, s.transport = some t → t.installed = false

/-- A moment at which the client may be let go: it was connected once, and no attempt is under way. -/
def Settled (s : St) : Prop := s.transport ≠ none ∧ s.dialing = [] ∧ Task.dial ∉ s.queue

/-- A careful use: `Dial` only when nothing is under way; the last reference is dropped at a settled moment; the
connection is silent from then until the loop has run the tasks of the destructor. -/
def Careful : St → List In → Prop
  | _, [] => True
  | s, i :: is => Kernel s i ∧ (i = .dial → Idle s) ∧
      (∀ s', step s i = .ok s' → s.alive = true → s'.alive = false → Settled s) ∧
      (s.alive = false → (∀ a b, i = .event a b → a = false ∧ b = false)) ∧
      ∀ s', step s i = .ok s' → Careful s' is

/-- A use in which the user keeps a reference throughout, and dials only when nothing is under way. -/
def Held : St → List In → Prop
  | s, [] => s.refs ≠ 0
  | s, i :: is => s.refs ≠ 0 ∧ Kernel s i ∧ (i = .dial → Idle s) ∧ ∀ s', step s i = .ok s' → Held s' is

/-! ### Proofs -/

/-- How much is under way. -/
def busy (s : St) : Nat :=
  s.dialing.length + s.queue.count .dial + (match s.transport with | some t => if t.installed then 1 else 0 | none => 0)

/-- The descriptors with an entry are exactly those of attempts and of the installed transport. -/
def owned (s : St) : List Nat :=
  s.dialing ++ (match s.transport with | some t => if t.installed then [t.fd] else [] | none => [])

structure Inv (s : St) : Prop where
  slots : s.slots.Perm (owned s)
  one : busy s ≤ 1
  live : s.alive = true → Task.stop ∉ s.queue ∧ Task.close ∉ s.queue
  refs : s.alive = true → s.refs ≠ 0 ∨ Task.send ∈ s.queue
  dead : s.alive = false → s.refs = 0 ∧ ((s.queue = [] ∧ s.dialing = [] ∧ s.transport = none) ∨
    (s.queue = [.close] ∧ s.dialing = [] ∧ s.transport ≠ none) ∨
    (s.queue = [.stop, .close] ∧ s.dialing = [] ∧ s.transport ≠ none))

theorem inv_init : Inv St.init :=
  ⟨by simp [St.init, owned], by simp [busy, St.init], by simp [St.init], by simp [St.init], by simp [St.init]⟩

theorem nodup_owned {s : St} (h : busy s ≤ 1) : (owned s).length ≤ 1 := by
  unfold busy at h
  unfold owned
  rw [List.length_append]
  cases ht : s.transport with
  | none => simp only [List.length_nil]; omega
  | some t =>
    rw [ht] at h
    simp only [] at h ⊢
    split at h <;> rename_i hi
    · rw [if_pos hi]; simp only [List.length_cons, List.length_nil]; omega
    · rw [if_neg hi]; simp only [List.length_nil]; omega

theorem inv_release {s : St} (ha : s.alive = true) (h1 : s.slots.Perm (owned s)) (h2 : busy s ≤ 1)
    (h3 : Task.stop ∉ s.queue ∧ Task.close ∉ s.queue)
    (h4 : s.refs = 0 → Task.send ∉ s.queue → Settled s) : Inv (release s) := by
  unfold release
  split
  · rename_i hr
    obtain ⟨r1, r2, r3⟩ := hr
    obtain ⟨s1, s2, s3⟩ := h4 r1 r2
    have hq : s.queue = [] := by
      cases hq : s.queue with
      | nil => rfl
      | cons x q =>
        rw [hq] at r2 s3 h3
        simp only [List.mem_cons, not_or] at r2 s3 h3
        cases x
        · exact absurd rfl s3.1
        · exact absurd rfl r2.1
        · exact absurd rfl h3.1.1
        · exact absurd rfl h3.2.1
    refine ⟨h1, ?_, fun h => (by cases h), fun h => (by cases h), fun _ => ⟨r1, Or.inr (Or.inr ⟨by rw [hq]; rfl, s2, s1⟩)⟩⟩
    unfold busy at h2 ⊢
    rw [List.count_append]
    simpa using h2
  · rename_i hr
    refine ⟨h1, h2, fun _ => h3, fun _ => ?_, fun h => by rw [ha] at h; cases h⟩
    by_cases hz : s.refs = 0
    · right
      by_contra hs
      exact hr ⟨hz, hs, ha⟩
    · exact Or.inl hz

theorem owned_queue (s : St) (q : List Task) : owned { s with queue := q } = owned s := rfl

theorem closeTr_inv {s : St} {t : Tr} (ht : s.transport = some t) (h1 : s.slots.Perm (owned s)) (h2 : busy s ≤ 1) :
    (closeTr s t).slots.Perm (owned (closeTr s t)) ∧ busy (closeTr s t) ≤ 1 := by
  unfold closeTr owned busy at *
  rw [ht] at h1 h2
  simp only [] at h1 h2 ⊢
  by_cases hi : t.installed = true
  · rw [if_pos hi] at h1 h2
    have hd : s.dialing = [] := by
      cases hd : s.dialing with
      | nil => rfl
      | cons x xs => rw [hd] at h2; simp only [List.length_cons] at h2; omega
    rw [hd] at h1 ⊢
    rw [if_pos hi]
    simp only [List.nil_append, Bool.false_eq_true, if_false] at h1 ⊢
    refine ⟨?_, by simp only [List.length_nil]; omega⟩
    have := List.perm_singleton.mp h1
    rw [this]
    simp
  · rw [if_neg hi] at h1 h2
    rw [if_neg hi]
    exact ⟨by simpa using h1, by simp only [Bool.false_eq_true, if_false]; omega⟩

theorem sendFrame_same (s : St) (b : Bool) : (sendFrame s b).alive = s.alive ∧ (sendFrame s b).refs = s.refs ∧
    (sendFrame s b).queue = s.queue ∧ (sendFrame s b).dialing = s.dialing := by
  unfold sendFrame
  split
  · split <;> exact ⟨rfl, rfl, rfl, rfl⟩
  · exact ⟨rfl, rfl, rfl, rfl⟩

theorem sendFrame_inv {s : St} (b : Bool) (h1 : s.slots.Perm (owned s)) (h2 : busy s ≤ 1) :
    (sendFrame s b).slots.Perm (owned (sendFrame s b)) ∧ busy (sendFrame s b) ≤ 1 ∧
    ((sendFrame s b).transport = none ↔ s.transport = none) := by
  unfold sendFrame
  split
  · rename_i t ht
    split
    · obtain ⟨c1, c2⟩ := closeTr_inv ht h1 h2
      exact ⟨c1, c2, by simp [closeTr, ht]⟩
    · exact ⟨h1, h2, Iff.rfl⟩
  · exact ⟨h1, h2, Iff.rfl⟩

theorem onConnected_inv {s : St} {fd : Nat} (ha : s.alive = true) (h1 : s.slots = []) (h2 : s.dialing = [])
    (h3 : Task.dial ∉ s.queue) (h4 : Task.stop ∉ s.queue ∧ Task.close ∉ s.queue) (h5 : s.refs ≠ 0 ∨ Task.send ∈ s.queue) :
    ∃ s', onConnected s fd = .ok s' ∧ Inv s' ∧ s'.refs = s.refs ∧ s'.alive = true := by
  unfold onConnected
  rw [if_neg (by rw [ha]; simp), if_neg (by rw [h1]; simp)]
  refine ⟨_, rfl, ⟨?_, ?_, fun _ => h4, fun _ => h5, fun h => by rw [ha] at h; cases h⟩, rfl, ha⟩
  · simp [owned, h1, h2]
  · simp [busy, h2, List.count_eq_zero_of_not_mem h3]

/-- One careful step. -/
theorem step_ok {s : St} {i : In} (hv : Inv s) (hk : Kernel s i) (hd : i = .dial → Idle s)
    (hset : ∀ s', step s i = .ok s' → s.alive = true → s'.alive = false → Settled s)
    (hq : s.alive = false → ∀ a b, i = .event a b → a = false ∧ b = false) :
    ∃ s', step s i = .ok s' ∧ Inv s' := by
  obtain ⟨v1, v2, v3, v4, v5⟩ := hv
  cases i with
  | share =>
    refine ⟨_, rfl, ?_⟩
    split
    · exact ⟨v1, v2, v3, v4, v5⟩
    · rename_i hr
      refine ⟨v1, v2, v3, fun _ => Or.inl (by simp), fun h => absurd (v5 h).1 hr⟩
  | drop =>
    refine ⟨_, rfl, ?_⟩
    split
    · exact ⟨v1, v2, v3, v4, v5⟩
    · rename_i hr
      have ha : s.alive = true := by
        by_contra h
        exact hr (v5 (by simpa using h)).1
      refine inv_release (s := { s with refs := s.refs - 1 }) ha v1 v2 (v3 ha) (fun h0 hs => ?_)
      have h0 : s.refs - 1 = 0 := h0
      have hs : Task.send ∉ s.queue := hs
      have := hset (release { s with refs := s.refs - 1 }) (by simp [step, hr]) ha
        (by unfold release; rw [if_pos ⟨h0, hs, ha⟩])
      exact this
  | dial =>
    refine ⟨_, rfl, ?_⟩
    split
    · exact ⟨v1, v2, v3, v4, v5⟩
    · rename_i hr
      have ha : s.alive = true := by
        by_contra h
        exact hr (v5 (by simpa using h)).1
      obtain ⟨d1, d2, d3⟩ := hd rfl
      refine ⟨v1, ?_, fun _ => ?_, fun _ => Or.inl hr, fun h => by rw [ha] at h; cases h⟩
      · unfold busy
        rw [List.count_append, List.count_eq_zero_of_not_mem d2, d1]
        cases ht : s.transport with
        | none => simp
        | some t => simp [d3 t ht]
      · have := v3 ha
        simp only [List.mem_append, List.mem_singleton, not_or]
        exact ⟨⟨this.1, by simp⟩, this.2, by simp⟩
  | send =>
    refine ⟨_, rfl, ?_⟩
    split
    · exact ⟨v1, v2, v3, v4, v5⟩
    · rename_i hr
      have ha : s.alive = true := by
        by_contra h
        exact hr (v5 (by simpa using h)).1
      refine ⟨v1, ?_, fun _ => ?_, fun _ => Or.inl hr, fun h => by rw [ha] at h; cases h⟩
      · unfold busy at v2 ⊢
        rw [List.count_append]
        simpa using v2
      · have := v3 ha
        simp only [List.mem_append, List.mem_singleton, not_or]
        exact ⟨⟨this.1, by simp⟩, this.2, by simp⟩
  | connect fd ok =>
    simp only [step]
    split
    · rename_i hm
      have ha : s.alive = true := by
        by_contra h
        rcases (v5 (by simpa using h)).2 with h' | h' | h' <;> (rw [h'.2.1] at hm; simp at hm)
      have hdl : s.dialing = [fd] ∧ Task.dial ∉ s.queue ∧ (∀ t, s.transport = some t → t.installed = false) := by
        unfold busy at v2
        cases hdl : s.dialing with
        | nil => rw [hdl] at hm; simp at hm
        | cons x xs =>
          rw [hdl] at v2 hm
          simp only [List.length_cons] at v2
          have hxs : xs = [] := List.eq_nil_of_length_eq_zero (by omega)
          subst hxs
          have hx : fd = x := by simpa using hm
          subst hx
          have hc : s.queue.count .dial = 0 := by omega
          refine ⟨rfl, List.count_eq_zero.mp hc, fun t ht => ?_⟩
          rw [ht] at v2
          simp only [] at v2
          split at v2
          · omega
          · rename_i hb; simpa using hb
      obtain ⟨g1, g2, g3⟩ := hdl
      have how : owned s = [fd] := by
        unfold owned
        rw [g1]
        cases ht : s.transport with
        | none => simp
        | some t => simp [g3 t ht]
      have hsl : s.slots = [fd] := by
        rw [how] at v1
        exact List.perm_singleton.mp v1
      have e1 : s.dialing.erase fd = [] := by rw [g1]; simp
      have e2 : s.slots.erase fd = [] := by rw [hsl]; simp
      rw [e1, e2]
      split
      · obtain ⟨s', e, hi, _⟩ := onConnected_inv (s := { s with dialing := [], slots := [] }) (fd := fd) ha rfl rfl g2 (v3 ha) (v4 ha)
        exact ⟨s', e, hi⟩
      · rw [if_neg (by rw [ha]; simp)]
        refine ⟨_, rfl, ⟨?_, ?_, fun _ => v3 ha, fun _ => v4 ha, fun h => by rw [ha] at h; cases h⟩⟩
        · cases ht : s.transport with
          | none => simp [owned, ht]
          | some t => simp [owned, ht, g3 t ht]
        · cases ht : s.transport with
          | none => simp [busy, ht, List.count_eq_zero_of_not_mem g2]
          | some t => simp [busy, ht, g3 t ht, List.count_eq_zero_of_not_mem g2]
    · exact ⟨s, rfl, v1, v2, v3, v4, v5⟩
  | event calls closes =>
    simp only [step]
    cases ht : s.transport with
    | none => exact ⟨s, rfl, v1, v2, v3, v4, v5⟩
    | some t =>
      simp only []
      by_cases hc : t.installed = true ∧ (calls = true ∨ closes = true)
      · rw [if_pos hc]
        have ha : s.alive = true := by
          by_contra h
          obtain ⟨q1, q2⟩ := hq (by simpa using h) calls closes rfl
          rw [q1, q2] at hc
          simp at hc
        rw [if_neg (by rw [ha]; simp)]
        split
        · obtain ⟨c1, c2⟩ := closeTr_inv ht v1 v2
          exact ⟨_, rfl, c1, c2, fun _ => v3 ha, fun _ => v4 ha, fun h => by
            have : s.alive = false := h
            rw [ha] at this; cases this⟩
        · exact ⟨s, rfl, v1, v2, v3, v4, v5⟩
      · rw [if_neg hc]
        exact ⟨s, rfl, v1, v2, v3, v4, v5⟩
  | run a broken =>
    simp only [step] at hset ⊢
    unfold runTask at hset ⊢
    cases hqe : s.queue with
    | nil => exact ⟨s, rfl, v1, v2, v3, v4, v5⟩
    | cons x q =>
      rw [hqe] at hset
      cases x with
      | dial =>
        have ha : s.alive = true := by
          by_contra h
          rcases (v5 (by simpa using h)).2 with h' | h' | h' <;> (rw [h'.1] at hqe; cases hqe)
        have hb : s.dialing = [] ∧ Task.dial ∉ q ∧ (∀ t, s.transport = some t → t.installed = false) := by
          unfold busy at v2
          rw [hqe, List.count_cons_self] at v2
          refine ⟨List.eq_nil_of_length_eq_zero (by omega), List.count_eq_zero.mp (by omega), fun t ht => ?_⟩
          rw [ht] at v2
          simp only [] at v2
          split at v2
          · omega
          · rename_i hb; simpa using hb
        obtain ⟨g1, g2, g3⟩ := hb
        have how : owned s = [] := by
          unfold owned
          rw [g1]
          cases ht : s.transport with
          | none => simp
          | some t => simp [g3 t ht]
        have hsl : s.slots = [] := by
          rw [how] at v1
          exact v1.eq_nil
        have hlive : Task.stop ∉ q ∧ Task.close ∉ q := by
          have := v3 ha
          rw [hqe] at this
          simp only [List.mem_cons, not_or] at this
          exact ⟨this.1.2, this.2.2⟩
        have hrefs : s.refs ≠ 0 ∨ Task.send ∈ q := by
          have := v4 ha
          rw [hqe] at this
          simpa using this
        simp only []
        cases a with
        | refused =>
          simp only [dialTask]
          rw [if_neg (by rw [ha]; simp)]
          refine ⟨_, rfl, v1, ?_, fun _ => hlive, fun _ => hrefs, fun h => by
            have : s.alive = false := h
            rw [ha] at this; cases this⟩
          unfold busy at v2 ⊢
          rw [hqe, List.count_cons_self] at v2
          simp only [] at v2 ⊢
          omega
        | atOnce fd =>
          obtain ⟨s', e, hi, _⟩ := onConnected_inv (s := { s with queue := q }) (fd := fd) ha hsl g1 g2 hlive hrefs
          exact ⟨s', e, hi⟩
        | pending fd =>
          simp only [dialTask]
          rw [if_neg (by rw [hsl]; simp)]
          refine ⟨_, rfl, ?_, ?_, fun _ => hlive, fun _ => hrefs, fun h => by
            have : s.alive = false := h
            rw [ha] at this; cases this⟩
          · unfold owned
            simp only [hsl, g1]
            cases ht : s.transport with
            | none => simp
            | some t => simp [g3 t ht]
          · unfold busy
            simp only [g1, List.count_eq_zero_of_not_mem g2]
            cases ht : s.transport with
            | none => simp
            | some t => simp [g3 t ht]
      | send =>
        have ha : s.alive = true := by
          by_contra h
          rcases (v5 (by simpa using h)).2 with h' | h' | h' <;> (rw [h'.1] at hqe; cases hqe)
        have hlive : Task.stop ∉ q ∧ Task.close ∉ q := by
          have := v3 ha
          rw [hqe] at this
          simp only [List.mem_cons, not_or] at this
          exact ⟨this.1.2, this.2.2⟩
        have hb2 : busy { s with queue := q } ≤ 1 := by
          unfold busy at v2 ⊢
          rw [hqe, List.count_cons_of_ne (by decide)] at v2
          exact v2
        have hdq : Task.dial ∉ s.queue → Task.dial ∉ q := by
          rw [hqe]; simp
        obtain ⟨c1, c2, c3⟩ := sendFrame_inv (s := { s with queue := q }) broken v1 hb2
        obtain ⟨f1, f2, f3, f4⟩ := sendFrame_same { s with queue := q } broken
        refine ⟨_, rfl, inv_release (s := sendFrame { s with queue := q } broken) (by rw [f1]; exact ha) c1 c2
          (by rw [f3]; exact hlive) (fun h0 hs => ?_)⟩
        obtain ⟨t1, t2, t3⟩ := hset _ rfl ha (by unfold release; rw [if_pos ⟨h0, hs, by rw [f1]; exact ha⟩])
        exact ⟨fun e => t1 (c3.mp e), by rw [f4]; exact t2, by rw [f3]; exact hdq t3⟩
      | stop =>
        have ha : s.alive = false := by
          by_contra h
          have := (v3 (by simpa using h)).1
          rw [hqe] at this
          simp at this
        obtain ⟨r0, h'⟩ := v5 ha
        rcases h' with h' | h' | h'
        · rw [h'.1] at hqe; cases hqe
        · rw [h'.1] at hqe; cases hqe
        · have hqq : q = [.close] := by
            rw [h'.1] at hqe
            simp only [List.cons.injEq, true_and] at hqe
            exact hqe.symm
          subst hqq
          simp only []
          refine ⟨_, rfl, ?_, ?_, fun h => ?_, fun h => ?_, fun _ => ⟨r0, Or.inr (Or.inl ⟨rfl, rfl, h'.2.2⟩)⟩⟩
          · have hs : s.slots.filter (fun x => decide (x ∉ s.dialing)) = s.slots := by
              rw [h'.2.1]; simp
            rw [hs]
            have : owned { s with queue := [.close], slots := s.slots, dialing := [] } = owned s := by
              unfold owned; rw [h'.2.1]
            rw [this]
            exact v1
          · unfold busy at v2 ⊢
            rw [hqe, h'.2.1] at v2
            simpa using v2
          · have : s.alive = true := h
            rw [ha] at this; cases this
          · have : s.alive = true := h
            rw [ha] at this; cases this
      | close =>
        have ha : s.alive = false := by
          by_contra h
          have := (v3 (by simpa using h)).2
          rw [hqe] at this
          simp at this
        obtain ⟨r0, h'⟩ := v5 ha
        rcases h' with h' | h' | h'
        · rw [h'.1] at hqe; cases hqe
        · have hqq : q = [] := by
            rw [h'.1] at hqe
            simp only [List.cons.injEq, true_and] at hqe
            exact hqe.symm
          subst hqq
          cases ht : s.transport with
          | none => exact absurd ht h'.2.2
          | some t =>
            simp only []
            obtain ⟨c1, c2⟩ := closeTr_inv (s := { s with queue := [] }) (t := t) ht v1 (by
              unfold busy at v2 ⊢
              rw [hqe] at v2
              simpa using v2)
            refine ⟨_, rfl, ?_, ?_, fun h => ?_, fun h => ?_, fun _ => ⟨r0, Or.inl ⟨rfl, h'.2.1, rfl⟩⟩⟩
            · unfold owned closeTr at c1 ⊢
              simpa using c1
            · unfold busy closeTr at c2 ⊢
              simpa using c2
            · have : s.alive = true := h
              rw [ha] at this; cases this
            · have : s.alive = true := h
              rw [ha] at this; cases this
        · rw [h'.1] at hqe; cases hqe

/-! ### C180 -/

theorem careful_run : ∀ (is : List In) (s : St), Inv s → Careful s is → ∃ s', run s is = .ok s' ∧ Inv s'
  | [], s, hv, _ => ⟨s, rfl, hv⟩
  | i :: is, s, hv, hc => by
    obtain ⟨c1, c2, c3, c4, c5⟩ := hc
    obtain ⟨s', e, hv'⟩ := step_ok hv c1 c2 c3 c4
    obtain ⟨s'', e', h⟩ := careful_run is s' hv' (c5 s' e)
    exact ⟨s'', by rw [run, e]; exact e', h⟩

/-- C180 (careful use): if `Dial` is called only when nothing is under way, and the last reference is dropped when
the client was connected once, no attempt is under way and the connection stays silent until the loop has run the
destructor's tasks, then nothing freed is used, no null pointer is followed and no CHECK fails; at every moment
exactly the sockets of attempts and of the open connection are registered. -/
theorem c180_careful (is : List In) (h : Careful St.init is) :
    ∃ s, run St.init is = .ok s ∧
      (∀ fd, fd ∈ s.slots ↔ fd ∈ s.dialing ∨ ∃ t, s.transport = some t ∧ t.installed = true ∧ t.fd = fd) := by
  obtain ⟨s, e, hv⟩ := careful_run is St.init inv_init h
  refine ⟨s, e, fun fd => ?_⟩
  rw [hv.slots.mem_iff]
  unfold owned
  rw [List.mem_append]
  cases s.transport with
  | none => simp
  | some t =>
    by_cases ht : t.installed = true
    · simp only [ht, if_true, List.mem_singleton, Option.some.injEq]
      constructor
      · rintro (h | h)
        · exact Or.inl h
        · exact Or.inr ⟨t, rfl, ht, h.symm⟩
      · rintro (h | ⟨t', rfl, _, h⟩)
        · exact Or.inl h
        · exact Or.inr h.symm
    · simp only [ht]
      constructor
      · rintro (h | h)
        · exact Or.inl h
        · simp at h
      · rintro (h | ⟨t', h1, h2, _⟩)
        · exact Or.inl h
        · simp only [Option.some.injEq] at h1
          subst h1
          exact absurd h2 ht

/-- C180 (released): when after a careful use the client is gone and the loop has run its tasks, nothing of it is
left: no attempt, no connection, no registered socket; and nothing that can still happen touches it. -/
theorem c180_released (is : List In) (h : Careful St.init is) (s : St) (hr : run St.init is = .ok s)
    (hd : s.alive = false) (hq : s.queue = []) :
    s.slots = [] ∧ s.dialing = [] ∧ s.transport = none ∧ ∀ js, run s js = .ok s := by
  obtain ⟨s', e, hv⟩ := careful_run is St.init inv_init h
  rw [hr] at e
  simp only [Except.ok.injEq] at e
  subst e
  obtain ⟨r0, h'⟩ := hv.dead hd
  rcases h' with h' | h' | h'
  · obtain ⟨_, h1, h2⟩ := h'
    have h3 : s.slots = [] := by
      have := hv.slots
      unfold owned at this
      rw [h1, h2] at this
      exact List.Perm.eq_nil this
    refine ⟨h3, h1, h2, fun js => ?_⟩
    induction js with
    | nil => rfl
    | cons j js ih =>
      have : step s j = .ok s := by
        cases j with
        | share => simp [step, r0]
        | drop => simp [step, r0]
        | dial => simp [step, r0]
        | send => simp [step, r0]
        | run a b => simp [step, runTask, hq]
        | connect fd ok => simp [step, h1]
        | event a b => simp [step, h2]
      rw [run, this]
      exact ih
  · rw [h'.1] at hq; cases hq
  · rw [h'.1] at hq; cases hq

theorem release_refs (s : St) (h : (release s).alive = false) (ha : s.alive = true) : (release s).refs = 0 := by
  unfold release at h ⊢
  split at h
  · rename_i hr; rw [if_pos hr]; exact hr.1
  · rw [ha] at h; cases h

theorem onConnected_alive {s s' : St} {fd : Nat} (h : onConnected s fd = .ok s') : s'.alive = true := by
  unfold onConnected at h
  split at h
  · cases h
  · rename_i ha
    split at h
    · cases h
    · simp only [Except.ok.injEq] at h
      subst h
      simpa using ha

/-- The client is deleted only when the user has no reference left. -/
theorem dies_unheld {s s' : St} {i : In} (h : step s i = .ok s') (ha : s.alive = true) (hd : s'.alive = false) :
    s'.refs = 0 := by
  cases i with
  | share =>
    simp only [step, Except.ok.injEq] at h
    subst h
    split at hd <;> (have : s.alive = false := hd; rw [ha] at this; cases this)
  | drop =>
    simp only [step, Except.ok.injEq] at h
    subst h
    split at hd
    · rw [ha] at hd; cases hd
    · rename_i hr
      rw [if_neg hr]
      exact release_refs _ hd ha
  | dial =>
    simp only [step, Except.ok.injEq] at h
    subst h
    split at hd <;> (have : s.alive = false := hd; rw [ha] at this; cases this)
  | send =>
    simp only [step, Except.ok.injEq] at h
    subst h
    split at hd <;> (have : s.alive = false := hd; rw [ha] at this; cases this)
  | connect fd ok =>
    simp only [step] at h
    split at h
    · split at h
      · rw [onConnected_alive h] at hd; cases hd
      · rw [if_neg (by rw [ha]; simp)] at h
        simp only [Except.ok.injEq] at h
        subst h
        have : s.alive = false := hd
        rw [ha] at this; cases this
    · simp only [Except.ok.injEq] at h
      subst h
      rw [ha] at hd; cases hd
  | event a b =>
    simp only [step] at h
    split at h
    · simp only [Except.ok.injEq] at h; subst h; rw [ha] at hd; cases hd
    · split at h
      · rw [if_neg (by rw [ha]; simp)] at h
        split at h <;> (simp only [Except.ok.injEq] at h; subst h; have : s.alive = false := hd; rw [ha] at this; cases this)
      · simp only [Except.ok.injEq] at h; subst h; rw [ha] at hd; cases hd
  | run a b =>
    simp only [step, runTask] at h
    split at h
    · simp only [Except.ok.injEq] at h; subst h; rw [ha] at hd; cases hd
    · cases a with
      | refused =>
        simp only [dialTask] at h
        rw [if_neg (by rw [ha]; simp)] at h
        simp only [Except.ok.injEq] at h
        subst h
        have : s.alive = false := hd
        rw [ha] at this; cases this
      | atOnce fd => rw [onConnected_alive h] at hd; cases hd
      | pending fd =>
        simp only [dialTask] at h
        split at h
        · cases h
        · simp only [Except.ok.injEq] at h
          subst h
          have : s.alive = false := hd
          rw [ha] at this; cases this
    · simp only [Except.ok.injEq] at h
      subst h
      exact release_refs _ hd (by rw [(sendFrame_same _ _).1]; exact ha)
    · simp only [Except.ok.injEq] at h
      subst h
      have : s.alive = false := hd
      rw [ha] at this; cases this
    · split at h
      · cases h
      · simp only [Except.ok.injEq] at h
        subst h
        have : s.alive = false := hd
        rw [ha] at this; cases this

theorem held_now {s : St} {is : List In} (h : Held s is) : s.refs ≠ 0 := by
  cases is with
  | nil => exact h
  | cons i is => exact h.1

theorem held_run : ∀ (is : List In) (s : St), Inv s → Held s is → ∃ s', run s is = .ok s' ∧ Inv s' ∧ s'.alive = true
  | [], s, hv, h => ⟨s, rfl, hv, by
      by_contra hc
      exact h (hv.dead (by simpa using hc)).1⟩
  | i :: is, s, hv, h => by
    obtain ⟨h0, h1, h2, h3⟩ := h
    have ha : s.alive = true := by
      by_contra hc
      exact h0 (hv.dead (by simpa using hc)).1
    obtain ⟨s', e, hv'⟩ := step_ok hv h1 h2
      (fun s' e _ hd => absurd (dies_unheld e ha hd) (held_now (h3 s' e)))
      (fun hc => by rw [ha] at hc; cases hc)
    obtain ⟨s'', e', r⟩ := held_run is s' hv' (h3 s' e)
    exact ⟨s'', by rw [run, e]; exact e', r⟩

/-- C180 (held): as long as the user keeps a reference, and dials only when nothing is under way, the client is
not deleted and nothing bad happens, whatever the network does. -/
theorem c180_held (is : List In) (h : Held St.init is) : ∃ s, run St.init is = .ok s ∧ s.alive = true := by
  obtain ⟨s, e, _, ha⟩ := held_run is St.init inv_init h
  exact ⟨s, e, ha⟩

/-! ### C179: other uses -/

/-- C179 violation. Letting go of a client that never connected (dialling failed, or was never tried) ends in a
null pointer being followed: the destructor posts `CloseService` of a transport that does not exist
(ws_client.cc:27). -/
theorem c179_never_connected_violated (s : St) (ha : s.alive = true) (hr : s.refs = 1) (hq : s.queue = [])
    (ht : s.transport = none) (a b : Answer) (x y : Bool) : run s [.drop, .run a x, .run b y] = .error .null := by
  simp [run, step, release, runTask, ha, hr, hq, ht]

/-- C179 violation. If the client is let go while an attempt is under way and the attempt ends before the loop
runs the destructor's tasks, the connector calls the deleted client. -/
theorem c179_dialing_violated (s : St) (ha : s.alive = true) (hr : s.refs = 1) (hq : Task.send ∉ s.queue) (fd : Nat)
    (hd : fd ∈ s.dialing) (ok : Bool) : run s [.drop, .connect fd ok] = .error .freed := by
  simp [run, step, release, ha, hr, hq, hd, onConnected]

/-- C179 violation. If the client is let go while connected and a message arrives, or the peer closes, before
the loop runs the destructor's tasks, the codec calls the deleted client. -/
theorem c179_connected_violated (s : St) (ha : s.alive = true) (hr : s.refs = 1) (hq : Task.send ∉ s.queue) (t : Tr)
    (ht : s.transport = some t) (hi : t.installed = true) (calls closes : Bool) (hc : calls = true ∨ closes = true) :
    run s [.drop, .event calls closes] = .error .freed := by
  have h1 : step s .drop = .ok { s with refs := 0, alive := false, queue := s.queue ++ [.stop, .close] } := by
    simp [step, release, ha, hr, hq]
  rw [run, h1]
  simp only [run, step]
  rw [ht]
  simp [hi, hc]

/-- C179 violation. `Dial` while connected: when the second connection is up the first is deleted with its socket
still registered; the process ends (a failed CHECK) when a later socket is given the same number. -/
theorem c179_redial_violated (s : St) (ha : s.alive = true) (hr : s.refs ≠ 0) (hq : s.queue = []) (t : Tr)
    (_ht : s.transport = some t) (hi : t.fd ∈ s.slots) (fd : Nat) (hf : fd ∉ s.slots) (b : Bool) :
    run s [.dial, .run (.atOnce fd) b, .dial, .run (.pending t.fd) b] = .error .abort ∧
    run s [.dial, .run (.atOnce fd) b, .dial, .run (.atOnce t.fd) b] = .error .abort := by
  have h0 : t.fd ≠ fd := fun e => hf (e ▸ hi)
  have h1 : step s .dial = .ok { s with queue := [.dial] } := by simp [step, hr, hq]
  have h2 : step { s with queue := [.dial] } (.run (.atOnce fd) b) =
      .ok { s with queue := [], transport := some ⟨fd, true⟩, slots := fd :: s.slots } := by
    simp [step, runTask, dialTask, onConnected, ha, hf]
  have h3 : step { s with queue := [], transport := some ⟨fd, true⟩, slots := fd :: s.slots } .dial =
      .ok { s with queue := [.dial], transport := some ⟨fd, true⟩, slots := fd :: s.slots } := by simp [step, hr]
  constructor
  · rw [run, h1]; simp only []
    rw [run, h2]; simp only []
    rw [run, h3]; simp only []
    simp [run, step, runTask, dialTask, hi]
  · rw [run, h1]; simp only []
    rw [run, h2]; simp only []
    rw [run, h3]; simp only []
    simp [run, step, runTask, dialTask, onConnected, ha, hi]

/-! ### The hypotheses can be met -/

/-- Dial, connect, exchange, the peer closes, dial again, connect, send, let go, the loop runs the tasks. -/
def demo : List In :=
  [.dial, .run (.pending 7) false, .connect 7 true, .event true false, .event true true, .dial, .run (.atOnce 8) false,
   .send, .drop, .run .refused false, .run .refused false, .run .refused false]

theorem w_c180 : (∃ s, run St.init demo = .ok s ∧ s.alive = false ∧ s.queue = [] ∧ s.slots = []) ∧
    run St.init [.drop, .run .refused false, .run .refused false] = .error .null ∧
    run St.init [.dial, .run (.pending 7) false, .drop, .connect 7 true] = .error .freed ∧
    run St.init [.dial, .run (.atOnce 7) false, .drop, .event true false] = .error .freed ∧
    run St.init [.dial, .run (.atOnce 7) false, .dial, .run (.atOnce 8) false, .dial, .run (.pending 7) false] = .error .abort := by
  refine ⟨⟨⟨0, false, [], none, [], []⟩, by decide +kernel, rfl, rfl, rfl⟩, by decide +kernel, by decide +kernel,
    by decide +kernel, by decide +kernel⟩

instance (s : St) (fd : Nat) : Decidable (Free s fd) :=
  decidable_of_iff (fd ∉ s.dialing ∧ s.transport.all (fun t => decide (t.fd ≠ fd)) = true) (by
    unfold Free
    cases s.transport <;> simp)

/-- A use with the reference kept: dial, connect, a message, the peer closes, dial again. -/
theorem w_held : Held St.init [.dial, .run (.pending 7) false, .connect 7 true, .event true true, .dial, .run (.atOnce 8) false] := by
  have go : ∀ (s : St) (i : In) (s' : St) (is : List In), s.refs ≠ 0 → step s i = .ok s' → Kernel s i →
      (i = .dial → Idle s) → Held s' is → Held s (i :: is) := by
    intro s i s' is r e k d c
    exact ⟨r, k, d, fun x hx => by rw [e] at hx; simp only [Except.ok.injEq] at hx; subst hx; exact c⟩
  refine go _ _ ⟨1, true, [], none, [.dial], []⟩ _ (by decide) (by decide +kernel) trivial (fun _ => ⟨rfl, by simp [St.init], by simp [St.init]⟩) ?_
  refine go _ _ ⟨1, true, [7], none, [], [7]⟩ _ (by decide) (by decide +kernel) ⟨by simp, by simp⟩ (fun h => by cases h) ?_
  refine go _ _ ⟨1, true, [], some ⟨7, true⟩, [], [7]⟩ _ (by decide) (by decide +kernel) trivial (fun h => by cases h) ?_
  refine go _ _ ⟨1, true, [], some ⟨7, false⟩, [], []⟩ _ (by decide) (by decide +kernel) trivial (fun h => by cases h) ?_
  refine go _ _ ⟨1, true, [], some ⟨7, false⟩, [.dial], []⟩ _ (by decide) (by decide +kernel) trivial (fun _ => ⟨rfl, by simp, by simp⟩) ?_
  refine go _ _ ⟨1, true, [], some ⟨8, true⟩, [], [8]⟩ _ (by decide) (by decide +kernel) ⟨by simp, by simp⟩ (fun h => by cases h) ?_
  exact (by decide : (1 : Nat) ≠ 0)

/-- `demo` is a careful use. -/
theorem w_careful : Careful St.init demo := by
  have go : ∀ (s : St) (i : In) (s' : St) (is : List In), step s i = .ok s' → Kernel s i → (i = .dial → Idle s) →
      (s.alive = true → s'.alive = false → Settled s) →
      (s.alive = false → ∀ a b, i = .event a b → a = false ∧ b = false) → Careful s' is → Careful s (i :: is) := by
    intro s i s' is e k d st q c
    refine ⟨k, d, ?_, q, ?_⟩
    · intro x hx; rw [e] at hx; simp only [Except.ok.injEq] at hx; subst hx; exact st
    · intro x hx; rw [e] at hx; simp only [Except.ok.injEq] at hx; subst hx; exact c
  unfold demo
  refine go _ _ ⟨1, true, [], none, [.dial], []⟩ _ (by decide +kernel) trivial (fun _ => ⟨rfl, by simp [St.init], by simp [St.init]⟩) (fun _ h => by cases h) (fun h => by cases h) ?_
  refine go _ _ ⟨1, true, [7], none, [], [7]⟩ _ (by decide +kernel) ⟨by simp, by simp⟩ (fun h => by cases h) (fun _ h => by cases h) (fun h => by cases h) ?_
  refine go _ _ ⟨1, true, [], some ⟨7, true⟩, [], [7]⟩ _ (by decide +kernel) trivial (fun h => by cases h) (fun _ h => by cases h) (fun h => by cases h) ?_
  refine go _ _ ⟨1, true, [], some ⟨7, true⟩, [], [7]⟩ _ (by decide +kernel) trivial (fun h => by cases h) (fun _ h => by cases h) (fun h => by cases h) ?_
  refine go _ _ ⟨1, true, [], some ⟨7, false⟩, [], []⟩ _ (by decide +kernel) trivial (fun h => by cases h) (fun _ h => by cases h) (fun h => by cases h) ?_
  refine go _ _ ⟨1, true, [], some ⟨7, false⟩, [.dial], []⟩ _ (by decide +kernel) trivial (fun _ => ⟨rfl, by simp, by simp⟩) (fun _ h => by cases h) (fun h => by cases h) ?_
  refine go _ _ ⟨1, true, [], some ⟨8, true⟩, [], [8]⟩ _ (by decide +kernel) ⟨by simp, by simp⟩ (fun h => by cases h) (fun _ h => by cases h) (fun h => by cases h) ?_
  refine go _ _ ⟨1, true, [], some ⟨8, true⟩, [.send], [8]⟩ _ (by decide +kernel) trivial (fun h => by cases h) (fun _ h => by cases h) (fun h => by cases h) ?_
  refine go _ _ ⟨0, true, [], some ⟨8, true⟩, [.send], [8]⟩ _ (by decide +kernel) trivial (fun h => by cases h) (fun _ h => by cases h) (fun h => by cases h) ?_
  refine go _ _ ⟨0, false, [], some ⟨8, true⟩, [.stop, .close], [8]⟩ _ (by decide +kernel) trivial (fun h => by cases h) (fun _ _ => ⟨by simp, rfl, by simp⟩) (fun _ a b h => by cases h) ?_
  refine go _ _ ⟨0, false, [], some ⟨8, true⟩, [.close], [8]⟩ _ (by decide +kernel) trivial (fun h => by cases h) (fun h => by cases h) (fun _ a b h => by cases h) ?_
  refine go _ _ ⟨0, false, [], none, [], []⟩ _ (by decide +kernel) trivial (fun h => by cases h) (fun h => by cases h) (fun _ a b h => by cases h) ?_
  trivial

end Ltio.Client.WsLife
