import Verif.Net.IpProps2
import Verif.Loop.FdReg
import Mathlib.Data.List.Forall2

/-
net_io/udp_io/udp_service.cc (all) and udp_service.h (`IOVecBuffer`, `UDPBufferDetail`, `UDPPollBuffer`).

`recvmmsg` is given by its outcomes.  The kernel writes the first `iov_len` bytes of each datagram, its length
(cut to that) into `msg_len`, and the sender's socket address at the beginning of the slot's storage; what lies
behind it there stays.  The descriptor registry is the one of C25 (Loop/FdReg.lean).
-/
namespace Ltio.Net.Udp
open Ltio.Ip Ltio.Loop.FdReg

/-- `LT_UDP_MTU_SIZE` (udp_service.h:38). -/
def mtu : Nat := 2048 - 64 * 2

/-- A datagram as it comes: its bytes and the sender's socket address. -/
structure Datagram where
  bytes : List UInt8
  src : List UInt8

/-- One slot of `UDPPollBuffer` (udp_service.h:40-51, 68-105): `buffer_`, `msg_len` and the storage of
`src_addr_`. -/
structure Slot where
  buffer : List UInt8
  len : Nat
  storage : List UInt8

/-- The kernel writes `b` over the beginning of `old`. -/
def overwrite (old b : List UInt8) : List UInt8 := b ++ old.drop b.length

/-- What `recvmmsg` does to a slot: `iov_len` is `LT_UDP_MTU_SIZE` (43-44), `msg_namelen` the 128 bytes of a
`sockaddr_storage` or, after the first use, the length of the last address (86-87; the kernel's value stays). -/
def Slot.fill (s : Slot) (d : Datagram) : Slot :=
  ⟨overwrite s.buffer (d.bytes.take mtu), min d.bytes.length mtu, overwrite s.storage d.src⟩

/-- `UDPBufferDetail::data` (56-61). -/
def Slot.data (s : Slot) : List UInt8 := s.buffer.take s.len

/-- The sender of a slot (udp_service.cc:102-105): `FromSockAddr` on all 128 bytes of the storage; the end point
stays the default if that fails. -/
def Slot.sender (s : Slot) : EndPoint := (fromSockAddr s.storage).getD ⟨[], 0⟩

/-- `recvmmsg` on all slots: datagrams `ds` (at most one per slot) fill the first ones. -/
def fillAll : List Slot → List Datagram → List Slot
  | s :: ss, d :: ds => s.fill d :: fillAll ss ds
  | ss, [] => ss
  | [], _ :: _ => []

/-- Outcome of `recvmmsg` (89-93): the datagrams received, `EAGAIN`/`EINTR`, or another error. -/
inductive Recv | got (ds : List Datagram) | again | error

/-- `HandleRead` (udp_service.cc:85-111) with the outcomes of `recvmmsg` in order: the slots afterwards and what
was handled, in order.  Both kinds of failure end it; `HandleClose` (121-123) does nothing. -/
def handleRead : List Slot → List Recv → List Slot × List (List UInt8 × EndPoint)
  | ss, [] => (ss, [])
  | ss, .again :: _ => (ss, [])
  | ss, .error :: _ => (ss, [])
  | ss, .got [] :: _ => (ss, [])
  | ss, .got (d :: ds) :: rs =>
    ((handleRead (fillAll ss (d :: ds)) rs).1,
      ((fillAll ss (d :: ds)).take (d :: ds).length).map (fun s => (s.data, s.sender)) ++ (handleRead (fillAll ss (d :: ds)) rs).2)

/-! ### Specification of reading -/

/-- Slots of the right sizes (udp_service.h:40-51). -/
def Sized (ss : List Slot) : Prop := ∀ s ∈ ss, s.buffer.length = mtu ∧ s.storage.length = 128

/-- The kernel's promises: at most as many datagrams as slots, each from an IPv4 or IPv6 end point. -/
def Kernel (n : Nat) (r : Recv) : Prop :=
  ∀ ds, r = .got ds → ds.length ≤ n ∧ ∀ d ∈ ds, ∃ e : EndPoint, (e.addr.length = 4 ∨ e.addr.length = 16) ∧ toSockAddr e 28 = some d.src

/-- The datagrams that come before the first failure. -/
def incoming : List Recv → List Datagram
  | .got (d :: ds) :: rs => (d :: ds) ++ incoming rs
  | _ => []

/-- What should be handled for a datagram: its first 1920 bytes and its sender. -/
def Handled (d : Datagram) (h : List UInt8 × EndPoint) : Prop :=
  h.1 = d.bytes.take 1920 ∧ toSockAddr h.2 28 = some d.src

theorem from_prefix (e : EndPoint) (he : e.addr.length = 4 ∨ e.addr.length = 16) (s rest : List UInt8)
    (hs : toSockAddr e 28 = some s) (hr : 28 ≤ (s ++ rest).length) : fromSockAddr (s ++ rest) = some e := by
  obtain ⟨a, port⟩ := e
  simp only [] at he
  have hport : UInt16.ofNat ((UInt8.ofNat (port.toNat / 256)).toNat * 256 + (UInt8.ofNat (port.toNat % 256)).toNat) = port := by
    have hp := port.toNat_lt
    apply UInt16.toNat_inj.1
    rw [UInt16.toNat_ofNat', UInt8.toNat_ofNat', UInt8.toNat_ofNat']
    omega
  rcases he with h | h
  · have e1 : s = [2, 0, UInt8.ofNat (port.toNat / 256), UInt8.ofNat (port.toNat % 256)] ++ a ++ List.replicate 8 0 := by
      simp [toSockAddr, h] at hs
      simp [← hs]
    have hl : 16 ≤ (s ++ rest).length := by omega
    rw [e1] at hl ⊢
    simp only [List.cons_append, List.nil_append, List.append_assoc] at hl ⊢
    unfold fromSockAddr
    simp only []
    rw [if_pos (by decide), if_neg (by omega), hport, List.take_left' h]
  · have e1 : s = [10, 0, UInt8.ofNat (port.toNat / 256), UInt8.ofNat (port.toNat % 256)] ++ List.replicate 4 0 ++ a ++ List.replicate 4 0 := by
      unfold toSockAddr at hs
      simp only [] at hs
      rw [if_neg (by omega), if_pos h, if_neg (by omega)] at hs
      exact (Option.some.inj hs).symm
    rw [e1] at hr ⊢
    simp only [List.cons_append, List.nil_append, List.append_assoc] at hr ⊢
    unfold fromSockAddr
    simp only []
    rw [if_neg (by decide), if_pos (by decide), if_neg (by omega), hport, List.drop_left' (by simp), List.take_left' h]

theorem overwrite_length (old b : List UInt8) (h : b.length ≤ old.length) : (overwrite old b).length = old.length := by
  simp [overwrite]; omega

theorem addr_len (e : EndPoint) (he : e.addr.length = 4 ∨ e.addr.length = 16) (s : List UInt8) (hs : toSockAddr e 28 = some s) :
    s.length = 16 ∨ s.length = 28 := by
  rcases he with h | h
  · obtain ⟨s', h1, h2, _⟩ := (c49_sockaddr e 28).1 h (by decide)
    rw [hs] at h1; cases h1; exact Or.inl h2
  · obtain ⟨s', h1, h2, _⟩ := (c49_sockaddr e 28).2.1 h (by decide)
    rw [hs] at h1; cases h1; exact Or.inr h2

theorem fill_sized (s : Slot) (d : Datagram) (h : s.buffer.length = mtu ∧ s.storage.length = 128)
    (hd : ∃ e : EndPoint, (e.addr.length = 4 ∨ e.addr.length = 16) ∧ toSockAddr e 28 = some d.src) :
    (s.fill d).buffer.length = mtu ∧ (s.fill d).storage.length = 128 := by
  obtain ⟨e, he, hs⟩ := hd
  have := addr_len e he d.src hs
  constructor
  · unfold Slot.fill
    simp only []
    rw [overwrite_length, h.1]
    rw [h.1]; simp
  · unfold Slot.fill
    simp only []
    rw [overwrite_length, h.2]
    omega

theorem fill_handled (s : Slot) (d : Datagram) (h : s.buffer.length = mtu ∧ s.storage.length = 128)
    (hd : ∃ e : EndPoint, (e.addr.length = 4 ∨ e.addr.length = 16) ∧ toSockAddr e 28 = some d.src) :
    Handled d ((s.fill d).data, (s.fill d).sender) := by
  obtain ⟨e, he, hs⟩ := hd
  have hl := addr_len e he d.src hs
  constructor
  · have hm : (d.bytes.take mtu).length = min d.bytes.length mtu := by rw [List.length_take, Nat.min_comm]
    unfold Slot.fill Slot.data overwrite
    simp only []
    rw [← hm, List.take_left]
    rfl
  · have : (s.fill d).sender = e := by
      unfold Slot.fill Slot.sender overwrite
      simp only []
      rw [from_prefix e he d.src _ hs (by rw [List.length_append, List.length_drop, h.2]; omega)]
      rfl
    rw [this]
    exact hs

theorem fillAll_spec (ss : List Slot) (ds : List Datagram) (hs : Sized ss) (hl : ds.length ≤ ss.length)
    (hd : ∀ d ∈ ds, ∃ e : EndPoint, (e.addr.length = 4 ∨ e.addr.length = 16) ∧ toSockAddr e 28 = some d.src) :
    Sized (fillAll ss ds) ∧ (fillAll ss ds).length = ss.length ∧
    List.Forall₂ Handled ds (((fillAll ss ds).take ds.length).map (fun s => (s.data, s.sender))) := by
  induction ss generalizing ds with
  | nil =>
    have : ds = [] := by cases ds with | nil => rfl | cons d ds => simp at hl
    subst this
    exact ⟨hs, rfl, .nil⟩
  | cons s ss ih =>
    cases ds with
    | nil => exact ⟨hs, rfl, by simp [fillAll]⟩
    | cons d ds =>
      have h1 := hs s (by simp)
      obtain ⟨i1, i2, i3⟩ := ih ds (fun x hx => hs x (by simp [hx])) (by simpa using hl) (fun x hx => hd x (by simp [hx]))
      refine ⟨?_, by simp [fillAll, i2], ?_⟩
      · intro x hx
        simp only [fillAll, List.mem_cons] at hx
        rcases hx with rfl | hx
        · exact fill_sized s d h1 (hd d (by simp))
        · exact i1 x hx
      · simp only [fillAll, List.length_cons, List.take_succ_cons, List.map_cons]
        exact .cons (fill_handled s d h1 (hd d (by simp))) i3

/-- **C126 (datagrams)**: for every sequence of batches the kernel gives, whatever the slots held before, exactly
the datagrams that came before the first failure are handled, each once and in order, with its first 1920 bytes
and the exact address of its sender (IPv4 or IPv6). -/
theorem c126_datagrams (ss : List Slot) (rs : List Recv) (hs : Sized ss) (hk : ∀ r ∈ rs, Kernel ss.length r) :
    List.Forall₂ Handled (incoming rs) (handleRead ss rs).2 ∧ Sized (handleRead ss rs).1 := by
  induction rs generalizing ss with
  | nil => exact ⟨.nil, hs⟩
  | cons r rs ih =>
    cases r with
    | again => exact ⟨.nil, hs⟩
    | error => exact ⟨.nil, hs⟩
    | got ds =>
      cases ds with
      | nil => exact ⟨.nil, hs⟩
      | cons d ds =>
        obtain ⟨k1, k2⟩ := hk (.got (d :: ds)) (by simp) _ rfl
        obtain ⟨f1, f2, f3⟩ := fillAll_spec ss (d :: ds) hs k1 k2
        obtain ⟨i1, i2⟩ := ih (fillAll ss (d :: ds)) f1 (fun r hr => by rw [f2]; exact hk r (by simp [hr]))
        simp only [handleRead, incoming]
        exact ⟨List.rel_append f3 i1, i2⟩

/-- **C126 (large datagrams)**: violation.  A datagram of more than 1920 bytes is cut without a notice: two
datagrams that differ only behind the 1920th byte are handled alike (`msg_flags` is not looked at). -/
theorem c126_cut_violated (s : Slot) (a b b' src : List UInt8) (ha : a.length = 1920) (hb : b ≠ []) :
    s.fill ⟨a ++ b, src⟩ = s.fill ⟨a ++ b', src⟩ ∧ (s.fill ⟨a ++ b, src⟩).data.length < (a ++ b).length := by
  have hm : mtu = 1920 := rfl
  have h1 : (a ++ b).take mtu = a := by rw [hm, List.take_left' ha]
  have h2 : (a ++ b').take mtu = a := by rw [hm, List.take_left' ha]
  have l1 : min (a ++ b).length mtu = 1920 := by simp [hm, ha]
  have l2 : min (a ++ b').length mtu = 1920 := by simp [hm, ha]
  have hbl : 0 < b.length := List.length_pos_iff.2 hb
  constructor
  · unfold Slot.fill
    simp only [h1, h2, l1, l2]
  · unfold Slot.fill Slot.data
    simp only [h1, l1]
    rw [List.length_take, List.length_append, ha]
    omega

/-! ### Life time of the socket -/

/-- The process: the registry of events, the object that holds each open descriptor, and `socket_event_`. -/
structure W where
  sys : Sys
  holder : Int → Option Nat
  ev : Option Nat

/-- Open or close a descriptor. -/
def setH (h : Int → Option Nat) (fd : Int) (v : Option Nat) : Int → Option Nat := fun x => if x = fd then v else h x

/-- What happens: the service starts (`none`: `socket` or `bind` failed), stops, is destroyed; other code opens a
descriptor with or without installing an event for it, and closes it. -/
inductive Ev
  | start (e : Option Nat)
  | stop
  | destroy
  | openEvent (e : Nat)
  | openPlain (e : Nat)
  | close (e : Nat)

/-- Replacing or destroying `socket_event_` closes its descriptor (fd_event.cc:42-46). -/
def dropEvent (fdOf : Nat → Int) (w : W) : W :=
  match w.ev with
  | none => w
  | some e => { w with holder := setH w.holder (fdOf e) none, ev := none }

/-- Install an event in loop 0 of the process; `none` is a failed `CHECK`, which ends the process. -/
def installIn (fdOf : Nat → Int) (w : W) (e : Nat) : Option W :=
  match w.sys.install fdOf 0 e with
  | none => none
  | some (s, _) => some { w with sys := s }

/-- `StartService` (38-66): the new event replaces the old one, then it is installed. -/
def start (fdOf : Nat → Int) (w : W) : Option Nat → Option W
  | none => some w
  | some e => installIn fdOf { dropEvent fdOf { w with holder := setH w.holder (fdOf e) (some e) } with ev := some e } e

/-- `StopService` (68-76). -/
def stop (fdOf : Nat → Int) (w : W) : W :=
  match w.ev with
  | none => w
  | some e => { w with holder := setH w.holder (fdOf e) none }

/-- One happening. -/
def step (fdOf : Nat → Int) (w : W) : Ev → Option W
  | .start e => start fdOf w e
  | .stop => some (stop fdOf w)
  | .destroy => some (dropEvent fdOf w)
  | .openEvent e => installIn fdOf { w with holder := setH w.holder (fdOf e) (some e) } e
  | .openPlain e => some { w with holder := setH w.holder (fdOf e) (some e) }
  | .close e => some { w with holder := setH w.holder (fdOf e) none, sys := (w.sys.remove fdOf 0 e).elim w.sys Prod.fst }

/-- A started service: its socket is open and registered. -/
def Started (fdOf : Nat → Int) (w : W) (e : Nat) : Prop :=
  w.ev = some e ∧ w.holder (fdOf e) = some e ∧ w.sys.reg.get (fdOf e) = some e

/-- **C127 (start)**: a service that starts with a new descriptor is started. -/
theorem c127_start (fdOf : Nat → Int) (w w' : W) (e : Nat) (h0 : w.ev = none) (hw : w.sys.watcher e = none)
    (h : step fdOf w (.start (some e)) = some w') : Started fdOf w' e := by
  unfold step start installIn at h
  simp only [dropEvent, h0] at h
  have hi : w.sys.install fdOf 0 e = match w.sys.reg.add fdOf e with
    | (r, .success) => some (⟨r, setW w.sys.watcher e (some 0)⟩, true)
    | _ => none := by
    unfold Sys.install
    rw [if_neg (by simp [hw])]
    rfl
  rcases ha : w.sys.reg.add fdOf e with ⟨r, res⟩
  rw [hi, ha] at h
  cases res with
  | success =>
    simp only [Option.some.injEq] at h
    subst h
    refine ⟨rfl, by simp [setH], ?_⟩
    have := (add_success ha).2 (fdOf e)
    simpa using this
  | invalidFd => simp at h
  | duplicated => simp at h
  | notExist => simp at h

/-- **C127 (stopping ends the process)**: violation.  `StopService` closes the socket but leaves its event
registered: when the next component gets the same descriptor (the kernel gives the lowest free one) and installs
an event for it, `CHECK(fd_mgr_.Add(fd_ev) == Success)` fails and the process ends. -/
theorem c127_abort_violated (fdOf : Nat → Int) (w : W) (e e' : Nat) (h : Started fdOf w e) (hfd : fdOf e' = fdOf e)
    (hw : w.sys.watcher e' = none) :
    ∃ w', step fdOf w .stop = some w' ∧ w'.holder (fdOf e') = none ∧ step fdOf w' (.openEvent e') = none := by
  obtain ⟨h1, _, h3⟩ := h
  refine ⟨{ w with holder := setH w.holder (fdOf e) none }, ?_, ?_, ?_⟩
  · simp [step, stop, h1]
  · simp [setH, hfd]
  · have hb : w.sys.reg.bad (fdOf e') = false := by rw [hfd]; exact get_some_not_bad h3
    have hg : w.sys.reg.getD (fdOf e').toNat none = some e := by rw [getD_eq_get _ _ hb, hfd, h3]
    simp only [step, installIn, Sys.install, Reg.add]
    rw [if_neg (by simp [hw]), if_neg (by simp [hb]), hg]

/-- **C127 (stopping twice)**: violation.  A second `StopService`, or the end of the service after a stop, closes
the descriptor again: whoever got that number in the meantime loses it. -/
theorem c127_double_close_violated (fdOf : Nat → Int) (w : W) (e e' : Nat) (h : Started fdOf w e) (hfd : fdOf e' = fdOf e) :
    ∃ w1 w2 w3 w4, step fdOf w .stop = some w1 ∧ step fdOf w1 (.openPlain e') = some w2 ∧ w2.holder (fdOf e') = some e' ∧
      step fdOf w2 .stop = some w3 ∧ w3.holder (fdOf e') = none ∧ step fdOf w2 .destroy = some w4 ∧ w4.holder (fdOf e') = none := by
  obtain ⟨h1, _, _⟩ := h
  refine ⟨{ w with holder := setH w.holder (fdOf e) none }, { w with holder := setH (setH w.holder (fdOf e) none) (fdOf e') (some e') },
    { w with holder := setH (setH (setH w.holder (fdOf e) none) (fdOf e') (some e')) (fdOf e) none },
    { w with holder := setH (setH (setH w.holder (fdOf e) none) (fdOf e') (some e')) (fdOf e) none, ev := none }, ?_, ?_, ?_, ?_, ?_, ?_, ?_⟩
  · simp [step, stop, h1]
  · simp [step]
  · simp [setH]
  · simp [step, stop, h1]
  · simp [setH, hfd]
  · simp [step, dropEvent, h1]
  · simp [setH, hfd]

/-- **C127 (end)**: violation.  When a started service ends, its event stays in the registry although the object
is gone: looking the descriptor up gives a freed event. -/
theorem c127_dangling_violated (fdOf : Nat → Int) (w : W) (e : Nat) (h : Started fdOf w e) :
    ∃ w', step fdOf w .destroy = some w' ∧ w'.ev = none ∧ w'.holder (fdOf e) = none ∧ w'.sys.reg.get (fdOf e) = some e := by
  obtain ⟨h1, _, h3⟩ := h
  exact ⟨{ w with holder := setH w.holder (fdOf e) none, ev := none }, by simp [step, dropEvent, h1], rfl, by simp [setH], h3⟩

/-- Only other code acts, and it only gets descriptors that are free and closes what it opened. -/
def Polite (fdOf : Nat → Int) (w : W) : Ev → Prop
  | .openEvent e => w.holder (fdOf e) = none ∧ w.sys.watcher e = none
  | .openPlain e => w.holder (fdOf e) = none
  | .close e => w.holder (fdOf e) = some e ∧ w.ev ≠ some e
  | _ => False

theorem remove_other (fdOf : Nat → Int) (s : Sys) (e e' : Nat) (hne : e' ≠ e) (h : s.reg.get (fdOf e) = some e) :
    ((s.remove fdOf 0 e').elim s Prod.fst).reg.get (fdOf e) = some e := by
  unfold Sys.remove
  by_cases h1 : s.watcher e' = none
  · rw [if_pos h1]; exact h
  · rw [if_neg h1]
    by_cases h2 : s.watcher e' ≠ some 0
    · rw [if_pos h2]; exact h
    · rw [if_neg h2]
      show ((s.reg.remove fdOf e').1).get (fdOf e) = some e
      unfold Reg.remove
      by_cases hb : s.reg.bad (fdOf e') = true
      · rw [if_pos hb]; exact h
      · rw [if_neg hb]
        have hb' : s.reg.bad (fdOf e') = false := by simpa using hb
        rw [getD_eq_get _ _ hb']
        cases hg : s.reg.get (fdOf e') with
        | none => exact h
        | some x =>
          simp only []
          by_cases hx : x ≠ e'
          · rw [if_pos hx]; exact h
          · rw [if_neg hx]
            have hx' : x = e' := by simpa using hx
            show Reg.get (s.reg.set _ none) _ = _
            rw [get_set s.reg _ _ hb' none]
            rw [if_neg]
            · exact h
            · intro hc
              rw [hc] at h
              rw [hg, hx'] at h
              exact hne (Option.some.inj h)

/-- **C127 (while it runs)**: whatever other code does with its own descriptors, a started service stays started:
its socket stays open and registered. -/
theorem c127_stays (fdOf : Nat → Int) (w w' : W) (e : Nat) (x : Ev) (h : Started fdOf w e) (hp : Polite fdOf w x)
    (hs : step fdOf w x = some w') : Started fdOf w' e := by
  obtain ⟨h1, h2, h3⟩ := h
  cases x with
  | start _ => exact hp.elim
  | stop => exact hp.elim
  | destroy => exact hp.elim
  | openPlain e' =>
    simp only [step, Option.some.injEq] at hs
    subst hs
    refine ⟨h1, ?_, h3⟩
    have : fdOf e ≠ fdOf e' := by
      intro hc
      have hp' : w.holder (fdOf e') = none := hp
      rw [← hc, h2] at hp'
      cases hp'
    simp [setH, this, h2]
  | openEvent e' =>
    obtain ⟨hp1, hp2⟩ := hp
    have hne : fdOf e ≠ fdOf e' := by
      intro hc
      rw [← hc, h2] at hp1
      cases hp1
    simp only [step, installIn, Sys.install] at hs
    rw [if_neg (by simp [hp2])] at hs
    rcases ha : w.sys.reg.add fdOf e' with ⟨r, res⟩
    rw [ha] at hs
    cases res with
    | success =>
      simp only [Option.some.injEq] at hs
      subst hs
      refine ⟨h1, by simp [setH, hne, h2], ?_⟩
      have := (add_success ha).2 (fdOf e)
      rw [if_neg hne] at this
      exact this.trans h3
    | invalidFd => simp at hs
    | duplicated => simp at hs
    | notExist => simp at hs
  | close e' =>
    obtain ⟨hp1, hp2⟩ := hp
    have hne' : e' ≠ e := by
      rintro rfl
      exact hp2 h1
    have hne : fdOf e ≠ fdOf e' := by
      intro hc
      rw [← hc, h2] at hp1
      exact hne' (Option.some.inj hp1).symm
    simp only [step, Option.some.injEq] at hs
    subst hs
    exact ⟨h1, by simp [setH, hne, h2], remove_other fdOf w.sys e e' hne' h3⟩

/-! ### Examples -/

/-- Two batches and then `EAGAIN`. -/
example : Sized [⟨List.replicate 1920 0, 0, List.replicate 128 0⟩] ∧
    Kernel 1 (.got [⟨[104, 105], [2, 0, 0, 80, 10, 0, 0, 1, 0, 0, 0, 0, 0, 0, 0, 0]⟩]) := by
  constructor
  · intro s hs
    simp only [List.mem_singleton] at hs
    subst hs
    exact ⟨List.length_replicate, List.length_replicate⟩
  · intro ds hd
    cases hd
    refine ⟨by simp, ?_⟩
    intro d hd
    simp only [List.mem_singleton] at hd
    subst hd
    exact ⟨⟨[10, 0, 0, 1], 80⟩, Or.inl rfl, by decide +kernel⟩

example : Started (fun _ => 3) ⟨⟨[none, none, none, some 7], fun x => if x = 7 then some 0 else none⟩, fun x => if x = 3 then some 7 else none, some 7⟩ 7 := by
  refine ⟨rfl, rfl, ?_⟩
  decide +kernel

end Ltio.Net.Udp
