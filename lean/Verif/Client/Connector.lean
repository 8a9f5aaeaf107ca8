import Mathlib.Data.List.Nodup

/-
Model of net_io/clients/client_connector.cc (`Connector`) with the event translation of
base/message_loop/io_mux_epoll.cc, and C52: what a dial reports.

A dial is identified by its socket descriptor (each used once).  The kernel is specified by
`polled`: what epoll reports for a non-blocking connect that has completed.
-/
namespace Ltio.Connector

/-- epoll's event bits used by the code. -/
structure Ep where
  inp : Bool
  out : Bool
  rdhup : Bool
  hup : Bool
  err : Bool
deriving DecidableEq

/-- `LtEv` bits (event.h:34-39). -/
structure Lt where
  read : Bool
  write : Bool
deriving DecidableEq

/-- `ToLtEvent` (io_mux_epoll.cc:65-86). -/
def toLt (e : Ep) : Lt := ⟨e.hup || e.err || e.inp || e.rdhup, e.hup || e.err || e.out⟩

/-- `ToEpollEvent` (io_mux_epoll.cc:88-98): the bits asked for; hang-up and error need no asking. -/
def asked (watch : Lt) : Ep := ⟨watch.read, watch.write, true, true, true⟩

/-- How the attempt ended: established (the peer may have closed again, data may have arrived), or
refused. -/
inductive Outcome where
  | established (peerClosed data : Bool)
  | refused
deriving DecidableEq

/-- **Specification of the kernel**: the state of the socket as epoll would report it. -/
def pollState : Outcome → Ep
  | .established closed data => ⟨data || closed, true, closed, false, false⟩
  | .refused => ⟨true, true, true, true, true⟩

/-- What is reported: the bits that were asked for. -/
def polled (watch : Lt) (o : Outcome) : Ep :=
  let a := asked watch
  let p := pollState o
  ⟨a.inp && p.inp, a.out && p.out, a.rdhup && p.rdhup, a.hup && p.hup, a.err && p.err⟩

/-- What the delegate is told. -/
inductive Report where
  | connected (fd : Nat)
  | failed (fd : Nat)
deriving DecidableEq

/-- The descriptor a report is about. -/
def Report.fd : Report → Nat
  | .connected fd => fd
  | .failed fd => fd

/-- The connector; `reports`, `opened`, `closed` are ghosts. -/
structure St where
  /-- `inprogress_` -/
  inprog : List Nat
  /-- `count_` -/
  count : Nat
  reports : List Report
  /-- sockets created by dials -/
  opened : List Nat
  /-- sockets closed by the connector -/
  closed : List Nat
  /-- dials cancelled by `Stop` -/
  cancelled : List Nat

/-- A new connector (client_connector.cc:28-30). -/
def init : St := ⟨[], 0, [], [], [], []⟩

/-- What `connect` says at once. -/
inductive AtOnce where
  | connected
  | pending
  | failed
deriving DecidableEq

/-- `Dial` (client_connector.cc:32-81) with a fresh descriptor; an endpoint query that fails right
after an immediate connect, an unusable address and a hard error are all `failed` (socket closed). -/
def dial (s : St) (fd : Nat) : AtOnce → St
  | .connected => { s with opened := fd :: s.opened, reports := .connected fd :: s.reports }
  | .pending => { s with opened := fd :: s.opened, inprog := s.inprog ++ [fd] }
  | .failed => { s with opened := fd :: s.opened, closed := fd :: s.closed, reports := .failed fd :: s.reports }

/-- `RemoveFromInprogress(event, true)` (client_connector.cc:172-191): dropping the event closes the
socket. -/
def removeInprogress (s : St) (fd : Nat) : St :=
  if fd ∈ s.inprog then
    { s with inprog := s.inprog.erase fd, count := (s.inprog.erase fd).length,
             reports := .failed fd :: s.reports, closed := fd :: s.closed }
  else s

/-- `HandleWrite` (client_connector.cc:131-160), no self-connection: ownership of the socket is
released before the endpoints are queried. -/
def handleWrite (s : St) (fd : Nat) (up : Bool) : St :=
  if fd ∈ s.inprog then
    if up then { s with inprog := s.inprog.erase fd, reports := .connected fd :: s.reports }
    else { s with inprog := s.inprog.erase fd, reports := .failed fd :: s.reports }
  else s

/-- The endpoint queries succeed: the socket is connected. -/
def isUp : Outcome → Bool
  | .established _ _ => true
  | .refused => false

/-- `HandleEvent` (client_connector.cc:117-124). -/
def handleEvent (s : St) (fd : Nat) (o : Outcome) (ev : Lt) : St :=
  if ev.read then handleWrite s fd (isUp o) else removeInprogress s fd

/-- The event of a dial in progress, which watches for writability (client_connector.cc:66). -/
def event (s : St) (fd : Nat) (o : Outcome) : St :=
  handleEvent s fd o (toLt (polled ⟨false, true⟩ o))

/-- `Stop` (client_connector.cc:162-170). -/
def stop (s : St) : St :=
  { s with inprog := [], count := 0, closed := s.inprog ++ s.closed, cancelled := s.inprog ++ s.cancelled }

/-- What can happen. -/
inductive Lab where
  | dial (fd : Nat) (r : AtOnce)
  | event (fd : Nat) (o : Outcome)
  | stop

/-- One step; descriptors of dials are new. -/
def step (s : St) : Lab → Option St
  | .dial fd r => if fd ∈ s.opened then none else some (dial s fd r)
  | .event fd o => some (event s fd o)
  | .stop => some (stop s)

inductive Reach : St → Prop where
  | init : Reach init
  | step {s s' : St} (l : Lab) : Reach s → step s l = some s' → Reach s'

/-- A schedule. -/
def runLabs (s : St) : List Lab → Option St
  | [] => some s
  | l :: ls => (step s l).bind (fun s' => runLabs s' ls)

/-- Every dial is in exactly one place. -/
structure Inv (s : St) : Prop where
  places : (s.inprog ++ s.reports.map Report.fd ++ s.cancelled).Nodup
  cover : ∀ fd, fd ∈ s.inprog ++ s.reports.map Report.fd ++ s.cancelled ↔ fd ∈ s.opened

theorem inv_move {s s' : St} (h : Inv s) (ho : s'.opened = s.opened)
    (hp : List.Perm (s'.inprog ++ s'.reports.map Report.fd ++ s'.cancelled)
      (s.inprog ++ s.reports.map Report.fd ++ s.cancelled)) : Inv s' :=
  ⟨hp.nodup_iff.2 h.places, fun fd => hp.mem_iff.trans (ho ▸ h.cover fd)⟩

theorem inv_new {s s' : St} (h : Inv s) (fd : Nat) (hf : fd ∉ s.opened) (ho : s'.opened = fd :: s.opened)
    (hp : List.Perm (s'.inprog ++ s'.reports.map Report.fd ++ s'.cancelled)
      (fd :: (s.inprog ++ s.reports.map Report.fd ++ s.cancelled))) : Inv s' := by
  refine ⟨hp.nodup_iff.2 (List.nodup_cons.2 ⟨fun hc => hf ((h.cover fd).1 hc), h.places⟩), fun k => ?_⟩
  rw [hp.mem_iff, ho, List.mem_cons, List.mem_cons, h.cover k]

theorem perm_report (inp rep can : List Nat) (fd : Nat) (hm : fd ∈ inp) :
    List.Perm (inp.erase fd ++ (fd :: rep) ++ can) (inp ++ rep ++ can) := by
  have h1 : List.Perm inp (fd :: inp.erase fd) := List.perm_cons_erase hm
  have h2 : List.Perm (inp.erase fd ++ (fd :: rep)) (inp ++ rep) :=
    List.perm_middle.trans (h1.symm.append_right rep)
  exact h2.append_right can

theorem inv_reach {s : St} (h : Reach s) : Inv s := by
  induction h with
  | init => exact ⟨by simp [init], by simp [init]⟩
  | @step s s' l _ hs ih =>
    cases l with
    | dial fd r =>
      simp only [step] at hs
      split at hs
      · simp at hs
      · rename_i hf
        simp only [Option.some.injEq] at hs; subst hs
        cases r with
        | connected =>
          refine inv_new ih fd hf rfl ?_
          simp only [dial, List.map_cons, Report.fd]
          exact (List.perm_middle.append_right _)
        | failed =>
          refine inv_new ih fd hf rfl ?_
          simp only [dial, List.map_cons, Report.fd]
          exact (List.perm_middle.append_right _)
        | pending =>
          refine inv_new ih fd hf rfl ?_
          simp only [dial]
          have : List.Perm (s.inprog ++ [fd]) (fd :: s.inprog) := List.perm_append_comm
          exact ((this.append_right _).append_right _)
    | event fd o =>
      simp only [step, Option.some.injEq] at hs; subst hs
      unfold event handleEvent
      split
      · unfold handleWrite
        split
        · rename_i hm
          split
          · exact inv_move ih rfl (perm_report _ _ _ fd hm)
          · exact inv_move ih rfl (perm_report _ _ _ fd hm)
        · exact ih
      · unfold removeInprogress
        split
        · rename_i hm
          exact inv_move ih rfl (perm_report _ _ _ fd hm)
        · exact ih
    | stop =>
      simp only [step, Option.some.injEq] at hs; subst hs
      refine inv_move ih rfl ?_
      simp only [stop, List.nil_append]
      have : List.Perm (s.reports.map Report.fd ++ (s.inprog ++ s.cancelled))
          (s.inprog ++ s.reports.map Report.fd ++ s.cancelled) := by
        rw [← List.append_assoc]
        exact List.perm_append_comm.append_right _
      exact this

/-- **C52 (one report per dial).**  In every history each dial is in progress, reported once, or
cancelled – exactly one of them. -/
theorem c52_once {s : St} (h : Reach s) (fd : Nat) (hf : fd ∈ s.opened) :
    (fd ∈ s.inprog ∧ fd ∉ s.reports.map Report.fd ∧ fd ∉ s.cancelled) ∨
    ((s.reports.map Report.fd).count fd = 1 ∧ fd ∉ s.inprog ∧ fd ∉ s.cancelled) ∨
    (fd ∈ s.cancelled ∧ fd ∉ s.inprog ∧ fd ∉ s.reports.map Report.fd) := by
  have hi := inv_reach h
  have hp := hi.places
  have hc := (hi.cover fd).2 hf
  simp only [List.nodup_append, List.mem_append] at hp hc
  obtain ⟨⟨p1, p2, p3⟩, p4, p5⟩ := hp
  rcases hc with (hc | hc) | hc
  · exact Or.inl ⟨hc, fun e => p3 fd hc fd e rfl, fun e => p5 fd (Or.inl hc) fd e rfl⟩
  · exact Or.inr (Or.inl ⟨List.count_eq_one_of_mem p2 hc, fun e => p3 fd e fd hc rfl,
      fun e => p5 fd (Or.inr hc) fd e rfl⟩)
  · exact Or.inr (Or.inr ⟨hc, fun e => p5 fd (Or.inl e) fd hc rfl, fun e => p5 fd (Or.inr e) fd hc rfl⟩)

/-- What is closed was reported as failed or cancelled. -/
theorem closed_reach {s : St} (h : Reach s) : ∀ fd ∈ s.closed, .failed fd ∈ s.reports ∨ fd ∈ s.cancelled := by
  induction h with
  | init => simp [init]
  | @step s s' l _ hs ih =>
    cases l with
    | dial fd r =>
      simp only [step] at hs
      split at hs
      · simp at hs
      · simp only [Option.some.injEq] at hs; subst hs
        cases r with
        | connected => intro k hk; rcases ih k hk with h | h <;> simp [dial, h]
        | failed =>
          intro k hk
          simp only [dial, List.mem_cons] at hk
          rcases hk with rfl | hk
          · simp [dial]
          · rcases ih k hk with h | h <;> simp [dial, h]
        | pending => intro k hk; rcases ih k hk with h | h <;> simp [dial, h]
    | event fd o =>
      simp only [step, Option.some.injEq] at hs; subst hs
      intro k hk
      unfold event handleEvent at hk ⊢
      split at hk
      · rename_i hc
        rw [if_pos hc]
        unfold handleWrite at hk ⊢
        split at hk
        · rename_i hm; rw [if_pos hm]
          split at hk
          · rename_i hu; rw [if_pos hu]; rcases ih k hk with h | h <;> simp [h]
          · rename_i hu; rw [if_neg hu]; rcases ih k hk with h | h <;> simp [h]
        · rename_i hm; rw [if_neg hm]; exact ih k hk
      · rename_i hc
        rw [if_neg hc]
        unfold removeInprogress at hk ⊢
        split at hk
        · rename_i hm; rw [if_pos hm]
          simp only [List.mem_cons] at hk
          rcases hk with rfl | hk
          · simp
          · rcases ih k hk with h | h <;> simp [h]
        · rename_i hm; rw [if_neg hm]; exact ih k hk
    | stop =>
      simp only [step, Option.some.injEq] at hs; subst hs
      intro k hk
      simp only [stop, List.mem_append] at hk
      rcases hk with hk | hk
      · simp [stop, hk]
      · rcases ih k hk with h | h <;> simp [stop, h]

/-- **C52 (sockets that are handed over or still in use are left alone; cancelled ones are closed).**
In every history the connector has closed no socket that it reported as connected and none whose dial
is in progress; a dial that ends at once with an error, or by an error event, and every dial in
progress at `Stop`, has its socket closed. -/
theorem c52_sockets {s : St} (h : Reach s) :
    (∀ fd, .connected fd ∈ s.reports → fd ∉ s.closed) ∧ (∀ fd ∈ s.inprog, fd ∉ s.closed) ∧
    (∀ fd, fd ∈ (dial s fd .failed).closed) ∧ (∀ fd ∈ s.inprog, fd ∈ (removeInprogress s fd).closed) ∧
    (∀ fd ∈ s.inprog, fd ∈ (stop s).closed) := by
  have hi := inv_reach h
  have hp := hi.places
  simp only [List.nodup_append, List.mem_append] at hp
  obtain ⟨⟨p1, p2, p3⟩, p4, p5⟩ := hp
  have hf : ∀ {fd}, Report.failed fd ∈ s.reports → fd ∈ s.reports.map Report.fd :=
    fun hr => List.mem_map.2 ⟨_, hr, rfl⟩
  refine ⟨fun fd hr hc => ?_, fun fd hr hc => ?_, fun fd => by simp [dial], fun fd hm => by simp [removeInprogress, hm],
    fun fd hm => by simp [stop, hm]⟩
  · rcases closed_reach h fd hc with h1 | h1
    · have : Report.connected fd = Report.failed fd :=
        List.inj_on_of_nodup_map p2 hr h1 rfl
      simp at this
    · exact p5 fd (Or.inr (List.mem_map.2 ⟨_, hr, rfl⟩)) fd h1 rfl
  · rcases closed_reach h fd hc with h1 | h1
    · exact p3 fd hr fd (hf h1) rfl
    · exact p5 fd (Or.inl hr) fd h1 rfl

/-- **C52 (immediate connects and refusals are reported as what they are).** -/
theorem c52_report_partial (s : St) (fd : Nat) :
    (dial s fd .connected).reports = .connected fd :: s.reports ∧
    (dial s fd .failed).reports = .failed fd :: s.reports ∧
    (fd ∈ s.inprog → (event s fd .refused).reports = .failed fd :: s.reports) := by
  refine ⟨rfl, rfl, fun hm => ?_⟩
  simp [event, handleEvent, toLt, polled, asked, pollState, handleWrite, isUp, hm]

/-- **C52 violated: a connection that is established is reported as failed and closed.**  Whenever
`connect` has to wait, the completion event is "writable", which is taken for an error. -/
theorem c52_violation_established (s : St) (fd : Nat) (hm : fd ∈ s.inprog) (data : Bool) :
    (event s fd (.established false data)).reports = .failed fd :: s.reports ∧
    (event s fd (.established false data)).closed = fd :: s.closed ∧
    (event s fd (.established false data)).inprog = s.inprog.erase fd := by
  cases data <;>
  simp [event, handleEvent, toLt, polled, asked, pollState, removeInprogress, hm]

/-- **C52 violated: only connections that the peer has already closed are reported as connected.** -/
theorem c52_violation_inverted (s : St) (fd : Nat) (hm : fd ∈ s.inprog) (o : Outcome) :
    (event s fd o).reports = .connected fd :: s.reports ↔ ∃ data, o = .established true data := by
  cases o with
  | refused => simp [event, handleEvent, toLt, polled, asked, pollState, handleWrite, isUp, hm]
  | established closed data =>
    cases closed <;> cases data <;>
    simp [event, handleEvent, toLt, polled, asked, pollState, handleWrite, removeInprogress, isUp, hm]

/-- **C52 violated: the socket of a refused dial is never closed** (and nobody else knows it). -/
theorem c52_violation_leak {s : St} (h : Reach s) (fd : Nat) (hm : fd ∈ s.inprog)
    (hc : fd ∉ s.closed) : (event s fd .refused).reports = .failed fd :: s.reports ∧
      fd ∈ (event s fd .refused).opened ∧ fd ∉ (event s fd .refused).closed ∧
      fd ∉ (event s fd .refused).inprog := by
  have hi := inv_reach h
  have hnd : s.inprog.Nodup := by
    have := hi.places
    simp only [List.nodup_append] at this; exact this.1.1
  have ho : fd ∈ s.opened := (hi.cover fd).1 (by simp [hm])
  have e : event s fd .refused = { s with inprog := s.inprog.erase fd, reports := .failed fd :: s.reports } := by
    simp [event, handleEvent, toLt, polled, asked, pollState, handleWrite, isUp, hm]
  rw [e]
  exact ⟨rfl, ho, hc, List.Nodup.not_mem_erase hnd⟩

/-- **C52 violated: the number of dials in progress is misreported.**  It is not updated when a dial
starts, nor when it ends by the path above. -/
theorem c52_violation_count (s : St) (fd : Nat) (hm : fd ∈ s.inprog) (data : Bool) :
    (dial s fd .pending).count = s.count ∧ (dial s fd .pending).inprog.length = s.inprog.length + 1 ∧
    (event s fd .refused).count = s.count ∧ (event s fd .refused).inprog.length = s.inprog.length - 1 ∧
    (event s fd (.established true data)).count = s.count := by
  have hl := List.length_erase_of_mem hm
  cases data <;>
  simp [dial, event, handleEvent, toLt, polled, asked, pollState, handleWrite, isUp, hm, hl]

/-- **C52 (count).** The number of dials in progress is reported correctly by a new connector, after a dial that ends
through the error path, and after `Stop`. -/
theorem c52_count_partial (s : St) (fd : Nat) (hm : fd ∈ s.inprog) (data : Bool) :
    init.count = init.inprog.length ∧ (stop s).count = (stop s).inprog.length ∧
    (removeInprogress s fd).count = (removeInprogress s fd).inprog.length ∧
    (event s fd (.established false data)).count = (event s fd (.established false data)).inprog.length := by
  refine ⟨rfl, rfl, ?_, ?_⟩
  · simp [removeInprogress, hm]
  · cases data <;> simp [event, handleEvent, toLt, polled, asked, pollState, removeInprogress, hm]

/-- **C52 (events).** Watched for writability, a dial in progress is told to write whatever its end, and to read exactly if
the peer has closed again or refused. -/
theorem c52_told (o : Outcome) : toLt (polled ⟨false, true⟩ o) =
    ⟨(match o with | .established closed _ => closed | .refused => true), true⟩ := by
  cases o with
  | refused => rfl
  | established c d => cases c <;> cases d <;> rfl

/-- A dial that connects at once, one that is refused, one that is established late. -/
theorem c52_witness :
    (runLabs init [.dial 3 .connected, .dial 4 .pending, .dial 5 .pending, .event 4 .refused,
      .event 5 (.established false true)]).map (fun s => (s.reports, s.closed, s.inprog, s.opened)) =
      some ([.failed 5, .failed 4, .connected 3], [5], [], [5, 4, 3]) := by decide +kernel

end Ltio.Connector
