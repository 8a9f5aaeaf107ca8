import Verif.Client.Queued
import Mathlib.Data.List.Forall2
import Mathlib.Data.List.Induction
import Mathlib.Tactic.ByContra
/-
A client's `QueuedChannel` (net_io/clients/queued_channel.cc) at one end of a connection: the requests it puts on the wire
are what the client's codec sends, what that codec hands on is what the channel is told of, and when the channel gives up
the connection nothing is read from it any more.  Used for HTTP and HTTPS (Http/Rpc.lean).

The codec is one whose `SendRequest` always succeeds (http_codec_service.cc:130-147: `RequestToBuffer` returns true at its
end, 89-128).  `TrySendNext` is taken with the pointer copied before the pop (C22).
-/
namespace Ltio.Client.Ordered
open Ltio.Client

/-- A connection between a client (`false`) and a server (`true`): what each has sent and been handed on so far. -/
structure Link (P O M E S : Type) where
  init : P
  step : P → O → Option P
  sent : P → Bool → List M
  got : P → Bool → List E
  /-- the client's end has seen an error -/
  broken : P → Bool
  /-- the message an operation sends, and the end that does -/
  sends : O → Option (Bool × M)
  /-- is it a read event at the client's end? -/
  reads : O → Bool
  /-- the client's codec is given a message to send -/
  ask : M → S → O

variable {P O M E S : Type}

def Link.run (L : Link P O M E S) (p : P) : List O → Option P
  | [] => some p
  | o :: t => (L.step p o).bind (fun p' => L.run p' t)

/-- What is known of a connection: messages are appended to what was sent and got, nothing happens at an end after an error, and
what an end is handed on is what the other sent, in that order, up to some point. -/
structure Link.Lawful (L : Link P O M E S) (ok : Bool → M → Prop) (Arr : M → E → Prop) : Prop where
  sends_ask : ∀ m s, L.sends (L.ask m s) = some (false, m)
  reads_ask : ∀ m s, L.reads (L.ask m s) = false
  reads_sends : ∀ o, L.reads o = true → L.sends o = none
  step_sent : ∀ p o p', L.step p o = some p' → ∀ i, L.sent p' i = L.sent p i ∨ ∃ m, L.sends o = some (i, m) ∧ L.sent p' i = L.sent p i ++ [m]
  step_ask : ∀ p m s p', L.step p (L.ask m s) = some p' → L.broken p = false → L.sent p' false = L.sent p false ++ [m]
  step_got : ∀ p o p', L.step p o = some p' → ∀ i, L.got p i <+: L.got p' i
  step_quiet : ∀ p o p', L.step p o = some p' → L.reads o = false → L.got p' false = L.got p false
  step_broken : ∀ p o p', L.step p o = some p' → L.broken p = true →
    L.broken p' = true ∧ L.sent p' false = L.sent p false ∧ L.got p' false = L.got p false
  init_sent : ∀ i, L.sent L.init i = []
  init_got : ∀ i, L.got L.init i = []
  runs : ∀ ops, (∀ o ∈ ops, ∀ i m, L.sends o = some (i, m) → ok i m) → ∃ p, L.run L.init ops = some p ∧
    ∀ i, ∃ ms, ms <+: L.sent p (!i) ∧ List.Forall₂ Arr ms (L.got p i)

/-! ### The client -/

structure St (P : Type) where
  link : P
  chan : Queued.St
  /-- the channel still has its connection -/
  up : Bool

inductive Op (O S : Type) where
  /-- anything but the client's sends and reads: the server, the network, write events -/
  | link (o : O)
  /-- the user gives the channel a request (`SendRequest`, queued_channel.cc:42-49) -/
  | submit (r : Nat) (s : Nat → S)
  /-- the heartbeat timer (client_channel.cc:99-108) -/
  | heartbeat (r : Nat) (s : Nat → S)
  /-- the timer of a request fires (queued_channel.cc:95-115) -/
  | timeout (r : Nat) (alive : Bool)
  /-- a read event (codec_service.cc:129-143) -/
  | read (o : O) (s : Nat → S)
  /-- an error event, or the connection was found broken (codec_service.cc:138-142) -/
  | gone
  /-- the user closes the channel (client_channel.cc:53-77) -/
  | shutdown

section
variable (L : Link P O M E S) (req : Nat → M)

/-- `codec_->SendRequest` for the requests put on the wire (queued_channel.cc:60). -/
def sendAll (s : Nat → S) (p : P) : List Nat → Option P
  | [] => some p
  | r :: t => (L.step p (L.ask (req r) (s r))).bind (fun p' => sendAll s p' t)

/-- What the channel does on an event, and what it thereby sends; without connection that stays in the buffer of the closed channel. -/
def feed (st : St P) (s : Nat → S) (e : Queued.Ev) : Option (St P) :=
  (Queued.step true st.chan e).bind (fun c =>
    if st.up = true then
      (sendAll L req s st.link ((wireList c.base.acts).drop (wireList st.chan.base.acts).length)).map (fun p => ⟨p, c, st.up⟩)
    else some ⟨st.link, c, st.up⟩)

/-- `OnCodecMessage` for the messages number `n`, `n + 1`, … handed on (queued_channel.cc:117-130). -/
def tell (s : Nat → S) (n : Nat) : Nat → St P → Option (St P)
  | 0, st => some st
  | c + 1, st => (feed L req st s (.message n (fun _ => true))).bind (tell s (n + 1) c)

/-- What the channel does on an event on which it sends nothing, and it has no connection afterwards. -/
def lose (st : St P) (e : Queued.Ev) : Option (St P) := (Queued.step true st.chan e).map (fun c => ⟨st.link, c, false⟩)

/-- A read event: the codec reads and hands on, the channel is told of each message, and of the end if reading failed. -/
def readEv (st : St P) (o : O) (s : Nat → S) : Option (St P) :=
  (L.step st.link o).bind (fun p =>
    (tell L req s (L.got st.link false).length ((L.got p false).length - (L.got st.link false).length) ⟨p, st.chan, st.up⟩).bind (fun st' =>
      if L.broken p = true then lose st' .codecClosed else some st'))

/-- Is this one of the client's own sends or reads? -/
def own (o : O) : Bool := L.reads o || match L.sends o with | some (false, _) => true | _ => false

def step (st : St P) : Op O S → Option (St P)
  | .link o => if own L o = true then some st else (L.step st.link o).map (fun p => ⟨p, st.chan, st.up⟩)
  | .submit r s => feed L req st s (.send r (fun _ => true))
  | .heartbeat r s => feed L req st s (.heartbeat r (fun _ => true))
  | .timeout r alive =>
    -- a time-out of the request in flight closes the connection (queued_channel.cc:110-114); others do nothing (100-102)
    if st.chan.ing = some r then lose st (.timeout r alive) else some st
  | .read o s => if L.reads o = true ∧ st.up = true then readEv L req st o s else some st
  | .gone => if st.up = true then lose st .codecClosed else some st
  | .shutdown => lose st .shutdown

def run (st : St P) : List (Op O S) → Option (St P)
  | [] => some st
  | o :: t => (step L req st o).bind (fun st' => run st' t)

def init : St P := ⟨L.init, Queued.init, true⟩
end

/-! ### Specification -/

/-- The requests that got a response, in order, and the number of the message they got. -/
def respList (l : List Act) : List (Nat × Nat) :=
  l.filterMap (fun a => match a with | .done r (.response j) _ => some (r, j) | _ => none)

/-- What the server sends are messages that can be sent. -/
def OkOps (L : Link P O M E S) (ok : Bool → M → Prop) (ops : List (Op O S)) : Prop :=
  ∀ o, .link o ∈ ops → ∀ m, L.sends o = some (true, m) → ok true m

/-- The server answers in order: whenever it sends `m`, it has been handed on more requests than it has answered, and `m` is an answer to the
first of those it has not answered. -/
def InOrder (L : Link P O M E S) (req : Nat → M) (Ans : M → E → Prop) (ops : List (Op O S)) : Prop :=
  ∀ pre o post m, ops = pre ++ .link o :: post → L.sends o = some (true, m) → ∀ st, run L req (init L) pre = some st →
    ∃ q, (L.got st.link true)[(L.sent st.link true).length]? = some q ∧ Ans m q

/-! ### The channel -/

theorem respList_append (a b : List Act) : respList (a ++ b) = respList a ++ respList b := by
  unfold respList; exact List.filterMap_append

/-- What an event does to what is on the wire and answered. -/
structure Eff (c c' : Queued.St) (rs : List (Nat × Nat)) (free : Bool) : Prop where
  resp : respList c'.base.acts = respList c.base.acts ++ rs
  wire : (wireList c'.base.acts = wireList c.base.acts ∧ (c'.ing = none ∨ c'.ing = c.ing ∧ rs = [])) ∨
    ∃ h, wireList c'.base.acts = wireList c.base.acts ++ [h] ∧ c'.ing = some h ∧ free = true

theorem handle_wire (b : Base) (r : Nat) (o : Outcome) : wireList (b.handle r o).acts = wireList b.acts := by
  obtain ⟨v, h1, -⟩ := handle_acts b r o
  rw [h1, wireList_append]; simp [wireList]

theorem handle_resp (b : Base) (r : Nat) (o : Outcome) :
    respList (b.handle r o).acts = respList b.acts ++ (match o with | .response j => [(r, j)] | _ => []) := by
  obtain ⟨v, h1, -⟩ := handle_acts b r o
  rw [h1, respList_append]
  cases o <;> simp [respList]

theorem failAll_wire (q : List Nat) (b : Base) : wireList (b.failAll q).acts = wireList b.acts := by
  induction q generalizing b with
  | nil => rfl
  | cons r t ih => exact (ih _).trans (handle_wire _ _ _)

theorem failAll_resp (q : List Nat) (b : Base) : respList (b.failAll q).acts = respList b.acts := by
  induction q generalizing b with
  | nil => rfl
  | cons r t ih => exact (ih _).trans (by rw [handle_resp]; simp)

theorem closed_wire (b : Base) : wireList b.notifyClosed.acts = wireList b.acts := by
  unfold Base.notifyClosed
  split
  · show wireList (b.acts ++ [.closed]) = _
    rw [wireList_append]; simp [wireList]
  · rfl

theorem closed_resp (b : Base) : respList b.notifyClosed.acts = respList b.acts := by
  unfold Base.notifyClosed
  split
  · show respList (b.acts ++ [.closed]) = _
    rw [respList_append]; simp [respList]
  · rfl

theorem submit_lists (b : Base) (r : Nat) (h : Bool) : wireList (b.submit r h).acts = wireList b.acts ∧ respList (b.submit r h).acts = respList b.acts := by
  show wireList (b.acts ++ [.submit r h]) = _ ∧ respList (b.acts ++ [.submit r h]) = _
  rw [wireList_append, respList_append]; simp [wireList, respList]

/-- Sending the next request, if none is in flight. -/
theorem next_eff (c : Queued.St) : ∃ c', Queued.trySendNext true (fun _ => true) c = some c' ∧ respList c'.base.acts = respList c.base.acts ∧
    ((wireList c'.base.acts = wireList c.base.acts ∧ c'.ing = c.ing) ∨
      ∃ h, wireList c'.base.acts = wireList c.base.acts ++ [h] ∧ c'.ing = some h ∧ c.ing = none) := by
  unfold Queued.trySendNext
  by_cases hi : c.ing.isSome = true
  · rw [if_pos hi]; exact ⟨c, rfl, rfl, Or.inl ⟨rfl, rfl⟩⟩
  · rw [if_neg hi]
    have hn : c.ing = none := by simpa using hi
    cases hw : c.waiting with
    | nil => exact ⟨⟨c.base, none, []⟩, rfl, rfl, Or.inl ⟨rfl, hn.symm⟩⟩
    | cons r t =>
      refine ⟨⟨c.base.wire r, some r, t⟩, by simp [Queued.trySend], ?_, Or.inr ⟨r, ?_, rfl, hn⟩⟩
      · show respList (c.base.acts ++ [.wire r]) = _
        rw [respList_append]; simp [respList]
      · show wireList (c.base.acts ++ [.wire r]) = _
        rw [wireList_append]; simp [wireList]

theorem send_eff (c : Queued.St) (r : Nat) : ∃ c', Queued.step true c (.send r (fun _ => true)) = some c' ∧ Eff c c' [] (decide (c.ing = none)) := by
  obtain ⟨c', h1, h2, h3⟩ := next_eff ⟨c.base.submit r false, c.ing, c.waiting ++ [r]⟩
  obtain ⟨s1, s2⟩ := submit_lists c.base r false
  refine ⟨c', h1, ⟨by rw [List.append_nil, ← s2]; exact h2, ?_⟩⟩
  rcases h3 with ⟨h3, h4⟩ | ⟨x, h3, h4, h5⟩
  · exact Or.inl ⟨h3.trans s1, Or.inr ⟨h4, rfl⟩⟩
  · exact Or.inr ⟨x, by rw [← s1]; exact h3, h4, decide_eq_true h5⟩

theorem heartbeat_eff (c : Queued.St) (r : Nat) : ∃ c', Queued.step true c (.heartbeat r (fun _ => true)) = some c' ∧
    Eff c c' [] (decide (c.ing = none)) := by
  by_cases hb : c.base.hb.isSome = true
  · exact ⟨c, by simp only [Queued.step]; rw [if_pos hb], ⟨by simp, Or.inl ⟨rfl, Or.inr ⟨rfl, rfl⟩⟩⟩⟩
  · obtain ⟨c', h1, h2, h3⟩ := next_eff ⟨({ c.base with hb := some r } : Base).submit r true, c.ing, c.waiting ++ [r]⟩
    obtain ⟨s1, s2⟩ := submit_lists ({ c.base with hb := some r } : Base) r true
    refine ⟨c', by simp only [Queued.step]; rw [if_neg hb]; exact h1, ⟨by rw [List.append_nil]; exact h2.trans s2, ?_⟩⟩
    rcases h3 with ⟨h3, h4⟩ | ⟨x, h3, h4, h5⟩
    · exact Or.inl ⟨h3.trans s1, Or.inr ⟨h4, rfl⟩⟩
    · refine Or.inr ⟨x, h3.trans ?_, h4, decide_eq_true h5⟩
      congr 1

theorem message_eff (c : Queued.St) (j r : Nat) (h : c.ing = some r) : ∃ c', Queued.step true c (.message j (fun _ => true)) = some c' ∧
    Eff c c' [(r, j)] true := by
  obtain ⟨c', h1, h2, h3⟩ := next_eff ⟨c.base.handle r (.response j), none, c.waiting⟩
  refine ⟨c', by simp only [Queued.step, h]; exact h1, ⟨h2.trans (handle_resp _ _ _), ?_⟩⟩
  rcases h3 with ⟨h3, h4⟩ | ⟨x, h3, h4, h5⟩
  · exact Or.inl ⟨h3.trans (handle_wire _ _ _), Or.inl h4⟩
  · exact Or.inr ⟨x, h3.trans (by rw [handle_wire]), h4, rfl⟩

theorem closed_eff (c : Queued.St) : ∃ c', Queued.step true c .codecClosed = some c' ∧ respList c'.base.acts = respList c.base.acts ∧
    wireList c'.base.acts = wireList c.base.acts ∧ c'.ing = none :=
  ⟨_, rfl, (closed_resp _).trans (failAll_resp _ _), (closed_wire _).trans (failAll_wire _ _), rfl⟩

theorem shutdown_eff (c : Queued.St) : ∃ c', Queued.step true c .shutdown = some c' ∧ respList c'.base.acts = respList c.base.acts ∧
    wireList c'.base.acts = wireList c.base.acts ∧ c'.ing = none :=
  ⟨_, rfl, failAll_resp _ _, failAll_wire _ _, rfl⟩

theorem timeout_eff (c : Queued.St) (r : Nat) (a : Bool) : ∃ c', Queued.step true c (.timeout r a) = some c' ∧
    respList c'.base.acts = respList c.base.acts ∧ wireList c'.base.acts = wireList c.base.acts ∧ (c'.ing = none ∨ c'.ing = c.ing) := by
  simp only [Queued.step]
  split
  · exact ⟨c, rfl, rfl, rfl, Or.inr rfl⟩
  · split
    · exact ⟨c, rfl, rfl, rfl, Or.inr rfl⟩
    · split
      · refine ⟨_, rfl, ?_, ?_, Or.inl rfl⟩
        · exact ((closed_resp _).trans (failAll_resp _ _)).trans (by rw [handle_resp]; simp)
        · exact ((closed_wire _).trans (failAll_wire _ _)).trans (handle_wire _ _ _)
      · exact ⟨c, rfl, rfl, rfl, Or.inr rfl⟩

/-! ### The invariant -/

/-- What is so whatever the channel's connection is like. -/
structure Core (L : Link P O M E S) (ok : Bool → M → Prop) (Ans : M → E → Prop) (p : P) : Prop where
  hist : ∃ ops, (∀ o ∈ ops, ∀ i m, L.sends o = some (i, m) → ok i m) ∧ L.run L.init ops = some p
  less : (L.sent p true).length ≤ (L.got p true).length
  ans : ∀ (i : Nat) m q, (L.sent p true)[i]? = some m → (L.got p true)[i]? = some q → Ans m q

structure Inv (L : Link P O M E S) (req : Nat → M) (ok : Bool → M → Prop) (Ans : M → E → Prop) (st : St P) : Prop where
  core : Core L ok Ans st.link
  pre : L.sent st.link false <+: (wireList st.chan.base.acts).map req
  told : (L.got st.link false).length ≤ (wireList st.chan.base.acts).length
  resp : respList st.chan.base.acts = ((wireList st.chan.base.acts).take (L.got st.link false).length).zipIdx
  sync : st.up = true → L.broken st.link = false → L.sent st.link false = (wireList st.chan.base.acts).map req ∧
    wireList st.chan.base.acts = (wireList st.chan.base.acts).take (L.got st.link false).length ++ st.chan.ing.toList

theorem run_snoc (L : Link P O M E S) {p q : P} {ops : List O} {o : O} (h : L.run p ops = some q) : L.run p (ops ++ [o]) = L.step q o := by
  induction ops generalizing p with
  | nil => simp only [Link.run, Option.some.injEq] at h; subst h; simp [Link.run]
  | cons x t ih =>
    rw [List.cons_append]
    simp only [Link.run] at h ⊢
    cases hx : L.step p x with
    | none => rw [hx] at h; simp at h
    | some p1 => rw [hx, Option.bind_some] at h; rw [Option.bind_some]; exact ih h

section
variable {L : Link P O M E S} {req : Nat → M} {ok : Bool → M → Prop} {Arr : M → E → Prop} {Ans : M → E → Prop}

/-- No step is undefined. -/
theorem Core.steps (hL : L.Lawful ok Arr) {p : P} (h : Core L ok Ans p) (o : O) (ho : ∀ i m, L.sends o = some (i, m) → ok i m) :
    ∃ p', L.step p o = some p' ∧ ∃ ops, (∀ o ∈ ops, ∀ i m, L.sends o = some (i, m) → ok i m) ∧ L.run L.init ops = some p' := by
  obtain ⟨ops, h1, h2⟩ := h.hist
  have h3 : ∀ x ∈ ops ++ [o], ∀ i m, L.sends x = some (i, m) → ok i m := by
    intro x hx
    rcases List.mem_append.1 hx with hx | hx
    · exact h1 x hx
    · rw [List.mem_singleton.1 hx]; exact ho
  obtain ⟨p', h4, -⟩ := hL.runs _ h3
  have h5 := h4
  rw [run_snoc L h2] at h5
  exact ⟨p', h5, _, h3, h4⟩

/-- A step in which the server does not send. -/
theorem Core.step (hL : L.Lawful ok Arr) {p : P} (h : Core L ok Ans p) (o : O) (ho : ∀ i m, L.sends o = some (i, m) → ok i m)
    (hs : ∀ m, L.sends o = some (true, m) → ∃ q, (L.got p true)[(L.sent p true).length]? = some q ∧ Ans m q) :
    ∃ p', L.step p o = some p' ∧ Core L ok Ans p' := by
  obtain ⟨p', h1, h2⟩ := h.steps hL o ho
  obtain ⟨x, hx⟩ := hL.step_got p o p' h1 true
  refine ⟨p', h1, ?_⟩
  suffices hh : (L.sent p' true).length ≤ (L.got p' true).length ∧
      ∀ (i : Nat) m q, (L.sent p' true)[i]? = some m → (L.got p' true)[i]? = some q → Ans m q from ⟨h2, hh.1, hh.2⟩
  rcases hL.step_sent p o p' h1 true with e | ⟨m, em, e⟩
  · have hl : (L.sent p' true).length ≤ (L.got p' true).length := by
      rw [e, ← hx, List.length_append]; have := h.less; omega
    refine ⟨hl, ?_⟩
    intro i m q hm hq
    rw [e] at hm
    have hi : i < (L.sent p true).length := (List.getElem?_eq_some_iff.1 hm).1
    rw [← hx, List.getElem?_append_left (by have := h.less; omega)] at hq
    exact h.ans i m q hm hq
  · obtain ⟨q0, hq0, ha⟩ := hs m em
    have hlt : (L.sent p true).length < (L.got p true).length := (List.getElem?_eq_some_iff.1 hq0).1
    constructor
    · rw [e, ← hx]; simp only [List.length_append, List.length_singleton]; omega
    · intro i m' q hm hq
      rw [e] at hm
      have hi := (List.getElem?_eq_some_iff.1 hm).1
      rw [List.length_append, List.length_singleton] at hi
      rw [← hx, List.getElem?_append_left (by omega)] at hq
      by_cases hi2 : i < (L.sent p true).length
      · rw [List.getElem?_append_left hi2] at hm
        exact h.ans i m' q hm hq
      · have : i = (L.sent p true).length := by omega
        subst this
        rw [List.getElem?_append_right (Nat.le_refl _), Nat.sub_self] at hm
        simp only [List.getElem?_cons_zero, Option.some.injEq] at hm
        rw [hq0] at hq
        simp only [Option.some.injEq] at hq
        rw [← hm, ← hq]; exact ha

/-- The client has been handed on no more than it has sent. -/
theorem Core.counts (hL : L.Lawful ok Arr) {p : P} (h : Core L ok Ans p) : (L.got p false).length ≤ (L.sent p false).length := by
  obtain ⟨ops, h1, h2⟩ := h.hist
  obtain ⟨p', h3, h4⟩ := hL.runs ops h1
  rw [h2] at h3
  simp only [Option.some.injEq] at h3
  subst h3
  obtain ⟨a, a1, a2⟩ := h4 false
  obtain ⟨b, b1, b2⟩ := h4 true
  have e1 := a1.length_le
  have e2 := a2.length_eq
  have e3 := b1.length_le
  have e4 := b2.length_eq
  have e5 := h.less
  simp only [Bool.not_false, Bool.not_true] at e1 e3
  omega

/-- The channel's event, with one more request on the wire or none, when it gets none of its answers. -/
theorem feed_inv (hL : L.Lawful ok Arr) (hreq : ∀ r, ok false (req r)) {st : St P} {p : P} (s : Nat → S) {e : Queued.Ev} {c' : Queued.St} {rs : List (Nat × Nat)}
    {free : Bool} (hc : Core L ok Ans p) (he : Queued.step true st.chan e = some c') (hE : Eff st.chan c' rs free)
    (hp : L.sent p false <+: (wireList st.chan.base.acts).map req)
    (ht : (L.got p false).length ≤ (wireList st.chan.base.acts).length)
    (hr : respList st.chan.base.acts ++ rs = ((wireList st.chan.base.acts).take (L.got p false).length).zipIdx)
    (hs : st.up = true → L.broken p = false → L.sent p false = (wireList st.chan.base.acts).map req ∧
      (c'.ing = none → (wireList st.chan.base.acts).length ≤ (L.got p false).length) ∧
      (free = true → (wireList st.chan.base.acts).length ≤ (L.got p false).length) ∧
      (c'.ing = st.chan.ing → rs = [] → wireList st.chan.base.acts = (wireList st.chan.base.acts).take (L.got p false).length ++ st.chan.ing.toList)) :
    ∃ st', feed L req ⟨p, st.chan, st.up⟩ s e = some st' ∧ st'.up = st.up ∧ Inv L req ok Ans st' ∧ L.got st'.link false = L.got p false := by
  rcases hE.wire with ⟨w1, w2⟩ | ⟨h, w1, w2, w3⟩
  · refine ⟨⟨p, c', st.up⟩, ?_, rfl, ⟨hc, ?_, ?_, ?_, ?_⟩, rfl⟩
    · unfold feed
      rw [he, Option.bind_some, w1, List.drop_length]
      simp [sendAll]
    · rw [w1]; exact hp
    · rw [w1]; exact ht
    · rw [w1, hE.resp]; exact hr
    · intro hu hb
      obtain ⟨s1, s2, s3, s4⟩ := hs hu hb
      show _ = (wireList c'.base.acts).map req ∧ wireList c'.base.acts = _
      rw [w1]
      refine ⟨s1, ?_⟩
      rcases w2 with w2 | ⟨w2, w2'⟩
      · rw [w2, Option.toList_none, List.append_nil]
        exact (List.take_of_length_le (s2 w2)).symm
      · rw [w2]; exact s4 w2 w2'
  · have hask : ∀ i m, L.sends (L.ask (req h) (s h)) = some (i, m) → ok i m := by
      intro i m hh
      rw [hL.sends_ask] at hh
      simp only [Option.some.injEq, Prod.mk.injEq] at hh
      rw [← hh.1, ← hh.2]; exact hreq h
    obtain ⟨p1, a1, a2⟩ := hc.step hL (L.ask (req h) (s h)) hask (by intro m hm; rw [hL.sends_ask] at hm; simp at hm)
    have hgot : L.got p1 false = L.got p false := hL.step_quiet p _ p1 a1 (hL.reads_ask _ _)
    have htake : (wireList st.chan.base.acts ++ [h]).take (L.got p false).length = (wireList st.chan.base.acts).take (L.got p false).length := by
      rw [List.take_append_of_le_length ht]
    by_cases hu : st.up = true
    · refine ⟨⟨p1, c', st.up⟩, ?_, rfl, ⟨a2, ?_, ?_, ?_, ?_⟩, hgot⟩
      · unfold feed
        rw [he, Option.bind_some, w1]
        simp only [hu, if_true, List.drop_left, sendAll, a1, Option.bind_some, Option.map_some]
      · show L.sent p1 false <+: (wireList c'.base.acts).map req
        rw [w1, List.map_append]
        by_cases hb : L.broken p = true
        · rw [(hL.step_broken p _ p1 a1 hb).2.1]
          exact hp.trans (List.prefix_append _ _)
        · rw [hL.step_ask p _ _ p1 a1 (by simpa using hb), (hs hu (by simpa using hb)).1]
          exact List.prefix_refl _
      · show (L.got p1 false).length ≤ (wireList c'.base.acts).length
        rw [w1, hgot, List.length_append]; omega
      · show respList c'.base.acts = _
        rw [hE.resp, hr, hgot, w1, htake]
      · intro _ hb1
        have hb1 : L.broken p1 = false := hb1
        have hb : L.broken p = false := by
          by_cases hb : L.broken p = true
          · rw [(hL.step_broken p _ p1 a1 hb).1] at hb1; simp at hb1
          · simpa using hb
        obtain ⟨s1, s2, s3, s4⟩ := hs hu hb
        show L.sent p1 false = (wireList c'.base.acts).map req ∧ wireList c'.base.acts = (wireList c'.base.acts).take (L.got p1 false).length ++ c'.ing.toList
        rw [w1, hgot, htake, w2, hL.step_ask p _ _ p1 a1 hb, s1]
        refine ⟨by simp, ?_⟩
        rw [List.take_of_length_le (s3 w3)]
        rfl
    · refine ⟨⟨p, c', st.up⟩, ?_, rfl, ⟨hc, ?_, ?_, ?_, ?_⟩, rfl⟩
      · unfold feed
        rw [he, Option.bind_some]
        rw [if_neg (show ¬ (⟨p, st.chan, st.up⟩ : St P).up = true from hu)]
      · show L.sent p false <+: (wireList c'.base.acts).map req
        rw [w1, List.map_append]; exact hp.trans (List.prefix_append _ _)
      · show (L.got p false).length ≤ (wireList c'.base.acts).length
        rw [w1, List.length_append]; omega
      · show respList c'.base.acts = ((wireList c'.base.acts).take _).zipIdx
        rw [hE.resp, hr, w1, htake]
      · intro hu'; exact absurd hu' hu

theorem lose_inv {st : St P} (h : Inv L req ok Ans st) {e : Queued.Ev} {c' : Queued.St} (he : Queued.step true st.chan e = some c')
    (hr : respList c'.base.acts = respList st.chan.base.acts) (hw : wireList c'.base.acts = wireList st.chan.base.acts) :
    ∃ st', lose st e = some st' ∧ Inv L req ok Ans st' := by
  refine ⟨⟨st.link, c', false⟩, by unfold lose; rw [he]; rfl, ⟨h.core, ?_, ?_, ?_, ?_⟩⟩
  · rw [hw]; exact h.pre
  · rw [hw]; exact h.told
  · rw [hw, hr]; exact h.resp
  · intro hu; simp at hu

/-- The user's requests and heartbeats. -/
theorem ask_inv (hL : L.Lawful ok Arr) (hreq : ∀ r, ok false (req r)) {st : St P} (h : Inv L req ok Ans st) (s : Nat → S) {e : Queued.Ev} {c' : Queued.St}
    (he : Queued.step true st.chan e = some c') (hE : Eff st.chan c' [] (decide (st.chan.ing = none))) (hn : c'.ing = none → st.chan.ing = none) :
    ∃ st', feed L req st s e = some st' ∧ Inv L req ok Ans st' := by
  have hlen : st.up = true → L.broken st.link = false → st.chan.ing = none → (wireList st.chan.base.acts).length ≤ (L.got st.link false).length := by
    intro hu hb hi
    have := (h.sync hu hb).2
    rw [hi, Option.toList_none, List.append_nil] at this
    have h2 := congrArg List.length this
    rw [List.length_take] at h2
    omega
  obtain ⟨st', h1, -, h2, -⟩ := feed_inv (Ans := Ans) hL hreq (st := st) (p := st.link) s h.core he hE h.pre h.told (by rw [List.append_nil]; exact h.resp)
    (fun hu hb => ⟨(h.sync hu hb).1, fun hi => hlen hu hb (hn hi), fun hi => hlen hu hb (of_decide_eq_true hi), fun _ _ => (h.sync hu hb).2⟩)
  exact ⟨st', h1, h2⟩

/-- A read event. -/
theorem read_inv (hL : L.Lawful ok Arr) (hreq : ∀ r, ok false (req r)) {st : St P} (h : Inv L req ok Ans st) (o : O) (ho : L.reads o = true)
    (hu : st.up = true) (s : Nat → S) : ∃ st', readEv L req st o s = some st' ∧ Inv L req ok Ans st' := by
  have hns := hL.reads_sends o ho
  obtain ⟨p, h1, hc⟩ := h.core.step hL o (by intro i m hm; rw [hns] at hm; simp at hm) (by intro m hm; rw [hns] at hm; simp at hm)
  have hsent : L.sent p false = L.sent st.link false := by
    rcases hL.step_sent _ _ _ h1 false with e | ⟨m, em, -⟩
    · exact e
    · rw [hns] at em; simp at em
  obtain ⟨x, hx⟩ := hL.step_got _ _ _ h1 false
  have hcnt := hc.counts hL
  have hpl := h.pre.length_le
  rw [List.length_map] at hpl
  rw [hsent] at hcnt
  have hglen : (L.got p false).length = (L.got st.link false).length + x.length := by rw [← hx, List.length_append]
  -- at most one message
  suffices hh : ∃ st1, tell L req s (L.got st.link false).length ((L.got p false).length - (L.got st.link false).length) ⟨p, st.chan, st.up⟩ = some st1 ∧
      Inv L req ok Ans st1 by
    obtain ⟨st1, a1, a2⟩ := hh
    unfold readEv
    rw [h1, Option.bind_some, a1, Option.bind_some]
    by_cases hb : L.broken p = true
    · rw [if_pos hb]
      obtain ⟨c', b1, b2, b3, -⟩ := closed_eff st1.chan
      exact lose_inv a2 b1 b2 b3
    · rw [if_neg hb]; exact ⟨st1, rfl, a2⟩
  rw [hglen, Nat.add_sub_cancel_left]
  by_cases hb : L.broken st.link = true
  · have hg := (hL.step_broken _ _ _ h1 hb).2.2
    have hb' := (hL.step_broken _ _ _ h1 hb).1
    have hx0 : x.length = 0 := by rw [hg] at hglen; omega
    rw [hx0]
    refine ⟨⟨p, st.chan, st.up⟩, rfl, ⟨hc, ?_, ?_, ?_, ?_⟩⟩
    · show L.sent p false <+: _; rw [hsent]; exact h.pre
    · show (L.got p false).length ≤ _; rw [hg]; exact h.told
    · show _ = ((wireList st.chan.base.acts).take (L.got p false).length).zipIdx; rw [hg]; exact h.resp
    · intro _ hbf
      have hbf : L.broken p = false := hbf
      rw [hb'] at hbf; simp at hbf
  · have hb : L.broken st.link = false := by simpa using hb
    obtain ⟨s1, s2⟩ := h.sync hu hb
    have hwl := congrArg List.length s2
    rw [List.length_append, List.length_take] at hwl
    cases hi : st.chan.ing with
    | none =>
      rw [hi] at hwl s2
      simp only [Option.toList_none, List.length_nil] at hwl
      have hx0 : x.length = 0 := by omega
      have hg : L.got p false = L.got st.link false := by rw [← hx, List.length_eq_zero_iff.1 hx0, List.append_nil]
      rw [hx0]
      refine ⟨⟨p, st.chan, st.up⟩, rfl, ⟨hc, ?_, ?_, ?_, ?_⟩⟩
      · show L.sent p false <+: _; rw [hsent]; exact h.pre
      · show (L.got p false).length ≤ _; rw [hg]; exact h.told
      · show _ = ((wireList st.chan.base.acts).take (L.got p false).length).zipIdx; rw [hg]; exact h.resp
      · intro _ _
        show L.sent p false = _ ∧ _ = (wireList st.chan.base.acts).take (L.got p false).length ++ st.chan.ing.toList
        rw [hg, hsent, hi]; exact ⟨s1, s2⟩
    | some r =>
      rw [hi] at hwl s2
      simp only [Option.toList_some, List.length_singleton] at hwl s2
      have hx01 : x.length = 0 ∨ x.length = 1 := by omega
      rcases hx01 with hx0 | hx1
      · have hg : L.got p false = L.got st.link false := by rw [← hx, List.length_eq_zero_iff.1 hx0, List.append_nil]
        rw [hx0]
        refine ⟨⟨p, st.chan, st.up⟩, rfl, ⟨hc, ?_, ?_, ?_, ?_⟩⟩
        · show L.sent p false <+: _; rw [hsent]; exact h.pre
        · show (L.got p false).length ≤ _; rw [hg]; exact h.told
        · show _ = ((wireList st.chan.base.acts).take (L.got p false).length).zipIdx; rw [hg]; exact h.resp
        · intro _ _
          show L.sent p false = _ ∧ _ = (wireList st.chan.base.acts).take (L.got p false).length ++ st.chan.ing.toList
          rw [hg, hsent, hi]; exact ⟨s1, s2⟩
      · rw [hx1]
        obtain ⟨c', b1, b2⟩ := message_eff st.chan (L.got st.link false).length r hi
        have hfull : (wireList st.chan.base.acts).take (L.got p false).length = wireList st.chan.base.acts :=
          List.take_of_length_le (by omega)
        obtain ⟨st', d1, -, d2, -⟩ := feed_inv (Ans := Ans) hL hreq (st := st) (p := p) s hc b1 b2 (by rw [hsent]; exact h.pre) (by omega)
          (by
            rw [hfull, h.resp]
            conv_rhs => rw [s2]
            rw [List.zipIdx_append, List.length_take, Nat.min_eq_left h.told]
            simp)
          (fun _ _ => ⟨hsent.trans s1, fun _ => (by omega), fun _ => (by omega), fun _ h0 => (by simp at h0)⟩)
        refine ⟨st', ?_, d2⟩
        simp only [tell]
        rw [d1]; rfl

theorem step_inv (hL : L.Lawful ok Arr) (hreq : ∀ r, ok false (req r)) {st : St P} (h : Inv L req ok Ans st) (o : Op O S)
    (hs : ∀ x m, o = .link x → L.sends x = some (true, m) → ok true m ∧
      ∃ q, (L.got st.link true)[(L.sent st.link true).length]? = some q ∧ Ans m q) :
    ∃ st', step L req st o = some st' ∧ Inv L req ok Ans st' := by
  cases o with
  | link x =>
    simp only [step]
    by_cases hown : own L x = true
    · rw [if_pos hown]; exact ⟨st, rfl, h⟩
    · rw [if_neg hown]
      have hown' : L.reads x = false ∧ ∀ m, L.sends x ≠ some (false, m) := by
        unfold own at hown
        constructor
        · by_cases hr : L.reads x = true
          · rw [hr] at hown; simp at hown
          · simpa using hr
        · intro m hm
          rw [hm] at hown; simp at hown
      obtain ⟨p, h1, hc⟩ := h.core.step hL x (by
          intro i m hm
          cases i with
          | false => exact absurd hm (hown'.2 m)
          | true => exact (hs x m rfl hm).1) (fun m hm => (hs x m rfl hm).2)
      have hg := hL.step_quiet _ _ _ h1 hown'.1
      have hsent : L.sent p false = L.sent st.link false := by
        rcases hL.step_sent _ _ _ h1 false with e | ⟨m, em, -⟩
        · exact e
        · exact absurd em (hown'.2 m)
      refine ⟨⟨p, st.chan, st.up⟩, by rw [h1]; rfl, ⟨hc, ?_, ?_, ?_, ?_⟩⟩
      · show L.sent p false <+: _; rw [hsent]; exact h.pre
      · show (L.got p false).length ≤ _; rw [hg]; exact h.told
      · show _ = ((wireList st.chan.base.acts).take (L.got p false).length).zipIdx; rw [hg]; exact h.resp
      · intro hu hb
        have hb : L.broken p = false := hb
        have hb0 : L.broken st.link = false := by
          by_cases hb0 : L.broken st.link = true
          · rw [(hL.step_broken _ _ _ h1 hb0).1] at hb; simp at hb
          · simpa using hb0
        show L.sent p false = _ ∧ _ = (wireList st.chan.base.acts).take (L.got p false).length ++ st.chan.ing.toList
        rw [hg, hsent]; exact h.sync hu hb0
  | submit r s =>
    obtain ⟨c', h1, h2⟩ := send_eff st.chan r
    refine ask_inv hL hreq h s h1 h2 ?_
    intro hi
    rcases h2.wire with ⟨-, w | ⟨w, -⟩⟩ | ⟨x, -, w, -⟩
    · by_contra hc
      have : c'.ing = st.chan.ing := by
        simp only [Queued.step, Queued.sendReq, Queued.trySendNext] at h1
        rw [if_pos (by simpa [Option.isSome_iff_ne_none] using hc)] at h1
        simp only [Option.some.injEq] at h1
        rw [← h1]
      exact hc (this.symm.trans hi)
    · rw [← w]; exact hi
    · rw [w] at hi; simp at hi
  | heartbeat r s =>
    obtain ⟨c', h1, h2⟩ := heartbeat_eff st.chan r
    refine ask_inv hL hreq h s h1 h2 ?_
    intro hi
    rcases h2.wire with ⟨-, w | ⟨w, -⟩⟩ | ⟨x, -, w, -⟩
    · by_contra hc
      have : c'.ing = st.chan.ing := by
        simp only [Queued.step, Queued.sendReq, Queued.trySendNext] at h1
        by_cases hb : st.chan.base.hb.isSome = true
        · rw [if_pos hb] at h1
          simp only [Option.some.injEq] at h1
          rw [← h1]
        · rw [if_neg hb, if_pos (by simpa [Option.isSome_iff_ne_none] using hc)] at h1
          simp only [Option.some.injEq] at h1
          rw [← h1]
      exact hc (this.symm.trans hi)
    · rw [← w]; exact hi
    · rw [w] at hi; simp at hi
  | timeout r a =>
    simp only [step]
    split
    · obtain ⟨c', h1, h2, h3, -⟩ := timeout_eff st.chan r a
      exact lose_inv h h1 h2 h3
    · exact ⟨st, rfl, h⟩
  | read x s =>
    simp only [step]
    split
    · rename_i hh
      exact read_inv hL hreq h x hh.1 hh.2 s
    · exact ⟨st, rfl, h⟩
  | gone =>
    simp only [step]
    split
    · obtain ⟨c', h1, h2, h3, -⟩ := closed_eff st.chan
      exact lose_inv h h1 h2 h3
    · exact ⟨st, rfl, h⟩
  | shutdown =>
    obtain ⟨c', h1, h2, h3, -⟩ := shutdown_eff st.chan
    exact lose_inv h h1 h2 h3

theorem init_inv (hL : L.Lawful ok Arr) : Inv L req ok Ans (init L) := by
  refine ⟨⟨⟨[], by simp, rfl⟩, ?_, ?_⟩, ?_, ?_, ?_, ?_⟩
  · show (L.sent L.init true).length ≤ _; rw [hL.init_sent]; simp
  · intro i m q hm
    have hm : (L.sent L.init true)[i]? = some m := hm
    rw [hL.init_sent] at hm; simp at hm
  · show L.sent L.init false <+: _; rw [hL.init_sent]; exact List.nil_prefix
  · show (L.got L.init false).length ≤ _; rw [hL.init_got]; simp
  · show respList [] = ((wireList []).take (L.got L.init false).length).zipIdx; rw [hL.init_got]; rfl
  · intro _ _
    show L.sent L.init false = (wireList []).map req ∧ wireList [] = (wireList []).take (L.got L.init false).length ++ []
    rw [hL.init_got, hL.init_sent]; exact ⟨rfl, rfl⟩

theorem run_append {st st' : St P} {a b : List (Op O S)} (h : run L req st a = some st') : run L req st (a ++ b) = run L req st' b := by
  induction a generalizing st with
  | nil => simp only [run, Option.some.injEq] at h; rw [← h]; rfl
  | cons o t ih =>
    rw [List.cons_append]
    simp only [run] at h ⊢
    cases hx : step L req st o with
    | none => rw [hx] at h; simp at h
    | some s1 => rw [hx, Option.bind_some] at h; rw [Option.bind_some]; exact ih h

theorem run_inv (hL : L.Lawful ok Arr) (hreq : ∀ r, ok false (req r)) (ops : List (Op O S)) (hok : OkOps L ok ops) (ha : InOrder L req Ans ops) :
    ∃ st, run L req (init L) ops = some st ∧ Inv L req ok Ans st := by
  induction ops using List.reverseRecOn with
  | nil => exact ⟨_, rfl, init_inv hL⟩
  | append_singleton t o ih =>
    obtain ⟨st, h1, h2⟩ := ih (fun x hx => hok x (List.mem_append_left _ hx))
      (fun pre x post m e => ha pre x (post ++ [o]) m (by rw [e]; simp))
    obtain ⟨st', h3, h4⟩ := step_inv hL hreq h2 o (fun x m e hm =>
      ⟨hok x (by rw [← e]; simp) m hm, ha t x [] m (by rw [e]) hm st h1⟩)
    refine ⟨st', ?_, h4⟩
    rw [run_append h1]
    simp only [run]
    rw [h3]; rfl

theorem forall2_get {R : M → E → Prop} {a : List M} {b : List E} (h : List.Forall₂ R a b) {i : Nat} {y : E} (hy : b[i]? = some y) :
    ∃ x, a[i]? = some x ∧ R x y := by
  induction h generalizing i with
  | nil => simp at hy
  | cons hr _ ih =>
    cases i with
    | zero => simp only [List.getElem?_cons_zero, Option.some.injEq] at hy ⊢; exact ⟨_, rfl, hy ▸ hr⟩
    | succ i => simp only [List.getElem?_cons_succ] at hy ⊢; exact ih hy

theorem prefix_get {α : Type} {a b : List α} (h : a <+: b) {i : Nat} {y : α} (hy : a[i]? = some y) : b[i]? = some y := by
  obtain ⟨x, rfl⟩ := h
  rw [List.getElem?_append_left (List.getElem?_eq_some_iff.1 hy).1]; exact hy

/-- **Every answer is the answer to the request it completes.** If the server answers in order, no history is undefined, every message handed on at the
client completes a request, the `j`-th one the `j`-th request put on the wire, and a request that ends with message `j` ends with what the server sent in
answer to what arrived of this very request. -/
theorem own_answers (hL : L.Lawful ok Arr) (hreq : ∀ r, ok false (req r)) (ops : List (Op O S)) (hok : OkOps L ok ops) (ha : InOrder L req Ans ops) :
    ∃ st, run L req (init L) ops = some st ∧
      (respList st.chan.base.acts).length = (L.got st.link false).length ∧
      ∀ r j, (r, j) ∈ respList st.chan.base.acts → (wireList st.chan.base.acts)[j]? = some r ∧
        ∃ g m q, (L.got st.link false)[j]? = some g ∧ Arr m g ∧ Ans m q ∧ Arr (req r) q ∧
          (L.sent st.link true)[j]? = some m ∧ (L.got st.link true)[j]? = some q ∧ (L.sent st.link false)[j]? = some (req r) := by
  obtain ⟨st, h1, h2⟩ := run_inv (Ans := Ans) hL hreq ops hok ha
  refine ⟨st, h1, ?_, ?_⟩
  · rw [h2.resp, List.length_zipIdx, List.length_take, Nat.min_eq_left h2.told]
  · intro r j hr
    rw [h2.resp] at hr
    have hr' := List.mk_mem_zipIdx_iff_getElem?.1 hr
    have hj : j < (L.got st.link false).length := by
      have := (List.getElem?_eq_some_iff.1 hr').1
      rw [List.length_take] at this
      omega
    have hw : (wireList st.chan.base.acts)[j]? = some r := by
      rwa [List.getElem?_take_of_lt hj] at hr'
    refine ⟨hw, ?_⟩
    obtain ⟨hops, k1, k2⟩ := h2.core.hist
    obtain ⟨p', k3, k4⟩ := hL.runs hops k1
    rw [k2] at k3
    simp only [Option.some.injEq] at k3
    subst k3
    obtain ⟨a, a1, a2⟩ := k4 false
    obtain ⟨b, b1, b2⟩ := k4 true
    simp only [Bool.not_false, Bool.not_true] at a1 b1
    obtain ⟨g, hg⟩ : ∃ g, (L.got st.link false)[j]? = some g := ⟨_, List.getElem?_eq_getElem hj⟩
    obtain ⟨m, hm, hmg⟩ := forall2_get a2 hg
    have hm' := prefix_get a1 hm
    have hjs := (List.getElem?_eq_some_iff.1 hm').1
    have hjq : j < (L.got st.link true).length := by have := h2.core.less; omega
    obtain ⟨q, hq⟩ : ∃ q, (L.got st.link true)[j]? = some q := ⟨_, List.getElem?_eq_getElem hjq⟩
    obtain ⟨n, hn, hnq⟩ := forall2_get b2 hq
    have hn' := prefix_get b1 hn
    have hn2 := prefix_get h2.pre hn'
    rw [List.getElem?_map, hw] at hn2
    simp only [Option.map_some, Option.some.injEq] at hn2
    subst hn2
    exact ⟨g, m, q, hg, hmg, h2.core.ans j m q hm' hq, hnq, hm', hq, hn'⟩

/-! ### Checking a given history -/

/-- Does the server answer at this point? -/
def answerB (L : Link P O M E S) (ansB : M → E → Bool) (p : P) (x : O) : Bool :=
  match L.sends x with
  | some (true, m) => match (L.got p true)[(L.sent p true).length]? with
    | some q => ansB m q
    | none => false
  | _ => true

def inOrderB (L : Link P O M E S) (req : Nat → M) (ansB : M → E → Bool) : St P → List (Op O S) → Bool
  | _, [] => true
  | st, o :: t => (match o with | .link x => answerB L ansB st.link x | _ => true) &&
    match step L req st o with
    | none => true
    | some st' => inOrderB L req ansB st' t

theorem inOrderB_sound {ansB : M → E → Bool} : ∀ (ops : List (Op O S)) (st0 : St P), inOrderB L req ansB st0 ops = true →
    ∀ pre o post m, ops = pre ++ .link o :: post → L.sends o = some (true, m) → ∀ st, run L req st0 pre = some st →
    ∃ q, (L.got st.link true)[(L.sent st.link true).length]? = some q ∧ ansB m q = true := by
  intro ops
  induction ops with
  | nil => intro st0 _ pre o post m e; simp at e
  | cons a t ih =>
    intro st0 h pre o post m e hs st hr
    simp only [inOrderB, Bool.and_eq_true] at h
    cases pre with
    | nil =>
      simp only [List.nil_append, List.cons.injEq] at e
      simp only [run, Option.some.injEq] at hr
      subst hr
      have h1 := h.1
      rw [e.1] at h1
      simp only [answerB, hs] at h1
      cases hq : (L.got st0.link true)[(L.sent st0.link true).length]? with
      | none => rw [hq] at h1; simp at h1
      | some q => rw [hq] at h1; exact ⟨q, rfl, h1⟩
    | cons b pre =>
      simp only [List.cons_append, List.cons.injEq] at e
      obtain ⟨rfl, e⟩ := e
      simp only [run] at hr
      cases hx : step L req st0 a with
      | none => rw [hx] at hr; simp at hr
      | some s1 =>
        rw [hx, Option.bind_some] at hr
        have h2 := h.2
        rw [hx] at h2
        exact ih s1 h2 pre o post m e hs st hr

end
end Ltio.Client.Ordered
