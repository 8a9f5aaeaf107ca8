import Verif.Redis.CodecProps
import Verif.Client.Ordered
/-
Requests and responses through a client's `QueuedChannel` (net_io/clients/queued_channel.cc) on a redis connection
(net_io/codec/redis/resp_codec_service.cc): C187, C188.

`TrySendNext` is taken with the pointer copied before the pop (C22).  The connection is ready (no AUTH or SELECT, or those are
over, C35).  The server answers each request it gets with one reply per command, in order; its bytes are cut at will.
-/
namespace Ltio.Redis.Rpc
open Ltio.Client
open Ltio.Client.Ordered (respList)

structure St where
  codec : Codec
  chan : Queued.St
  /-- the channel still has its connection -/
  up : Bool
  /-- what the server has sent and the client has not read yet -/
  stream : List UInt8
  /-- the requests sent and not answered by the server -/
  asked : List Nat

inductive Op where
  /-- the user gives the channel a request; `ok` is what the connection answers to writing it (queued_channel.cc:42-49) -/
  | submit (r : Nat) (ok : Nat → Bool)
  /-- the heartbeat timer (client_channel.cc:99-108) -/
  | heartbeat (r : Nat) (ok : Nat → Bool)
  /-- the server answers the first request it has not answered -/
  | answer
  /-- a read event that brings at most `n` bytes (codec_service.cc:129-143) -/
  | data (n : Nat) (ok : Nat → Bool)
  /-- the timer of a request fires (queued_channel.cc:95-115) -/
  | timeout (r : Nat) (alive : Bool)
  /-- the connection breaks -/
  | gone
  /-- the user closes the channel (client_channel.cc:53-77) -/
  | shutdown

/-- The responses handed to the channel. -/
def delivers (c : Codec) : List (List Val) := c.out.filterMap (fun e => match e with | .deliver vs => some vs | _ => none)

section
-- the server's replies to a request, one per command
variable (reply : Nat → List Val)

/-- `codec_->SendRequest` for the requests tried (queued_channel.cc:57-67): until one is taken. -/
def trySends (ok : Nat → Bool) (c : Codec) : List Nat → Option Codec
  | [] => some c
  | r :: t => (sendRequest c (reply r).length (ok r)).bind (fun c' => if ok r = true then some c' else trySends ok c' t)

/-- The requests put on the wire from `c` to `c'`. -/
def wired (c c' : Queued.St) : List Nat := (wireList c'.base.acts).drop (wireList c.base.acts).length

/-- A request is given to the channel, by the user or the heartbeat timer, and sent if none is in flight. -/
def give (st : St) (r : Nat) (ok : Nat → Bool) (e : Queued.Ev) : Option St :=
  (if st.chan.ing.isSome = true then some st.codec else trySends reply ok st.codec (st.chan.waiting ++ [r])).bind (fun c =>
    (Queued.step true st.chan e).map (fun q => { st with codec := c, chan := q, asked := if st.up then st.asked ++ wired st.chan q else st.asked }))

/-- What the channel does when a response has been handed to it (queued_channel.cc:117-130). -/
def told (st : St) (c : Codec) (rest : List UInt8) (ok : Nat → Bool) : Option St :=
  if (delivers st.codec).length < (delivers c).length then
    (Queued.step true st.chan (.message (delivers st.codec).length ok)).map (fun q => { st with codec := c, chan := q, stream := rest, asked := st.asked ++ wired st.chan q })
  else some { st with codec := c, stream := rest }

/-- What the channel does on an event on which it sends nothing, and it has no connection afterwards. -/
def lose (st : St) (e : Queued.Ev) : Option St := (Queued.step true st.chan e).map (fun q => { st with chan := q, up := false })

def step (st : St) : Op → Option St
  | .submit r ok => give reply st r ok (.send r ok)
  | .heartbeat r ok => if st.chan.base.hb.isSome = true then some st else give reply st r ok (.heartbeat r ok)
  | .answer => match st.asked with
    | [] => some st
    | r :: t => some { st with stream := st.stream ++ encs (reply r), asked := t }
  | .data n ok =>
    if st.up = true ∧ st.stream.take n ≠ [] then
      -- the request the channel sends from inside `OnCodecMessage`, if the codec hands a response to it
      (onData st.codec (st.stream.take n) (if st.chan.ing.isSome = true then (st.chan.waiting.find? ok).map (fun r => (reply r).length) else none)).bind
        (fun c => told st c (st.stream.drop n) ok)
    else some st
  | .timeout r alive => if st.chan.ing = some r then lose st (.timeout r alive) else some st
  | .gone => if st.up = true then lose st .codecClosed else some st
  | .shutdown => lose st .shutdown

def run (st : St) : List Op → Option St
  | [] => some st
  | o :: t => (step reply st o).bind (fun st' => run st' t)
end

def init : St := ⟨start false false true, Queued.init, true, [], []⟩

/-! ### Specification -/

def isGive : Op → Bool
  | .submit _ _ | .heartbeat _ _ => true
  | _ => false

/-- Requests and heartbeats are given only to a channel with a connection and no request in progress. -/
def OneByOne (reply : Nat → List Val) (ops : List Op) : Prop :=
  ∀ pre o post, ops = pre ++ o :: post → isGive o = true → ∀ st, run reply init pre = some st → st.up = true ∧ st.chan.ing = none

/-- The server answers every request with at least one reply, and every reply is one RESP can carry. -/
def GoodReplies (reply : Nat → List Val) : Prop := ∀ r, Wfs (reply r) ∧ reply r ≠ [] ∧ (reply r).length < 2 ^ 32

/-! ### The invariant -/

theorem encs_ne {vs : List Val} (h : vs ≠ []) : encs vs ≠ [] := by
  cases vs with
  | nil => exact absurd rfl h
  | cons v t => rw [encs]; simp [enc_ne]

structure Inv (reply : Nat → List Val) (st : St) : Prop where
  resp : ∀ r j, (r, j) ∈ respList st.chan.base.acts → (delivers st.codec)[j]? = some (reply r)
  count : (respList st.chan.base.acts).map Prod.snd = List.range (delivers st.codec).length
  sync : st.up = true → st.chan.waiting = [] ∧
    ((st.chan.ing = none ∧ Idle st.codec ∧ st.stream = [] ∧ st.asked = []) ∨
     ∃ r acc vs b, st.chan.ing = some r ∧ acc ++ vs = reply r ∧
       Waiting (false, false) st.codec acc vs (st.stream ++ st.asked.flatMap (fun r => encs (reply r))) [] ⟨⟨.start, b⟩, []⟩)

theorem lose_inv {reply : Nat → List Val} {st : St} (h : Inv reply st) {e : Queued.Ev} {q : Queued.St} (hq : Queued.step true st.chan e = some q)
    (hr : respList q.base.acts = respList st.chan.base.acts) : ∃ st', lose st e = some st' ∧ Inv reply st' := by
  refine ⟨{ st with chan := q, up := false }, by unfold lose; rw [hq]; rfl, ⟨?_, ?_, by intro hu; exact absurd hu (by simp)⟩⟩
  · intro r j hj; exact h.resp r j (hr ▸ hj)
  · show (respList q.base.acts).map Prod.snd = _
    rw [hr]; exact h.count

/-- Giving a request to an idle channel. -/
theorem give_inv {reply : Nat → List Val} (hg : GoodReplies reply) {st : St} (h : Inv reply st) (hup : st.up = true) (hi : st.chan.ing = none)
    (r : Nat) (ok : Nat → Bool) {e : Queued.Ev} (b : Base) (hb1 : respList b.acts = respList st.chan.base.acts) (hb2 : wireList b.acts = wireList st.chan.base.acts)
    (he : Queued.step true st.chan e = Queued.trySendNext true ok ⟨b, st.chan.ing, st.chan.waiting ++ [r]⟩) :
    ∃ st', give reply st r ok e = some st' ∧ Inv reply st' := by
  obtain ⟨hw, h2⟩ := h.sync hup
  rcases h2 with ⟨-, hid, hs, ha⟩ | ⟨x, _, _, _, hx, -⟩
  swap
  · rw [hi] at hx; simp at hx
  rw [hi, hw, List.nil_append] at he
  by_cases hok : ok r = true
  · have hq : Queued.step true st.chan e = some ⟨b.wire r, some r, []⟩ := by
      rw [he]; simp [Queued.trySendNext, Queued.trySend, hok]
    have hwl : wired st.chan ⟨b.wire r, some r, []⟩ = [r] := by
      show (wireList (b.acts ++ [.wire r])).drop _ = _
      rw [wireList_append, hb2, List.drop_left]; rfl
    have hsend : sendRequest st.codec (reply r).length true = some { st.codec with count := (reply r).length % 2 ^ 32, out := st.codec.out ++ [.wire (reply r).length] } := by
      unfold sendRequest; rw [if_pos hid.count]; rfl
    have hdel : delivers { st.codec with count := (reply r).length % 2 ^ 32, out := st.codec.out ++ [.wire (reply r).length] } = delivers st.codec := by
      show List.filterMap _ (st.codec.out ++ [.wire (reply r).length]) = _
      rw [List.filterMap_append]; simp [delivers]
    have hr : respList (b.wire r).acts = respList st.chan.base.acts := by
      show respList (b.acts ++ [.wire r]) = _
      rw [Client.Ordered.respList_append, hb1]; simp [respList]
    refine ⟨{ st with codec := { st.codec with count := (reply r).length % 2 ^ 32, out := st.codec.out ++ [.wire (reply r).length] }, chan := ⟨b.wire r, some r, []⟩, asked := [r] }, ?_, ⟨?_, ?_, ?_⟩⟩
    · unfold give
      rw [hi, hw, hq]
      simp [trySends, hok, hsend, hup, ha, hwl]
    · intro x j hj
      show (delivers { st.codec with count := (reply r).length % 2 ^ 32, out := st.codec.out ++ [.wire (reply r).length] })[j]? = _
      rw [hdel]
      have hj : (x, j) ∈ respList (b.wire r).acts := hj
      rw [hr] at hj
      exact h.resp x j hj
    · show (respList (b.wire r).acts).map Prod.snd = List.range (delivers { st.codec with count := (reply r).length % 2 ^ 32, out := st.codec.out ++ [.wire (reply r).length] }).length
      rw [hdel, hr]; exact h.count
    · intro _
      refine ⟨rfl, Or.inr ?_⟩
      obtain ⟨c0, hc0⟩ := hid.dec
      obtain ⟨b', hp⟩ := parses_encs (reply r) (hg r).1 c0 []
      refine ⟨r, [], reply r, b', rfl, rfl, ⟨?_, Nat.mod_eq_of_lt (hg r).2.2, (hg r).2.1, (hg r).2.2, ?_, hid.buf, hid.auth, hid.select, ?_⟩⟩
      · show st.codec.dec.Good
        rw [hc0]; intro f hf; simp at hf
      · show st.codec.cur.getD [] = []
        rw [hid.cur]; rfl
      · show Parses st.codec.dec (st.stream ++ [r].flatMap (fun r => encs (reply r))) _ _ _
        rw [hc0, hs]
        simpa using hp
  · have hok : ok r = false := by simpa using hok
    have hq : Queued.step true st.chan e = some ⟨b.handle r .broken, none, []⟩ := by
      rw [he]; simp [Queued.trySendNext, Queued.trySend, hok]
    have hwl : wired st.chan ⟨b.handle r .broken, none, []⟩ = [] := by
      show (wireList (b.handle r .broken).acts).drop _ = _
      rw [Client.Ordered.handle_wire, hb2, List.drop_length]
    have hsend : sendRequest st.codec (reply r).length false = some st.codec := by
      unfold sendRequest; rw [if_pos hid.count]; rfl
    have hr : respList (b.handle r .broken).acts = respList st.chan.base.acts := by
      rw [Client.Ordered.handle_resp, hb1]; simp
    refine ⟨{ st with chan := ⟨b.handle r .broken, none, []⟩ }, ?_, ⟨?_, ?_, ?_⟩⟩
    · unfold give
      rw [hi, hw, hq]
      simp [trySends, hok, hsend, hwl]
    · intro x j hj
      have hj : (x, j) ∈ respList (b.handle r .broken).acts := hj
      rw [hr] at hj
      exact h.resp x j hj
    · show (respList (b.handle r .broken).acts).map Prod.snd = _
      rw [hr]; exact h.count
    · intro _
      exact ⟨rfl, Or.inl ⟨rfl, hid, hs, ha⟩⟩

/-- A read event. -/
theorem data_inv {reply : Nat → List Val} (hg : GoodReplies reply) {st : St} (h : Inv reply st) (n : Nat) (ok : Nat → Bool) :
    ∃ st', step reply st (.data n ok) = some st' ∧ Inv reply st' := by
  by_cases hc : st.up = true ∧ st.stream.take n ≠ []
  swap
  · exact ⟨st, by simp only [step]; rw [if_neg hc], h⟩
  obtain ⟨hw, h2⟩ := h.sync hc.1
  rcases h2 with ⟨-, -, hs, -⟩ | ⟨r, acc, vs, b, hi, hv, hW⟩
  · rw [hs] at hc; simp at hc
  have hsplit : st.stream ++ st.asked.flatMap (fun r => encs (reply r)) =
      st.stream.take n ++ (st.stream.drop n ++ st.asked.flatMap (fun r => encs (reply r))) := by
    rw [← List.append_assoc, List.take_append_drop]
  rw [hsplit] at hW
  have hnext : (if st.chan.ing.isSome = true then (st.chan.waiting.find? ok).map (fun r => (reply r).length) else none) = none := by
    rw [hw]; simp
  have hstep : step reply st (.data n ok) = (onData st.codec (st.stream.take n) none).bind (fun c => told st c (st.stream.drop n) ok) := by
    simp only [step]; rw [if_pos hc, hnext]
  rcases onData_waiting _ hW with ⟨c', v1, v2, e1, e2, e3, e4⟩ | ⟨c', x, e1, e2, e3, e4, e5, e6, e7, e8, e9⟩
  · have hdel : delivers c' = delivers st.codec := by unfold delivers; rw [e3]
    refine ⟨{ st with codec := c', stream := st.stream.drop n }, ?_, ⟨?_, ?_, ?_⟩⟩
    · rw [hstep, e2, Option.bind_some]
      unfold told
      rw [if_neg (by rw [hdel]; omega)]
    · intro y j hj
      show (delivers c')[j]? = _
      rw [hdel]; exact h.resp y j hj
    · show _ = List.range (delivers c').length
      rw [hdel]; exact h.count
    · intro _
      exact ⟨hw, Or.inr ⟨r, acc ++ v1, v2, b, hi, by rw [List.append_assoc, ← e1, hv], e4⟩⟩
  · have hdel : delivers c' = delivers st.codec ++ [reply r] := by
      unfold delivers; rw [e3, List.filterMap_append, hv]; simp [doneEvs]
    obtain ⟨x0, x1⟩ := List.append_eq_nil_iff.1 e1
    obtain ⟨x2, x3⟩ := List.append_eq_nil_iff.1 x1
    have hask : st.asked = [] := by
      cases ha : st.asked with
      | nil => rfl
      | cons y t =>
        rw [ha, List.flatMap_cons] at x3
        exact absurd (List.append_eq_nil_iff.1 x3).1 (encs_ne (hg y).2.1)
    have hq : Queued.step true st.chan (.message (delivers st.codec).length ok) = some ⟨st.chan.base.handle r (.response (delivers st.codec).length), none, []⟩ := by
      simp [Queued.step, hi, hw, Queued.trySendNext, Queued.trySend]
    have hwl : wired st.chan ⟨st.chan.base.handle r (.response (delivers st.codec).length), none, []⟩ = [] := by
      show (wireList (st.chan.base.handle r _).acts).drop _ = _
      rw [Client.Ordered.handle_wire, List.drop_length]
    have hr : respList (st.chan.base.handle r (.response (delivers st.codec).length)).acts = respList st.chan.base.acts ++ [(r, (delivers st.codec).length)] := by
      rw [Client.Ordered.handle_resp]
    refine ⟨{ st with codec := c', chan := ⟨st.chan.base.handle r (.response (delivers st.codec).length), none, []⟩, stream := [], asked := [] }, ?_, ⟨?_, ?_, ?_⟩⟩
    · rw [hstep, e2, Option.bind_some]
      unfold told
      rw [if_pos (by rw [hdel]; simp), hq, Option.map_some, hwl, hask, x2]
      simp
    · intro y j hj
      have hj : (y, j) ∈ respList (st.chan.base.handle r (.response (delivers st.codec).length)).acts := hj
      show (delivers c')[j]? = _
      rw [hr] at hj
      rw [hdel]
      rcases List.mem_append.1 hj with hj | hj
      · have := h.resp y j hj
        rw [List.getElem?_append_left (List.getElem?_eq_some_iff.1 this).1]; exact this
      · simp only [List.mem_singleton, Prod.mk.injEq] at hj
        rw [hj.1, hj.2]; simp
    · show (respList (st.chan.base.handle r (.response (delivers st.codec).length)).acts).map Prod.snd = List.range (delivers c').length
      rw [hr, hdel, List.map_append, h.count, List.length_append]
      simp [List.range_succ]
    · intro _
      refine ⟨rfl, Or.inl ⟨rfl, ⟨⟨b, e4⟩, e5, e6, ?_, e8, e9⟩, rfl, rfl⟩⟩
      rw [e7, x0]

theorem step_inv {reply : Nat → List Val} (hg : GoodReplies reply) {st : St} (h : Inv reply st) (o : Op)
    (ho : isGive o = true → st.up = true ∧ st.chan.ing = none) : ∃ st', step reply st o = some st' ∧ Inv reply st' := by
  cases o with
  | submit r ok =>
    obtain ⟨hu, hi⟩ := ho rfl
    obtain ⟨s1, s2⟩ := Client.Ordered.submit_lists st.chan.base r false
    exact give_inv hg h hu hi r ok _ s2 s1 rfl
  | heartbeat r ok =>
    obtain ⟨hu, hi⟩ := ho rfl
    simp only [step]
    by_cases hb : st.chan.base.hb.isSome = true
    · rw [if_pos hb]; exact ⟨st, rfl, h⟩
    · rw [if_neg hb]
      obtain ⟨s1, s2⟩ := Client.Ordered.submit_lists ({ st.chan.base with hb := some r } : Base) r true
      exact give_inv hg h hu hi r ok (({ st.chan.base with hb := some r } : Base).submit r true) s2 s1 (by simp only [Queued.step]; rw [if_neg hb]; rfl)
  | answer =>
    simp only [step]
    cases ha : st.asked with
    | nil => exact ⟨st, rfl, h⟩
    | cons r t =>
      refine ⟨_, rfl, ⟨h.resp, h.count, ?_⟩⟩
      intro hu
      obtain ⟨hw, h2⟩ := h.sync hu
      refine ⟨hw, ?_⟩
      rcases h2 with ⟨-, -, -, h3⟩ | ⟨x, acc, vs, b, hi, hv, hW⟩
      · rw [ha] at h3; simp at h3
      · refine Or.inr ⟨x, acc, vs, b, hi, hv, ?_⟩
        rw [ha, List.flatMap_cons, ← List.append_assoc] at hW
        exact hW
  | data n ok => exact data_inv hg h n ok
  | timeout r a =>
    simp only [step]
    by_cases hi : st.chan.ing = some r
    · rw [if_pos hi]
      obtain ⟨q, q1, q2, -, -⟩ := Client.Ordered.timeout_eff st.chan r a
      exact lose_inv h q1 q2
    · rw [if_neg hi]; exact ⟨st, rfl, h⟩
  | gone =>
    simp only [step]
    by_cases hu : st.up = true
    · rw [if_pos hu]
      obtain ⟨q, q1, q2, -⟩ := Client.Ordered.closed_eff st.chan
      exact lose_inv h q1 q2
    · rw [if_neg hu]; exact ⟨st, rfl, h⟩
  | shutdown =>
    obtain ⟨q, q1, q2, -⟩ := Client.Ordered.shutdown_eff st.chan
    exact lose_inv h q1 q2

theorem init_inv (reply : Nat → List Val) : Inv reply init :=
  ⟨by intro r j hj; exact absurd hj (by simp [init, Queued.init, Base.init, respList]), rfl,
   fun _ => ⟨rfl, Or.inl ⟨rfl, ⟨⟨[], rfl⟩, rfl, rfl, rfl, rfl, rfl⟩, rfl, rfl⟩⟩⟩

theorem run_append (reply : Nat → List Val) (st : St) (a b : List Op) : run reply st (a ++ b) = (run reply st a).bind (fun s => run reply s b) := by
  induction a generalizing st with
  | nil => rfl
  | cons o t ih =>
    simp only [List.cons_append, run]
    cases step reply st o with
    | none => rfl
    | some s => exact ih s

theorem run_inv {reply : Nat → List Val} (hg : GoodReplies reply) (ops : List Op) (h1 : OneByOne reply ops) : ∃ st, run reply init ops = some st ∧ Inv reply st := by
  induction ops using List.reverseRecOn with
  | nil => exact ⟨init, rfl, init_inv reply⟩
  | append_singleton t o ih =>
    obtain ⟨st, e, hI⟩ := ih (by
      intro pre x post he hx s hs
      exact h1 pre x (post ++ [o]) (by rw [he]; simp) hx s hs)
    obtain ⟨st', e', hI'⟩ := step_inv hg hI o (fun ho => h1 t o [] rfl ho st e)
    exact ⟨st', by rw [run_append, e, Option.bind_some, run, e']; rfl, hI'⟩

/-- **C188.** If requests and heartbeats are given to the channel of a redis connection only while it is connected and none is in progress, then nothing
crashes, a request that ends with a response ends with exactly the server's replies to its commands, and each response handed on by the codec completes one
request; however the replies are cut up, and whatever breaks or times out. -/
theorem c188_own_replies (reply : Nat → List Val) (hg : GoodReplies reply) (ops : List Op) (h1 : OneByOne reply ops) :
    ∃ st, run reply init ops = some st ∧ (respList st.chan.base.acts).map Prod.snd = List.range (delivers st.codec).length ∧
      ∀ r j v, .done r (.response j) v ∈ st.chan.base.acts → (delivers st.codec)[j]? = some (reply r) := by
  obtain ⟨st, e, hI⟩ := run_inv hg ops h1
  exact ⟨st, e, hI.count, fun r j v hd => hI.resp r j (List.mem_filterMap.2 ⟨_, hd, rfl⟩)⟩

/-- **C188.** … and once the server has answered and all it sent has been read, no request is in progress. -/
theorem c188_complete (reply : Nat → List Val) (hg : GoodReplies reply) (ops : List Op) (h1 : OneByOne reply ops) (st : St)
    (h : run reply init ops = some st) (hu : st.up = true) (hs : st.stream = []) (ha : st.asked = []) : st.chan.ing = none ∧ st.chan.waiting = [] := by
  obtain ⟨st', e, hI⟩ := run_inv hg ops h1
  rw [h] at e
  simp only [Option.some.injEq] at e
  subst e
  obtain ⟨hw, h2⟩ := hI.sync hu
  refine ⟨?_, hw⟩
  rcases h2 with ⟨h2, -⟩ | ⟨r, acc, vs, b, -, -, hW⟩
  · exact h2
  · exfalso
    have hp := hW.parses
    rw [hs, ha] at hp
    obtain ⟨d', hd'⟩ := decode_nil_inc st.codec.dec hW.good
    cases vs with
    | nil => exact hW.pos rfl
    | cons v t =>
      cases hp with
      | cons k1 _ =>
        have k1 : decode st.codec.dec [] = _ := k1
        rw [hd'] at k1
        simp at k1

/-! ### Several requests at once -/

def yes : Nat → Bool := fun _ => true

/-- The server and the network: nothing the user does, and no timer. -/
def Outside : Op → Prop
  | .answer | .data _ _ => True
  | _ => False

theorem outside_stays (reply : Nat → List Val) (ops : List Op) (ho : ∀ o ∈ ops, Outside o) (st : St) (hs : st.stream = []) (ha : st.asked = []) :
    run reply st ops = some st := by
  induction ops with
  | nil => rfl
  | cons o t ih =>
    have h1 : step reply st o = some st := by
      have := ho o (by simp)
      cases o with
      | answer => simp only [step, ha]
      | data n ok => simp only [step]; rw [if_neg (by rw [hs]; simp)]
      | _ => exact this.elim
    rw [run, h1, Option.bind_some]
    exact ih (fun x hx => ho x (by simp [hx]))

def base2 (r1 r2 : Nat) : Base := ⟨none, true, [.submit r1 false, .wire r1, .submit r2 false, .done r1 (.response 0) .user, .wire r2]⟩

theorem decode_one (v : Val) (h : Wf v) (b : List UInt8) : ∃ b', decode ⟨⟨.start, b⟩, []⟩ (enc v) = .ok ⟨⟨.start, b'⟩, []⟩ (enc v).length v := by
  obtain ⟨b', e⟩ := decode_enc v h b []
  rw [List.append_nil] at e
  exact ⟨b', e⟩

/-- Two requests given to the channel at once; the reply to the first has arrived and the second has been sent. -/
theorem second_sent (reply : Nat → List Val) (r1 r2 : Nat) (v1 v2 : Val) (h1 : reply r1 = [v1]) (h2 : reply r2 = [v2]) (w1 : Wf v1) :
    ∃ b, run reply init [.submit r1 yes, .submit r2 yes, .answer, .data (enc v1).length yes, .answer] =
      some ⟨⟨⟨⟨.start, b⟩, []⟩, 0, none, [], false, false, [.ready, .wire 1, .deliver [v1], .wire 1]⟩, ⟨base2 r1 r2, some r2, []⟩, true, enc v2, []⟩ := by
  obtain ⟨b, hb⟩ := loop_one v1 w1 [] 1 [] (enc v1).length rfl
  refine ⟨b, ?_⟩
  have e1 : step reply init (.submit r1 yes) = some ⟨⟨⟨⟨.start, []⟩, []⟩, 1, none, [], false, false, [.ready, .wire 1]⟩,
      ⟨⟨none, true, [.submit r1 false, .wire r1]⟩, some r1, []⟩, true, [], [r1]⟩ := by
    simp [step, give, init, Queued.init, Queued.step, Queued.sendReq, Queued.trySendNext, Queued.trySend, Base.init, Base.submit, Base.wire, trySends, h1, sendRequest,
      start, yes, wired, wireList, Dec.init]
  have e2 : step reply ⟨⟨⟨⟨.start, []⟩, []⟩, 1, none, [], false, false, [.ready, .wire 1]⟩,
      ⟨⟨none, true, [.submit r1 false, .wire r1]⟩, some r1, []⟩, true, [], [r1]⟩ (.submit r2 yes) = some ⟨⟨⟨⟨.start, []⟩, []⟩, 1, none, [], false, false, [.ready, .wire 1]⟩,
      ⟨⟨none, true, [.submit r1 false, .wire r1, .submit r2 false]⟩, some r1, [r2]⟩, true, [], [r1]⟩ := by
    simp [step, give, Queued.step, Queued.sendReq, Queued.trySendNext, Base.submit, wired, wireList]
  have e3 : step reply ⟨⟨⟨⟨.start, []⟩, []⟩, 1, none, [], false, false, [.ready, .wire 1]⟩,
      ⟨⟨none, true, [.submit r1 false, .wire r1, .submit r2 false]⟩, some r1, [r2]⟩, true, [], [r1]⟩ .answer = some ⟨⟨⟨⟨.start, []⟩, []⟩, 1, none, [], false, false, [.ready, .wire 1]⟩,
      ⟨⟨none, true, [.submit r1 false, .wire r1, .submit r2 false]⟩, some r1, [r2]⟩, true, enc v1, []⟩ := by
    simp [step, h1, encs]
  have e4 : step reply ⟨⟨⟨⟨.start, []⟩, []⟩, 1, none, [], false, false, [.ready, .wire 1]⟩,
      ⟨⟨none, true, [.submit r1 false, .wire r1, .submit r2 false]⟩, some r1, [r2]⟩, true, enc v1, []⟩ (.data (enc v1).length yes) =
      some ⟨⟨⟨⟨.start, b⟩, []⟩, 0, none, [], false, false, [.ready, .wire 1, .deliver [v1], .wire 1]⟩, ⟨base2 r1 r2, some r2, []⟩, true, [], [r2]⟩ := by
    simp [step, enc_ne, h2, yes, onData, hb, sendRequest, told, delivers, Queued.step, Queued.trySendNext, Queued.trySend, Base.handle, Base.wire, wired, wireList, base2]
  have e5 : step reply ⟨⟨⟨⟨.start, b⟩, []⟩, 0, none, [], false, false, [.ready, .wire 1, .deliver [v1], .wire 1]⟩, ⟨base2 r1 r2, some r2, []⟩, true, [], [r2]⟩ .answer =
      some ⟨⟨⟨⟨.start, b⟩, []⟩, 0, none, [], false, false, [.ready, .wire 1, .deliver [v1], .wire 1]⟩, ⟨base2 r1 r2, some r2, []⟩, true, enc v2, []⟩ := by
    simp [step, h2, encs]
  simp only [run, e1, e2, e3, e4, e5, Option.bind_some]

/-- **C187 violation.** Two requests given to the channel one right after the other, and both answered at once by the server: if the answer to the second arrives
in one piece, its caller never gets it, whatever the server and the network do, until the time-out closes the connection. -/
theorem c187_hangs_violated (reply : Nat → List Val) (r1 r2 : Nat) (v1 v2 : Val) (h1 : reply r1 = [v1]) (h2 : reply r2 = [v2]) (w1 : Wf v1) (w2 : Wf v2)
    (hne : r1 ≠ r2) (ops : List Op) (ho : ∀ o ∈ ops, Outside o) :
    ∃ st, run reply init ([.submit r1 yes, .submit r2 yes, .answer, .data (enc v1).length yes, .answer, .data (enc v2).length yes] ++ ops) = some st ∧
      st.up = true ∧ st.asked = [] ∧ st.stream = [] ∧ .done r1 (.response 0) .user ∈ st.chan.base.acts ∧
      (∀ o v, .done r2 o v ∉ st.chan.base.acts) ∧
      ∃ st', step reply st (.timeout r2 true) = some st' ∧ st'.up = false ∧ .done r2 .timeout .user ∈ st'.chan.base.acts := by
  obtain ⟨b, e⟩ := second_sent reply r1 r2 v1 v2 h1 h2 w1
  have hl : 0 < (enc v2).length := List.length_pos_iff.2 (enc_ne v2)
  obtain ⟨b2, e2⟩ := loop_wrap v2 w2 b [] ((enc v2).length + 1) (by omega)
  have e6 : step reply ⟨⟨⟨⟨.start, b⟩, []⟩, 0, none, [], false, false, [.ready, .wire 1, .deliver [v1], .wire 1]⟩, ⟨base2 r1 r2, some r2, []⟩, true, enc v2, []⟩
      (.data (enc v2).length yes) = some ⟨⟨⟨⟨.start, b2⟩, []⟩, 2 ^ 32 - 1, some [v2], [], false, false, [.ready, .wire 1, .deliver [v1], .wire 1]⟩,
        ⟨base2 r1 r2, some r2, []⟩, true, [], []⟩ := by
    simp [step, enc_ne, onData, e2, told, delivers]
  refine ⟨⟨⟨⟨⟨.start, b2⟩, []⟩, 2 ^ 32 - 1, some [v2], [], false, false, [.ready, .wire 1, .deliver [v1], .wire 1]⟩, ⟨base2 r1 r2, some r2, []⟩, true, [], []⟩, ?_, rfl, rfl, rfl, ?_, ?_, ?_⟩
  · rw [show [Op.submit r1 yes, .submit r2 yes, .answer, .data (enc v1).length yes, .answer, .data (enc v2).length yes] ++ ops =
      [.submit r1 yes, .submit r2 yes, .answer, .data (enc v1).length yes, .answer] ++ (.data (enc v2).length yes :: ops) by simp, run_append, e, Option.bind_some, run, e6,
      Option.bind_some]
    exact outside_stays reply ops ho _ rfl rfl
  · simp [base2]
  · intro o v
    simp [base2, hne.symm]
  · refine ⟨_, by simp only [step, if_true, lose, Queued.step]; rw [if_neg (by simp [base2, wireList])]; simp only [Bool.not_true, Bool.false_and, Bool.false_eq_true, if_false, Option.map_some]; rfl, rfl, ?_⟩
    simp [base2, Base.handle, Queued.failEverything, Base.failAll, Base.notifyClosed]

/-- **C187 violation.** If the answer to the second arrives in two pieces, its caller is given an empty response when the first piece arrives, and
the caller of a third request, given to the channel now, is given the server's answer to the second. -/
theorem c187_wrong_answer_violated (reply : Nat → List Val) (r1 r2 r3 : Nat) (v1 v2 v3 : Val) (h1 : reply r1 = [v1]) (h2 : reply r2 = [v2]) (h3 : reply r3 = [v3])
    (w1 : Wf v1) (w2 : Wf v2) (x y : List UInt8) (hx : x ≠ []) (hy : y ≠ []) (hxy : enc v2 = x ++ y) :
    ∃ st, run reply init [.submit r1 yes, .submit r2 yes, .answer, .data (enc v1).length yes, .answer, .data x.length yes, .submit r3 yes, .data y.length yes] = some st ∧
      delivers st.codec = [[v1], [], [v2]] ∧ .done r2 (.response 1) .user ∈ st.chan.base.acts ∧ .done r3 (.response 2) .user ∈ st.chan.base.acts ∧ st.asked = [r3] := by
  obtain ⟨b, e⟩ := second_sent reply r1 r2 v1 v2 h1 h2 w1
  obtain ⟨b', hd⟩ := decode_one v2 w2 b
  have hG : Dec.Good ⟨⟨.start, b⟩, []⟩ := by intro f hf; simp at hf
  rw [hxy] at hd
  have hyl : 0 < y.length := List.length_pos_iff.2 hy
  rcases decode_chunk_cases hG hd with ⟨-, hk⟩ | ⟨d1, j, k1, k2, k3, k4⟩
  · rw [List.length_append] at hk; omega
  have hj : j = y.length := by rw [List.length_append] at k4; omega
  subst hj
  have e6 : step reply ⟨⟨⟨⟨.start, b⟩, []⟩, 0, none, [], false, false, [.ready, .wire 1, .deliver [v1], .wire 1]⟩, ⟨base2 r1 r2, some r2, []⟩, true, enc v2, []⟩
      (.data x.length yes) = some ⟨⟨d1, 0, none, [], false, false, [.ready, .wire 1, .deliver [v1], .wire 1, .deliver []]⟩,
        ⟨⟨none, true, (base2 r1 r2).acts ++ [.done r2 (.response 1) .user]⟩, none, []⟩, true, y, []⟩ := by
    simp [step, hxy, hx, onData, loop, k1, told, delivers, Queued.step, Queued.trySendNext, Queued.trySend, Base.handle, base2, wired, wireList]
  have e7 : step reply ⟨⟨d1, 0, none, [], false, false, [.ready, .wire 1, .deliver [v1], .wire 1, .deliver []]⟩,
        ⟨⟨none, true, (base2 r1 r2).acts ++ [.done r2 (.response 1) .user]⟩, none, []⟩, true, y, []⟩ (.submit r3 yes) =
      some ⟨⟨d1, 1, none, [], false, false, [.ready, .wire 1, .deliver [v1], .wire 1, .deliver [], .wire 1]⟩,
        ⟨⟨none, true, (base2 r1 r2).acts ++ [.done r2 (.response 1) .user] ++ [.submit r3 false] ++ [.wire r3]⟩, some r3, []⟩, true, y, [r3]⟩ := by
    simp [step, give, Queued.step, Queued.sendReq, Queued.trySendNext, Queued.trySend, Base.submit, Base.wire, trySends, h3, sendRequest, yes, wired, wireList, base2]
  have e8 : step reply ⟨⟨d1, 1, none, [], false, false, [.ready, .wire 1, .deliver [v1], .wire 1, .deliver [], .wire 1]⟩,
        ⟨⟨none, true, (base2 r1 r2).acts ++ [.done r2 (.response 1) .user] ++ [.submit r3 false] ++ [.wire r3]⟩, some r3, []⟩, true, y, [r3]⟩ (.data y.length yes) =
      some ⟨⟨⟨⟨.start, b'⟩, []⟩, 0, none, [], false, false, [.ready, .wire 1, .deliver [v1], .wire 1, .deliver [], .wire 1, .deliver [v2]]⟩,
        ⟨⟨none, true, (base2 r1 r2).acts ++ [.done r2 (.response 1) .user] ++ [.submit r3 false] ++ [.wire r3] ++ [.done r3 (.response 2) .user]⟩, none, []⟩, true, [], [r3]⟩ := by
    simp [step, hy, onData, loop, k3, dec32, told, delivers, Queued.step, Queued.trySendNext, Queued.trySend, Base.handle, base2, wired, wireList]
  refine ⟨⟨⟨⟨⟨.start, b'⟩, []⟩, 0, none, [], false, false, [.ready, .wire 1, .deliver [v1], .wire 1, .deliver [], .wire 1, .deliver [v2]]⟩,
        ⟨⟨none, true, (base2 r1 r2).acts ++ [.done r2 (.response 1) .user] ++ [.submit r3 false] ++ [.wire r3] ++ [.done r3 (.response 2) .user]⟩, none, []⟩, true, [], [r3]⟩, ?_, ?_, ?_, ?_, rfl⟩
  · rw [show [Op.submit r1 yes, .submit r2 yes, .answer, .data (enc v1).length yes, .answer, .data x.length yes, .submit r3 yes, .data y.length yes] =
      [.submit r1 yes, .submit r2 yes, .answer, .data (enc v1).length yes, .answer] ++ [.data x.length yes, .submit r3 yes, .data y.length yes] by simp, run_append, e,
      Option.bind_some]
    simp only [run, e6, e7, e8, Option.bind_some]
  · simp [delivers]
  · simp
  · simp

/-- **C187 violation.** A request posted to the channel (client.cc:287, 304) that arrives after the connection broke, or was closed by a time-out, while
another was in progress aborts the process (`CHECK`, resp_codec_service.cc:142). -/
theorem c187_crash_violated (reply : Nat → List Val) (r1 r2 : Nat) (h1 : reply r1 ≠ []) (hlt : (reply r1).length < 2 ^ 32) (ok : Nat → Bool)
    (o : Op) (ho : o = .timeout r1 true ∨ o = .gone) : run reply init [.submit r1 yes, o, .submit r2 ok] = none := by
  have hpos : 0 < (reply r1).length := List.length_pos_iff.2 h1
  have e1 : step reply init (.submit r1 yes) = some ⟨⟨⟨⟨.start, []⟩, []⟩, (reply r1).length, none, [], false, false, [.ready, .wire (reply r1).length]⟩,
      ⟨⟨none, true, [.submit r1 false, .wire r1]⟩, some r1, []⟩, true, [], [r1]⟩ := by
    simp [step, give, init, Queued.init, Queued.step, Queued.sendReq, Queued.trySendNext, Queued.trySend, Base.init, Base.submit, Base.wire, trySends, sendRequest,
      start, yes, wired, wireList, Dec.init, Nat.mod_eq_of_lt hlt]
  have key : ∀ (a : List Client.Act), step reply ⟨⟨⟨⟨.start, []⟩, []⟩, (reply r1).length, none, [], false, false, [.ready, .wire (reply r1).length]⟩,
      ⟨⟨none, true, a⟩, none, []⟩, false, [], [r1]⟩ (.submit r2 ok) = none := by
    intro a
    have : ¬ (reply r1).length = 0 := by omega
    simp only [step, give, Option.isSome_none, Bool.false_eq_true, if_false, List.nil_append, trySends, sendRequest, this, Option.bind_none]
  rw [run, e1, Option.bind_some, run]
  rcases ho with rfl | rfl
  · have e2 : step reply ⟨⟨⟨⟨.start, []⟩, []⟩, (reply r1).length, none, [], false, false, [.ready, .wire (reply r1).length]⟩,
      ⟨⟨none, true, [.submit r1 false, .wire r1]⟩, some r1, []⟩, true, [], [r1]⟩ (.timeout r1 true) =
      some ⟨⟨⟨⟨.start, []⟩, []⟩, (reply r1).length, none, [], false, false, [.ready, .wire (reply r1).length]⟩,
      ⟨⟨none, true, [.submit r1 false, .wire r1, .done r1 .timeout .user, .closed]⟩, none, []⟩, false, [], [r1]⟩ := by
      simp [step, lose, Queued.step, Queued.failEverything, Base.failAll, Base.notifyClosed, Base.handle, wireList]
    rw [e2, Option.bind_some, run, key, Option.bind_none]
  · have e2 : step reply ⟨⟨⟨⟨.start, []⟩, []⟩, (reply r1).length, none, [], false, false, [.ready, .wire (reply r1).length]⟩,
      ⟨⟨none, true, [.submit r1 false, .wire r1]⟩, some r1, []⟩, true, [], [r1]⟩ .gone =
      some ⟨⟨⟨⟨.start, []⟩, []⟩, (reply r1).length, none, [], false, false, [.ready, .wire (reply r1).length]⟩,
      ⟨⟨none, true, [.submit r1 false, .wire r1, .done r1 .broken .user, .closed]⟩, none, []⟩, false, [], [r1]⟩ := by
      simp [step, lose, Queued.step, Queued.failEverything, Base.failAll, Base.notifyClosed, Base.handle]
    rw [e2, Option.bind_some, run, key, Option.bind_none]

/-- **C187 violation.** The same happens to the heartbeat if its timer fires while a request is in progress: the server's answer to it is not recognised, the
time-out of the heartbeat comes although the server has answered everything, and the connection is closed and reported lost. -/
theorem c187_heartbeat_violated (reply : Nat → List Val) (r1 r2 : Nat) (v1 v2 : Val) (h1 : reply r1 = [v1]) (h2 : reply r2 = [v2]) (w1 : Wf v1) (w2 : Wf v2)
    (hne : r1 ≠ r2) (ops : List Op) (ho : ∀ o ∈ ops, Outside o) :
    ∃ st, run reply init ([.submit r1 yes, .heartbeat r2 yes, .answer, .data (enc v1).length yes, .answer, .data (enc v2).length yes] ++ ops) = some st ∧
      st.up = true ∧ st.asked = [] ∧ st.stream = [] ∧ .closed ∉ st.chan.base.acts ∧
      ∃ st', step reply st (.timeout r2 true) = some st' ∧ st'.up = false ∧ .closed ∈ st'.chan.base.acts := by
  obtain ⟨b, hb⟩ := loop_one v1 w1 [] 1 [] (enc v1).length rfl
  have hl : 0 < (enc v2).length := List.length_pos_iff.2 (enc_ne v2)
  obtain ⟨b2, hb2⟩ := loop_wrap v2 w2 b [] ((enc v2).length + 1) (by omega)
  have e1 : step reply init (.submit r1 yes) = some ⟨⟨⟨⟨.start, []⟩, []⟩, 1, none, [], false, false, [.ready, .wire 1]⟩,
      ⟨⟨none, true, [.submit r1 false, .wire r1]⟩, some r1, []⟩, true, [], [r1]⟩ := by
    simp [step, give, init, Queued.init, Queued.step, Queued.sendReq, Queued.trySendNext, Queued.trySend, Base.init, Base.submit, Base.wire, trySends, h1, sendRequest,
      start, yes, wired, wireList, Dec.init]
  have e2 : step reply ⟨⟨⟨⟨.start, []⟩, []⟩, 1, none, [], false, false, [.ready, .wire 1]⟩,
      ⟨⟨none, true, [.submit r1 false, .wire r1]⟩, some r1, []⟩, true, [], [r1]⟩ (.heartbeat r2 yes) = some ⟨⟨⟨⟨.start, []⟩, []⟩, 1, none, [], false, false, [.ready, .wire 1]⟩,
      ⟨⟨some r2, true, [.submit r1 false, .wire r1, .submit r2 true]⟩, some r1, [r2]⟩, true, [], [r1]⟩ := by
    simp [step, give, Queued.step, Queued.sendReq, Queued.trySendNext, Base.submit, wired, wireList]
  have e3 : step reply ⟨⟨⟨⟨.start, []⟩, []⟩, 1, none, [], false, false, [.ready, .wire 1]⟩,
      ⟨⟨some r2, true, [.submit r1 false, .wire r1, .submit r2 true]⟩, some r1, [r2]⟩, true, [], [r1]⟩ .answer = some ⟨⟨⟨⟨.start, []⟩, []⟩, 1, none, [], false, false, [.ready, .wire 1]⟩,
      ⟨⟨some r2, true, [.submit r1 false, .wire r1, .submit r2 true]⟩, some r1, [r2]⟩, true, enc v1, []⟩ := by
    simp [step, h1, encs]
  have e4 : step reply ⟨⟨⟨⟨.start, []⟩, []⟩, 1, none, [], false, false, [.ready, .wire 1]⟩,
      ⟨⟨some r2, true, [.submit r1 false, .wire r1, .submit r2 true]⟩, some r1, [r2]⟩, true, enc v1, []⟩ (.data (enc v1).length yes) =
      some ⟨⟨⟨⟨.start, b⟩, []⟩, 0, none, [], false, false, [.ready, .wire 1, .deliver [v1], .wire 1]⟩,
        ⟨⟨some r2, true, [.submit r1 false, .wire r1, .submit r2 true, .done r1 (.response 0) .user, .wire r2]⟩, some r2, []⟩, true, [], [r2]⟩ := by
    simp [step, enc_ne, h2, yes, onData, hb, sendRequest, told, delivers, Queued.step, Queued.trySendNext, Queued.trySend, Base.handle, Base.wire, wired, wireList, hne.symm]
  have e5 : step reply ⟨⟨⟨⟨.start, b⟩, []⟩, 0, none, [], false, false, [.ready, .wire 1, .deliver [v1], .wire 1]⟩,
        ⟨⟨some r2, true, [.submit r1 false, .wire r1, .submit r2 true, .done r1 (.response 0) .user, .wire r2]⟩, some r2, []⟩, true, [], [r2]⟩ .answer =
      some ⟨⟨⟨⟨.start, b⟩, []⟩, 0, none, [], false, false, [.ready, .wire 1, .deliver [v1], .wire 1]⟩,
        ⟨⟨some r2, true, [.submit r1 false, .wire r1, .submit r2 true, .done r1 (.response 0) .user, .wire r2]⟩, some r2, []⟩, true, enc v2, []⟩ := by
    simp [step, h2, encs]
  have e6 : step reply ⟨⟨⟨⟨.start, b⟩, []⟩, 0, none, [], false, false, [.ready, .wire 1, .deliver [v1], .wire 1]⟩,
        ⟨⟨some r2, true, [.submit r1 false, .wire r1, .submit r2 true, .done r1 (.response 0) .user, .wire r2]⟩, some r2, []⟩, true, enc v2, []⟩
      (.data (enc v2).length yes) = some ⟨⟨⟨⟨.start, b2⟩, []⟩, 2 ^ 32 - 1, some [v2], [], false, false, [.ready, .wire 1, .deliver [v1], .wire 1]⟩,
        ⟨⟨some r2, true, [.submit r1 false, .wire r1, .submit r2 true, .done r1 (.response 0) .user, .wire r2]⟩, some r2, []⟩, true, [], []⟩ := by
    simp [step, enc_ne, onData, hb2, told, delivers]
  refine ⟨⟨⟨⟨⟨.start, b2⟩, []⟩, 2 ^ 32 - 1, some [v2], [], false, false, [.ready, .wire 1, .deliver [v1], .wire 1]⟩,
    ⟨⟨some r2, true, [.submit r1 false, .wire r1, .submit r2 true, .done r1 (.response 0) .user, .wire r2]⟩, some r2, []⟩, true, [], []⟩, ?_, rfl, rfl, rfl, ?_, ?_⟩
  · rw [run_append]
    simp only [run, e1, e2, e3, e4, e5, e6, Option.bind_some]
    exact outside_stays reply ops ho _ rfl rfl
  · simp
  · refine ⟨_, by simp only [step, if_true, lose, Queued.step]; rw [if_neg (by simp [wireList])]; simp only [Bool.not_true, Bool.false_and, Bool.false_eq_true, if_false, Option.map_some]; rfl, rfl, ?_⟩
    simp [Base.handle, Queued.failEverything, Base.failAll, Base.notifyClosed]

/-! ### Examples -/

/-- `OneByOne`, checked. -/
def oneByOneB (reply : Nat → List Val) (st : St) : List Op → Bool
  | [] => true
  | o :: t => (!isGive o || (st.up && st.chan.ing.isNone)) && (match step reply st o with
    | none => true
    | some s => oneByOneB reply s t)

theorem oneByOneB_sound (reply : Nat → List Val) (ops : List Op) (h : oneByOneB reply init ops = true) : OneByOne reply ops := by
  have key : ∀ (pre : List Op) (st : St) (ops : List Op) (o : Op) (post : List Op), oneByOneB reply st ops = true → ops = pre ++ o :: post → isGive o = true →
      ∀ s, run reply st pre = some s → s.up = true ∧ s.chan.ing = none := by
    intro pre
    induction pre with
    | nil =>
      intro st ops o post hb he hg s hs
      subst he
      simp only [run, Option.some.injEq] at hs
      subst hs
      simp only [List.nil_append, oneByOneB, hg, Bool.not_true, Bool.false_or, Bool.and_eq_true] at hb
      exact ⟨hb.1.1, by simpa using hb.1.2⟩
    | cons p pre ih =>
      intro st ops o post hb he hg s hs
      subst he
      simp only [List.cons_append, oneByOneB, Bool.and_eq_true] at hb
      rw [run] at hs
      cases hst : step reply st p with
      | none => rw [hst] at hs; simp at hs
      | some s1 =>
        rw [hst, Option.bind_some] at hs
        have hb2 := hb.2
        rw [hst] at hb2
        exact ih s1 _ o post hb2 rfl hg s hs
  intro pre o post he hg s hs
  exact key pre init ops o post h he hg s hs

def demoReply (r : Nat) : List Val := if r = 0 then [.int (-5)] else if r = 1 then [.arr [.bulk [1, 2], .null], .str [79, 75]] else [.str [80]]

theorem demoReply_good : GoodReplies demoReply := by
  intro r
  unfold demoReply
  split
  · simp [Wfs, Wf]
  · split
    · simp [Wfs, Wf]
    · refine ⟨?_, by simp, by simp⟩
      simp only [Wfs, Wf, and_true]
      decide

/-- The hypotheses of C188 are met: a request whose reply comes in two pieces, and then another, which times out. -/
theorem w_c188 (reply : Nat → List Val) (r1 r2 : Nat) (v1 : Val) (h1 : reply r1 = [v1]) (w1 : Wf v1) (x y : List UInt8) (hx : x ≠ []) (hy : y ≠ [])
    (hxy : enc v1 = x ++ y) : OneByOne reply [.submit r1 yes, .answer, .data x.length yes, .data y.length yes, .submit r2 yes, .timeout r2 true] := by
  obtain ⟨b', hd⟩ := decode_one v1 w1 []
  have hG : Dec.Good ⟨⟨.start, []⟩, []⟩ := by intro f hf; simp at hf
  rw [hxy] at hd
  have hyl : 0 < y.length := List.length_pos_iff.2 hy
  rcases decode_chunk_cases hG hd with ⟨-, hk⟩ | ⟨d1, j, k1, k2, k3, k4⟩
  · rw [List.length_append] at hk; omega
  have hj : j = y.length := by rw [List.length_append] at k4; omega
  subst hj
  have e1 : step reply init (.submit r1 yes) = some ⟨⟨⟨⟨.start, []⟩, []⟩, 1, none, [], false, false, [.ready, .wire 1]⟩,
      ⟨⟨none, true, [.submit r1 false, .wire r1]⟩, some r1, []⟩, true, [], [r1]⟩ := by
    simp [step, give, init, Queued.init, Queued.step, Queued.sendReq, Queued.trySendNext, Queued.trySend, Base.init, Base.submit, Base.wire, trySends, h1, sendRequest,
      start, yes, wired, wireList, Dec.init]
  have e2 : step reply ⟨⟨⟨⟨.start, []⟩, []⟩, 1, none, [], false, false, [.ready, .wire 1]⟩,
      ⟨⟨none, true, [.submit r1 false, .wire r1]⟩, some r1, []⟩, true, [], [r1]⟩ .answer = some ⟨⟨⟨⟨.start, []⟩, []⟩, 1, none, [], false, false, [.ready, .wire 1]⟩,
      ⟨⟨none, true, [.submit r1 false, .wire r1]⟩, some r1, []⟩, true, x ++ y, []⟩ := by
    simp [step, h1, encs, hxy]
  have e3 : step reply ⟨⟨⟨⟨.start, []⟩, []⟩, 1, none, [], false, false, [.ready, .wire 1]⟩,
      ⟨⟨none, true, [.submit r1 false, .wire r1]⟩, some r1, []⟩, true, x ++ y, []⟩ (.data x.length yes) = some ⟨⟨d1, 1, some [], [], false, false, [.ready, .wire 1]⟩,
      ⟨⟨none, true, [.submit r1 false, .wire r1]⟩, some r1, []⟩, true, y, []⟩ := by
    simp [step, hx, onData, loop, k1, told, delivers]
  have e4 : step reply ⟨⟨d1, 1, some [], [], false, false, [.ready, .wire 1]⟩,
      ⟨⟨none, true, [.submit r1 false, .wire r1]⟩, some r1, []⟩, true, y, []⟩ (.data y.length yes) =
      some ⟨⟨⟨⟨.start, b'⟩, []⟩, 0, none, [], false, false, [.ready, .wire 1, .deliver [v1]]⟩,
        ⟨⟨none, true, [.submit r1 false, .wire r1, .done r1 (.response 0) .user]⟩, none, []⟩, true, [], []⟩ := by
    simp [step, hy, onData, loop, k3, dec32, told, delivers, Queued.step, Queued.trySendNext, Queued.trySend, Base.handle, wired, wireList]
  refine oneByOneB_sound _ _ ?_
  simp only [oneByOneB, e1, e2, e3, e4, isGive, Bool.not_false, Bool.not_true, Bool.true_or, Bool.false_or, Bool.true_and]
  simp only [init, Queued.init, Option.isNone_none, Bool.and_self, Bool.true_and]
  split
  · rfl
  · split <;> rfl

example : OneByOne demoReply [.submit 2 yes, .answer, .data 1 yes, .data 3 yes, .submit 1 yes, .timeout 1 true] :=
  w_c188 demoReply 2 1 (.str [80]) rfl (by simp only [Wf]; decide) [43] [80, 13, 10] (by simp) (by simp) rfl

/-- Those of the violations of C187 too: for example a reply of 5 bytes cut after the first. -/
example : demoReply 0 = [.int (-5)] ∧ demoReply 2 = [.str [80]] ∧ Wf (.int (-5)) ∧ Wf (.str [80]) ∧ enc (.str [80]) = [43] ++ [80, 13, 10] := by
  refine ⟨rfl, rfl, by simp [Wf], ?_, rfl⟩
  simp only [Wf]; decide

end Ltio.Redis.Rpc
