import Verif.WebSocket.Props
import Verif.Http.Headers
import Verif.Hash.Sha1
import Verif.Hash.Murmur

/-
A WebSocket server connection as a whole: the handshake of `WSCodecService`
(net_io/codec/websocket/ws_codec_service.cc:204-311), event handling and closing of `CodecService`
(net_io/codec/codec_service.cc:68-161), `IOService` (net_io/io_service.cc:74-102, 170-185) and the routing
of `WsServer` (net_io/server/ws_server/ws_server.h:48-96); and the handshake of the client side.

llhttp is any machine (`LL`): fed with bytes it reports the requests they complete and whether
`llhttp_execute` returned HPE_OK.  The frame parser is the model of Verif.WebSocket.Model.  Sending may
fail only where the code looks at the result (line 231).  `schedule_close_` is never set for this codec.
-/
namespace Ltio.WebSocket.Server
open Ltio.Text Ltio.Http

/-- A completed HTTP request: its header map and its path. -/
structure Req where
  headers : Headers
  path : Str
deriving DecidableEq, Repr

/-- An HTTP parser: new state, requests completed, HPE_OK. -/
structure LL (σ : Type) where
  start : σ
  exec : σ → List Byte → σ × List Req × Bool

/-- `handshake_state` (ws_codec_service.h:98-102). -/
inductive HS | none | success | wrong
deriving DecidableEq, Repr

/-- What is sent to the peer. -/
inductive Reply where
  | switching (accept : Option (List UInt8))   -- 101 with Sec-WebSocket-Accept
  | badRequest                                 -- HttpConstant::kBadRequest
  | pong
  | close
deriving DecidableEq, Repr

/-- Calls of the registered `WSService` of a topic. -/
inductive Call where
  | opened (topic : Str)
  | message (topic : Str) (m : Message)
  | closed (topic : Str)
deriving DecidableEq, Repr

/-- The connection. `installed`: its descriptor is registered with the event loop. -/
structure Conn (σ : Type) where
  ll : σ
  hs : HS
  path : Str
  parser : Parser
  cur : Cur
  installed : Bool
  sent : List Reply
  calls : List Call

/-- After `StartProtocolService` on the server side (ws_codec_service.cc:122-127). -/
def Conn.init (L : LL σ) : Conn σ := ⟨L.start, .none, [], Parser.init, none, true, [], []⟩

/-- The value of a header as bytes. -/
def bytesOf (s : Str) : List UInt8 := s.map (fun c => UInt8.ofNat c.toNat)

/-- `request->GetHeader("Upgrade") != "websocket"` (ws_codec_service.cc:215). -/
def wantsWebsocket (r : Req) : Bool := getHeader r.headers "Upgrade".toList == "websocket".toList

/-- The accept value for a request (ws_codec_service.cc:222-224). -/
def acceptFor (r : Req) : Option (List UInt8) :=
  Ltio.Hash.Sha1.genAcceptKey (fun _ => 0#8) (bytesOf (getHeader r.headers "Sec-WebSocket-Key".toList))

/-- `CommitHttpRequest` (ws_codec_service.cc:213-237). -/
def Conn.commit (sendOk : Bool) (c : Conn σ) (r : Req) : Conn σ :=
  if wantsWebsocket r then
    if sendOk then { c with path := r.path, sent := c.sent ++ [.switching (acceptFor r)], hs := .success }
    else { c with path := r.path, hs := .wrong }
  else { c with hs := .wrong }

/-- `OnConnectionClose` of `WsServer` (ws_server.h:65-75): only for a registered topic. -/
def Conn.closeCall (svc : List Str) (c : Conn σ) : Conn σ :=
  if c.path ∈ svc then { c with calls := c.calls ++ [.closed c.path] } else c

/-- `CloseService(false)` (codec_service.cc:68-82, 145-151) with `IOService::OnCodecClosed`. -/
def Conn.close (svc : List Str) (c : Conn σ) : Conn σ :=
  ({ c with installed := false } : Conn σ).closeCall svc

/-- `NotifyCodecReady` with `OnConnectionOpen` (ws_server.h:48-63). -/
def Conn.ready (svc : List Str) (c : Conn σ) : Conn σ :=
  if c.path ∈ svc then { c with calls := c.calls ++ [.opened c.path] } else c.close svc

/-- `OnHandshakeReqData` (ws_codec_service.cc:241-260). -/
def Conn.handshake (L : LL σ) (svc : List Str) (sendOk : Bool) (c : Conn σ) (data : List Byte) : Conn σ :=
  let c1 := (L.exec c.ll data).2.1.foldl (Conn.commit sendOk) { c with ll := (L.exec c.ll data).1 }
  if (L.exec c.ll data).2.2 = false then ({ c1 with sent := c1.sent ++ [.badRequest] } : Conn σ).close svc
  else match c1.hs with
    | .success => c1.ready svc
    | .wrong => ({ c1 with sent := c1.sent ++ [.badRequest] } : Conn σ).close svc
    | .none => c1

/-- The effects of the frame callbacks (ws_codec_service.cc:104-120; ws_server.h:77-96). -/
def Conn.effect (svc : List Str) (c : Conn σ) : Out → Conn σ
  | .deliver m => if c.path ∈ svc then { c with calls := c.calls ++ [.message c.path m] } else c
  | .sendPong => { c with sent := c.sent ++ [.pong] }
  | .sendClose => { c with sent := c.sent ++ [.close] }
  | .closeService => c.close svc

/-- `OnDataReceived` (ws_codec_service.cc:295-311); `none`: undefined behaviour of the frame parser (C39). -/
def Conn.onData (L : LL σ) (svc : List Str) (sendOk : Bool) (c : Conn σ) (data : List Byte) : Option (Conn σ) :=
  if c.hs ≠ .success then some (c.handshake L svc sendOk data)
  else match receive c.parser c.cur [data] with
    | none => none
    | some (p, cur, outs) => some (outs.foldl (Conn.effect svc) { c with parser := p, cur := cur })

/-- What happens to a connection: a socket event that brought `data` and `failed` (error, end of stream or
an error flag); the forced close of `IOService::Stop` (io_service.cc:90-98). -/
inductive In where
  | event (data : List Byte) (failed sendOk : Bool)
  | stop
deriving DecidableEq, Repr

/-- `HandleEvent` (codec_service.cc:129-143): events reach only a registered descriptor. -/
def Conn.step (L : LL σ) (svc : List Str) (c : Conn σ) : In → Option (Conn σ)
  | .event data failed sendOk =>
    if c.installed then
      match (if data = [] then some c else c.onData L svc sendOk data) with
      | none => none
      | some c1 => some (if failed then c1.close svc else c1)
    else some c
  | .stop => some (c.close svc)

/-- A history of a connection. -/
def Conn.run (L : LL σ) (svc : List Str) (c : Conn σ) : List In → Option (Conn σ)
  | [] => some c
  | i :: is => match c.step L svc i with
    | none => none
    | some c' => c'.run L svc is

/-! ### Specification -/

/-- The calls of a well-behaved history: nothing, or one `opened`, then messages of the same topic, then
possibly one `closed`. -/
def Proper (calls : List Call) : Prop :=
  calls = [] ∨ ∃ (t : Str) (ms : List Message), calls = .opened t :: ms.map (.message t) ∨
    calls = .opened t :: ms.map (.message t) ++ [.closed t]

/-- `opened` calls. -/
def isOpen : Call → Bool
  | .opened _ => true
  | _ => false

/-- 101 replies. -/
def isSwitching : Reply → Bool
  | .switching _ => true
  | _ => false

/-! ### Commit folds -/

theorem commit_inv (b : Bool) (c : Conn σ) (r : Req) :
    (c.commit b r).calls = c.calls ∧ (c.commit b r).installed = c.installed ∧ (c.commit b r).parser = c.parser ∧
    (c.commit b r).cur = c.cur ∧ (c.commit b r).ll = c.ll := by
  unfold Conn.commit
  split
  · split <;> exact ⟨rfl, rfl, rfl, rfl, rfl⟩
  · exact ⟨rfl, rfl, rfl, rfl, rfl⟩

theorem commits_inv (b : Bool) (rs : List Req) (c : Conn σ) :
    (rs.foldl (Conn.commit b) c).calls = c.calls ∧ (rs.foldl (Conn.commit b) c).installed = c.installed ∧
    (rs.foldl (Conn.commit b) c).parser = c.parser ∧ (rs.foldl (Conn.commit b) c).cur = c.cur ∧
    (rs.foldl (Conn.commit b) c).ll = c.ll := by
  induction rs generalizing c with
  | nil => exact ⟨rfl, rfl, rfl, rfl, rfl⟩
  | cons r rs ih =>
    rw [List.foldl_cons]
    obtain ⟨a1, a2, a3, a4, a5⟩ := ih (c.commit b r)
    obtain ⟨b1, b2, b3, b4, b5⟩ := commit_inv b c r
    exact ⟨a1.trans b1, a2.trans b2, a3.trans b3, a4.trans b4, a5.trans b5⟩

/-- What a batch of requests is answered: with a 101 each that asks for websocket. -/
theorem commits_sent (b : Bool) (rs : List Req) (c : Conn σ) :
    (rs.foldl (Conn.commit b) c).sent =
      c.sent ++ (if b then (rs.filter wantsWebsocket).map (fun r => .switching (acceptFor r)) else []) := by
  induction rs generalizing c with
  | nil => cases b <;> simp
  | cons r rs ih =>
    rw [List.foldl_cons, ih]
    by_cases hw : wantsWebsocket r = true <;> cases b <;> simp [Conn.commit, hw]

/-- The last request of a batch decides. -/
theorem commits_hs (b : Bool) (rs : List Req) (c : Conn σ) :
    (rs.foldl (Conn.commit b) c).hs = match rs.getLast? with
      | none => c.hs
      | some r => if wantsWebsocket r && b then .success else .wrong := by
  induction rs generalizing c with
  | nil => rfl
  | cons r rs ih =>
    rw [List.foldl_cons, ih]
    cases rs with
    | nil => by_cases hw : wantsWebsocket r = true <;> cases b <;> simp [Conn.commit, hw]
    | cons x xs => rfl

/-- The path is that of the last request that asks for websocket. -/
theorem commits_path (b : Bool) (rs : List Req) (c : Conn σ) :
    (rs.foldl (Conn.commit b) c).path = match (rs.filter wantsWebsocket).getLast? with
      | none => c.path
      | some r => r.path := by
  induction rs generalizing c with
  | nil => rfl
  | cons r rs ih =>
    rw [List.foldl_cons, ih]
    by_cases hw : wantsWebsocket r = true
    · rw [List.filter_cons_of_pos hw]
      cases h : rs.filter wantsWebsocket with
      | nil => cases b <;> simp [Conn.commit, hw]
      | cons x xs => rfl
    · rw [List.filter_cons_of_neg hw]
      have : (c.commit b r).path = c.path := by simp [Conn.commit, hw]
      rw [this]

theorem close_fields (svc : List Str) (c : Conn σ) :
    (c.close svc).sent = c.sent ∧ (c.close svc).installed = false ∧ (c.close svc).path = c.path ∧
    (c.close svc).hs = c.hs ∧ (c.close svc).calls = c.calls ++ (if c.path ∈ svc then [.closed c.path] else []) := by
  unfold Conn.close Conn.closeCall
  by_cases h : c.path ∈ svc
  · rw [if_pos h, if_pos h]; exact ⟨rfl, rfl, rfl, rfl, rfl⟩
  · rw [if_neg h, if_neg h]; exact ⟨rfl, rfl, rfl, rfl, by simp⟩

/-! ### C115: the answers to handshakes -/

/-- Whether a batch is refused: llhttp reports an error, or the last request (or an earlier batch) is not a
handshake that could be answered. -/
def refused (hs : HS) (rs : List Req) (ok sendOk : Bool) : Bool :=
  !ok || (match rs.getLast? with
    | none => hs == .wrong
    | some r => !(wantsWebsocket r && sendOk))

/-- The part of `OnHandshakeReqData` after parsing. -/
theorem answered (svc : List Str) (d : Conn σ) (hs : HS) (rs : List Req) (ok sendOk : Bool) (hns : hs ≠ .success)
    (l : List Reply) (hsent : d.sent = l)
    (hhs : d.hs = match rs.getLast? with
      | none => hs
      | some r => if wantsWebsocket r && sendOk then .success else .wrong) :
    (if ok = false then ({ d with sent := d.sent ++ [.badRequest] } : Conn σ).close svc
     else match d.hs with
      | .success => d.ready svc
      | .wrong => ({ d with sent := d.sent ++ [.badRequest] } : Conn σ).close svc
      | .none => d).sent = l ++ (if refused hs rs ok sendOk then [.badRequest] else []) ∧
    (refused hs rs ok sendOk = true →
     (if ok = false then ({ d with sent := d.sent ++ [.badRequest] } : Conn σ).close svc
      else match d.hs with
       | .success => d.ready svc
       | .wrong => ({ d with sent := d.sent ++ [.badRequest] } : Conn σ).close svc
       | .none => d).installed = false) := by
  subst hsent
  unfold refused
  cases ok with
  | false =>
    simp only [if_true, Bool.not_false, Bool.true_or]
    exact ⟨(close_fields svc _).1, fun _ => (close_fields svc _).2.1⟩
  | true =>
    simp only [Bool.true_eq_false, if_false, Bool.not_true, Bool.false_or]
    cases hl : rs.getLast? with
    | none =>
      rw [hl] at hhs
      simp only at hhs
      subst hhs
      cases hd : d.hs with
      | success => exact absurd hd hns
      | wrong => exact ⟨(close_fields svc _).1, fun _ => (close_fields svc _).2.1⟩
      | none => exact ⟨by simp, fun h => absurd h (by simp)⟩
    | some r =>
      rw [hl] at hhs
      simp only at hhs
      cases hr : (wantsWebsocket r && sendOk) with
      | true =>
        rw [hr, if_pos rfl] at hhs
        rw [hhs]
        refine ⟨?_, by simp [hr]⟩
        simp only [hr, Bool.not_true, Bool.false_eq_true, if_false, List.append_nil]
        unfold Conn.ready
        split
        · rfl
        · exact (close_fields svc _).1
      | false =>
        rw [hr, if_neg (by decide)] at hhs
        rw [hhs]
        simp only [hr, Bool.not_false, if_true]
        exact ⟨(close_fields svc _).1, fun _ => (close_fields svc _).2.1⟩

/-- **C115 (answers)**: during the handshake, for every HTTP parser and every read, the peer is sent one 101
for each completed request that asks for websocket, each with the accept value for its key, and then a 400
exactly if the batch is refused, in which case the connection is closed. -/
theorem c115_answers (L : LL σ) (svc : List Str) (sendOk : Bool) (c : Conn σ) (hs : c.hs ≠ .success) (data : List Byte) :
    let rs := (L.exec c.ll data).2.1
    let bad := refused c.hs rs (L.exec c.ll data).2.2 sendOk
    (c.handshake L svc sendOk data).sent = c.sent ++
      (if sendOk then (rs.filter wantsWebsocket).map (fun r => .switching (acceptFor r)) else []) ++
      (if bad then [.badRequest] else []) ∧
    (bad = true → (c.handshake L svc sendOk data).installed = false) := by
  intro rs bad
  have hsent := commits_sent sendOk rs { c with ll := (L.exec c.ll data).1 }
  have hhs := commits_hs sendOk rs { c with ll := (L.exec c.ll data).1 }
  exact answered svc _ c.hs rs (L.exec c.ll data).2.2 sendOk hs _ hsent hhs

/-- **C115 (a handshake)**: one complete request that asks for websocket on a registered path, read without
error, is answered with its 101 only, the service of the path is told and the connection stays. -/
theorem c115_accepted (L : LL σ) (svc : List Str) (data : List Byte) (r : Req) (hd : data ≠ [])
    (he : (L.exec L.start data).2 = ([r], true)) (hw : getHeader r.headers "Upgrade".toList = "websocket".toList)
    (hp : r.path ∈ svc) :
    ∃ c, (Conn.init L).step L svc (.event data false true) = some c ∧ c.installed = true ∧ c.hs = .success ∧
      c.sent = [.switching (acceptFor r)] ∧ c.calls = [.opened r.path] := by
  have hw' : wantsWebsocket r = true := by unfold wantsWebsocket; rw [hw]; exact beq_self_eq_true _
  have h1 : (L.exec L.start data).2.1 = [r] := by rw [he]
  have h2 : (L.exec L.start data).2.2 = true := by rw [he]
  refine ⟨_, by simp only [Conn.step, Conn.init, if_true, if_neg hd, Conn.onData]; rfl, ?_⟩
  simp [Conn.handshake, h1, h2, Conn.commit, hw', Conn.ready, hp]

/-- **C115 (unknown paths)**: a handshake for a path nobody registered is answered with its 101 and then
closed; no service is called. -/
theorem c115_unregistered (L : LL σ) (svc : List Str) (data : List Byte) (r : Req) (hd : data ≠ [])
    (he : (L.exec L.start data).2 = ([r], true)) (hw : getHeader r.headers "Upgrade".toList = "websocket".toList)
    (hp : r.path ∉ svc) :
    ∃ c, (Conn.init L).step L svc (.event data false true) = some c ∧ c.installed = false ∧
      c.sent = [.switching (acceptFor r)] ∧ c.calls = [] := by
  have hw' : wantsWebsocket r = true := by unfold wantsWebsocket; rw [hw]; exact beq_self_eq_true _
  have h1 : (L.exec L.start data).2.1 = [r] := by rw [he]
  have h2 : (L.exec L.start data).2.2 = true := by rw [he]
  refine ⟨_, by simp only [Conn.step, Conn.init, if_true, if_neg hd, Conn.onData]; rfl, ?_⟩
  simp [Conn.handshake, h1, h2, Conn.commit, hw', Conn.ready, hp, Conn.close, Conn.closeCall]

/-- **C115 (the accept value)**: the value sent with a 101 is the RFC 6455 one for the key header of the
request, if that has no zero byte. -/
theorem c115_accept_value (r : Req) (h : ∀ b ∈ bytesOf (getHeader r.headers "Sec-WebSocket-Key".toList), b ≠ 0) :
    acceptFor r = some (Base64.Spec.encode (Ltio.Hash.Sha1.Spec.sha1
      (bytesOf (getHeader r.headers "Sec-WebSocket-Key".toList) ++ Ltio.Hash.Sha1.Spec.guid))) :=
  Ltio.Hash.Sha1.c109_accept_key _ _ h

/-- **C115 (a handshake without key is accepted)**: violation.  RFC 6455 requires the key; a request without
it is answered with a 101 all the same. -/
theorem c115_missing_key_violated (L : LL σ) (svc : List Str) (data : List Byte) (r : Req) (hd : data ≠ [])
    (he : (L.exec L.start data).2 = ([r], true)) (hw : getHeader r.headers "Upgrade".toList = "websocket".toList)
    (hk : hasHeader r.headers "Sec-WebSocket-Key".toList = false) (hp : r.path ∈ svc) :
    ∃ c, (Conn.init L).step L svc (.event data false true) = some c ∧ c.installed = true ∧ c.calls = [.opened r.path] ∧
      c.sent = [.switching (Ltio.Hash.Sha1.genAcceptKey (fun _ => 0#8) [])] := by
  obtain ⟨c, h1, h2, _, h4, h5⟩ := c115_accepted L svc data r hd he hw hp
  refine ⟨c, h1, h2, h5, ?_⟩
  have : getHeader r.headers "Sec-WebSocket-Key".toList = [] := by
    unfold hasHeader at hk
    unfold getHeader
    rw [List.find?_eq_none.mpr (by
      intro p hpm hx
      have : r.headers.any (fun p => p.1 == toLower "Sec-WebSocket-Key".toList) = true := List.any_eq_true.mpr ⟨p, hpm, hx⟩
      rw [hk] at this
      exact absurd this (by decide))]
  rw [h4]
  unfold acceptFor
  rw [this]
  rfl

/-- **C115 (the value of Upgrade is compared as written)**: violation.  RFC 6455 has the value compared
without regard to case; "WebSocket" is refused with a 400. -/
theorem c115_case_violated (L : LL σ) (svc : List Str) (data : List Byte) (r : Req) (hd : data ≠ [])
    (he : (L.exec L.start data).2 = ([r], true)) (hw : getHeader r.headers "Upgrade".toList = "WebSocket".toList) :
    ∃ c, (Conn.init L).step L svc (.event data false true) = some c ∧ c.installed = false ∧ c.sent = [.badRequest] := by
  have hw' : wantsWebsocket r = false := by unfold wantsWebsocket; rw [hw]; decide
  have h1 : (L.exec L.start data).2.1 = [r] := by rw [he]
  have h2 : (L.exec L.start data).2.2 = true := by rw [he]
  refine ⟨_, by simp only [Conn.step, Conn.init, if_true, if_neg hd, Conn.onData]; rfl, ?_, ?_⟩
  · simp [Conn.handshake, h1, h2, Conn.commit, hw', (close_fields svc _).2.1]
  · simp [Conn.handshake, h1, h2, Conn.commit, hw', (close_fields svc _).1]

/-! ### C116: what a service sees -/

/-- The shape of the calls of one connection. -/
def Shape (svc : List Str) (c : Conn σ) : Prop :=
  (c.installed = true → c.hs ≠ .success → c.calls = []) ∧
  (c.installed = true → c.hs = .success → ∃ ms : List Message, c.path ∈ svc ∧ c.calls = .opened c.path :: ms.map (.message c.path)) ∧
  ((∃ rest, c.path ∈ svc ∧ c.calls = .opened c.path :: rest ∧
      ∀ x ∈ rest, x = .closed c.path ∨ ∃ m, x = .message c.path m) ∨
   (∀ x ∈ c.calls, c.path ∈ svc ∧ x = .closed c.path))

theorem shape_close (svc : List Str) (c : Conn σ)
    (h : (∃ rest, c.path ∈ svc ∧ c.calls = .opened c.path :: rest ∧
      ∀ x ∈ rest, x = .closed c.path ∨ ∃ m, x = .message c.path m) ∨
     (∀ x ∈ c.calls, c.path ∈ svc ∧ x = .closed c.path)) : Shape svc (c.close svc) := by
  obtain ⟨_, f2, f3, f4, f5⟩ := close_fields svc c
  refine ⟨fun hi => ?_, fun hi => ?_, ?_⟩
  · rw [f2] at hi; cases hi
  · rw [f2] at hi; cases hi
  · rw [f3, f5]
    rcases h with ⟨rest, h1, h2, h3⟩ | h
    · left
      refine ⟨rest ++ [.closed c.path], h1, by rw [h2, if_pos h1]; rfl, ?_⟩
      intro x hx
      rcases List.mem_append.mp hx with hx | hx
      · exact h3 x hx
      · exact Or.inl (List.mem_singleton.mp hx)
    · right
      intro x hx
      rcases List.mem_append.mp hx with hx | hx
      · exact h x hx
      · by_cases hp : c.path ∈ svc
        · rw [if_pos hp] at hx; exact ⟨hp, List.mem_singleton.mp hx⟩
        · rw [if_neg hp] at hx; cases hx

theorem shape_handshake (L : LL σ) (svc : List Str) (sendOk : Bool) (c : Conn σ) (data : List Byte)
    (h : Shape svc c) (hi : c.installed = true) (hs : c.hs ≠ .success) : Shape svc (c.handshake L svc sendOk data) := by
  have hc := h.1 hi hs
  obtain ⟨a1, a2, _⟩ := commits_inv sendOk (L.exec c.ll data).2.1 { c with ll := (L.exec c.ll data).1 }
  simp only [] at a1 a2
  unfold Conn.handshake
  simp only []
  generalize (L.exec c.ll data).2.1.foldl (Conn.commit sendOk) { c with ll := (L.exec c.ll data).1 } = d at a1 a2
  rw [hc] at a1
  rw [hi] at a2
  split
  · refine shape_close svc _ (Or.inr ?_)
    intro x hx
    simp only [a1] at hx
    cases hx
  · split
    · rename_i hd
      unfold Conn.ready
      split
      · rename_i hp
        refine ⟨fun _ hn => absurd hd hn, fun _ _ => ⟨[], hp, by simp [a1]⟩, Or.inl ⟨[], hp, by simp [a1], by simp⟩⟩
      · refine shape_close svc _ (Or.inr ?_)
        intro x hx
        rw [a1] at hx
        cases hx
    · refine shape_close svc _ (Or.inr ?_)
      intro x hx
      simp only [a1] at hx
      cases hx
    · rename_i hd
      refine ⟨fun _ _ => a1, fun _ hn => (by rw [hd] at hn; cases hn), Or.inr (by rw [a1]; simp)⟩

/-- Effects keep path and handshake state, and add only messages and closings of the path. -/
theorem effects_fields (svc : List Str) (outs : List Out) (c : Conn σ) :
    (outs.foldl (Conn.effect svc) c).path = c.path ∧ (outs.foldl (Conn.effect svc) c).hs = c.hs ∧
    (∃ rest, (outs.foldl (Conn.effect svc) c).calls = c.calls ++ rest ∧
      ∀ x ∈ rest, c.path ∈ svc ∧ (x = .closed c.path ∨ ∃ m, x = .message c.path m)) ∧
    ((outs.foldl (Conn.effect svc) c).installed = true → c.installed = true ∧
      ∃ ms : List Message, (outs.foldl (Conn.effect svc) c).calls = c.calls ++ ms.map (.message c.path)) := by
  induction outs generalizing c with
  | nil => exact ⟨rfl, rfl, ⟨[], by simp, by simp⟩, fun h => ⟨h, [], by simp⟩⟩
  | cons o outs ih =>
    rw [List.foldl_cons]
    obtain ⟨i1, i2, ⟨rest, i3, i4⟩, i5⟩ := ih (c.effect svc o)
    cases o with
    | deliver m =>
      have e1 : (c.effect svc (.deliver m)).path = c.path := by unfold Conn.effect; simp only []; split <;> rfl
      have e2 : (c.effect svc (.deliver m)).hs = c.hs := by unfold Conn.effect; simp only []; split <;> rfl
      have e3 : (c.effect svc (.deliver m)).installed = c.installed := by unfold Conn.effect; simp only []; split <;> rfl
      have e4 : (c.effect svc (.deliver m)).calls = c.calls ++ (if c.path ∈ svc then [.message c.path m] else []) := by
        unfold Conn.effect; simp only []; split <;> simp
      rw [e1] at i1 i4 i5
      rw [e2] at i2
      rw [e4] at i3 i5
      rw [e3] at i5
      refine ⟨i1, i2, ⟨(if c.path ∈ svc then [.message c.path m] else []) ++ rest, by rw [i3, List.append_assoc], ?_⟩, ?_⟩
      · intro x hx
        rcases List.mem_append.mp hx with hx | hx
        · by_cases hp : c.path ∈ svc
          · rw [if_pos hp] at hx; exact ⟨hp, Or.inr ⟨m, List.mem_singleton.mp hx⟩⟩
          · rw [if_neg hp] at hx; cases hx
        · exact i4 x hx
      · intro hin
        obtain ⟨j1, ms, j2⟩ := i5 hin
        refine ⟨j1, (if c.path ∈ svc then [m] else []) ++ ms, ?_⟩
        rw [j2]
        split <;> simp
    | sendPong =>
      exact ⟨i1, i2, ⟨rest, i3, i4⟩, i5⟩
    | sendClose =>
      exact ⟨i1, i2, ⟨rest, i3, i4⟩, i5⟩
    | closeService =>
      obtain ⟨_, f2, f3, f4, f5⟩ := close_fields svc c
      have e0 : c.effect svc .closeService = c.close svc := rfl
      rw [e0] at i1 i2 i3 i4 i5 ⊢
      rw [f3] at i1 i4
      rw [f4] at i2
      rw [f5] at i3
      refine ⟨i1, i2, ⟨(if c.path ∈ svc then [.closed c.path] else []) ++ rest, by rw [i3, List.append_assoc], ?_⟩, ?_⟩
      · intro x hx
        rcases List.mem_append.mp hx with hx | hx
        · by_cases hp : c.path ∈ svc
          · rw [if_pos hp] at hx; exact ⟨hp, Or.inl (List.mem_singleton.mp hx)⟩
          · rw [if_neg hp] at hx; cases hx
        · exact i4 x hx
      · intro hin
        have := (i5 hin).1
        rw [f2] at this
        cases this

theorem shape_onData (L : LL σ) (svc : List Str) (sendOk : Bool) (c c' : Conn σ) (data : List Byte)
    (h : Shape svc c) (hi : c.installed = true) (hd : c.onData L svc sendOk data = some c') : Shape svc c' := by
  unfold Conn.onData at hd
  by_cases hs : c.hs ≠ .success
  · rw [if_pos hs] at hd
    cases hd
    exact shape_handshake L svc sendOk c data h hi hs
  · rw [if_neg hs] at hd
    have hs' : c.hs = .success := by simpa using hs
    cases hr : receive c.parser c.cur [data] with
    | none => rw [hr] at hd; cases hd
    | some t =>
      obtain ⟨p, cur, outs⟩ := t
      rw [hr] at hd
      simp only [Option.some.injEq] at hd
      obtain ⟨ms0, hp, hcalls⟩ := h.2.1 hi hs'
      obtain ⟨e1, e2, ⟨rest, e3, e4⟩, e5⟩ := effects_fields svc outs { c with parser := p, cur := cur }
      rw [hd] at e1 e2 e3 e5
      simp only [] at e1 e2 e3 e4 e5
      refine ⟨fun _ hn => absurd (e2.trans hs') hn, fun hin _ => ?_, Or.inl ?_⟩
      · obtain ⟨_, ms, e6⟩ := e5 hin
        refine ⟨ms0 ++ ms, by rw [e1]; exact hp, ?_⟩
        rw [e6, hcalls, e1]
        simp
      · refine ⟨ms0.map (.message c.path) ++ rest, by rw [e1]; exact hp, ?_, ?_⟩
        · rw [e3, hcalls, e1]; simp
        · intro x hx
          rw [e1]
          rcases List.mem_append.mp hx with hx | hx
          · obtain ⟨m, _, rfl⟩ := List.mem_map.mp hx
            exact Or.inr ⟨m, rfl⟩
          · exact (e4 x hx).2

theorem shape_step (L : LL σ) (svc : List Str) (c c' : Conn σ) (i : In) (h : Shape svc c)
    (hs : c.step L svc i = some c') : Shape svc c' := by
  cases i with
  | stop => cases hs; exact shape_close svc c h.2.2
  | event data failed sendOk =>
    unfold Conn.step at hs
    simp only [] at hs
    by_cases hi : c.installed = true
    · rw [if_pos hi] at hs
      by_cases hd : data = []
      · rw [if_pos hd] at hs
        simp only [Option.some.injEq] at hs
        cases failed with
        | true => rw [if_pos rfl] at hs; rw [← hs]; exact shape_close svc c h.2.2
        | false => rw [if_neg (by decide)] at hs; rw [← hs]; exact h
      · rw [if_neg hd] at hs
        cases ho : c.onData L svc sendOk data with
        | none => rw [ho] at hs; cases hs
        | some c1 =>
          rw [ho] at hs
          have h1 := shape_onData L svc sendOk c c1 data h hi ho
          simp only [Option.some.injEq] at hs
          cases failed with
          | true => rw [if_pos rfl] at hs; rw [← hs]; exact shape_close svc c1 h1.2.2
          | false => rw [if_neg (by decide)] at hs; rw [← hs]; exact h1
    · rw [if_neg hi] at hs
      cases hs
      exact h

theorem shape_run (L : LL σ) (svc : List Str) (is : List In) (c c' : Conn σ) (h : Shape svc c)
    (hr : c.run L svc is = some c') : Shape svc c' := by
  induction is generalizing c with
  | nil => cases hr; exact h
  | cons i is ih =>
    rw [Conn.run] at hr
    cases hs : c.step L svc i with
    | none => rw [hs] at hr; cases hr
    | some d => rw [hs] at hr; exact ih d (shape_step L svc c d i h hs) hr

theorem shape_init (L : LL σ) (svc : List Str) : Shape svc (Conn.init L) :=
  ⟨fun _ _ => rfl, fun _ h => absurd h (by simp [Conn.init]), Or.inr (by intro x hx; cases hx)⟩

/-- **C116 (one service, opened once and first)**: for every HTTP parser, every set of registered topics and
every history of a connection, all calls go to the service of one registered topic; it is opened at most
once, and if so before anything else; a message is delivered only to a service that was opened; as long as
the connection is registered nothing but the opening and messages happens. -/
theorem c116_order (L : LL σ) (svc : List Str) (is : List In) (c : Conn σ) (h : (Conn.init L).run L svc is = some c) :
    (c.calls = [] ∨ ∃ t ∈ svc, ∃ rest, (c.calls = .opened t :: rest ∨ c.calls = rest) ∧
      (∀ x ∈ rest, x = .closed t ∨ ∃ m, x = .message t m) ∧
      (c.calls = rest → ∀ x ∈ rest, x = .closed t)) ∧
    (c.installed = true → c.calls = [] ∨ ∃ t ∈ svc, ∃ ms : List Message, c.calls = .opened t :: ms.map (.message t)) := by
  have hsh := shape_run L svc is _ c (shape_init L svc) h
  constructor
  · rcases hsh.2.2 with ⟨rest, h1, h2, h3⟩ | h3
    · right
      refine ⟨c.path, h1, rest, Or.inl h2, h3, ?_⟩
      intro e
      rw [h2] at e
      have := congrArg List.length e
      simp at this
    · cases hc : c.calls with
      | nil => exact Or.inl rfl
      | cons x xs =>
        right
        have hx := h3 x (by rw [hc]; simp)
        refine ⟨c.path, hx.1, x :: xs, Or.inr rfl, ?_, ?_⟩
        · intro y hy; exact Or.inl (h3 y (by rw [hc]; exact hy)).2
        · intro _ y hy; exact (h3 y (by rw [hc]; exact hy)).2
  · intro hi
    by_cases hs : c.hs = .success
    · obtain ⟨ms, h1, h2⟩ := hsh.2.1 hi hs
      exact Or.inr ⟨c.path, h1, ms, h2⟩
    · exact Or.inl (hsh.1 hi hs)

end Ltio.WebSocket.Server
