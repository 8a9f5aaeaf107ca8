import Verif.WebSocket.ServerProps
import Verif.Base64.Props

/-
`WsClient` (net_io/clients/ws_client.cc) with the client side of `WSCodecService`
(net_io/codec/websocket/ws_codec_service.cc:122-163, 262-311) and `CodecService` (codec_service.cc:68-161).

The response parser is any machine: fed with bytes it reports the completed responses, each with the value
`Upgrade()` has in the callback, and whether `llhttp_execute` returned HPE_OK.  One connection: a client
that dials again while connected is not modelled.  Everything runs in the loop thread.  `CLOSE` and `PONG`
frames the codec sends by itself are not recorded.
-/
namespace Ltio.WebSocket.WsClient
open Ltio.Text Ltio.Http
open Ltio.WebSocket.Server (HS bytesOf)

/-- A completed response. -/
structure Res where
  headers : Headers
  upgrade : Bool
deriving DecidableEq, Repr

/-- A response parser. -/
structure LL (σ : Type) where
  start : σ
  exec : σ → List Byte → σ × List Res × Bool

/-- Callbacks of the user (`WithOpen`, `WithClose`, `WithError`, `WithMessage`), all set. -/
inductive Call where
  | opened
  | message (m : Message)
  | closed
  | refused       -- error callback, kSrvRefused
  | broken        -- error callback, kConnBroken
deriving DecidableEq, Repr

/-- `CodecService::Status` (codec_service.h:43). -/
inductive Status | connecting | connected | closed
deriving DecidableEq, Repr

/-- The codec of the connection. -/
structure Codec (σ : Type) where
  ll : σ
  hs : HS
  status : Status
  parser : Parser
  cur : Cur
  installed : Bool

/-- The client: its transport, the callbacks made, the frames written. -/
structure Client (σ : Type) where
  transport : Option (Codec σ)
  calls : List Call
  wire : List Message

/-- A new `WsClient`. -/
def Client.init : Client σ := ⟨none, [], []⟩

/-- The codec after `StartProtocolService` (ws_codec_service.cc:122-163). -/
def Codec.init (L : LL σ) : Codec σ := ⟨L.start, .none, .connecting, Parser.init, none, true⟩

/-- `CommitHttpResponse` (ws_codec_service.cc:263-273). -/
def commit (c : Codec σ) (r : Res) : Codec σ :=
  { c with hs := if getHeader r.headers "Sec-WebSocket-Accept".toList ≠ [] ∧ r.upgrade = true then .success else .wrong }

/-- `CloseService` (codec_service.cc:68-82), with the close callback unless blocked (145-151, ws_client.cc:138-142). -/
def closeCodec (blocked : Bool) (c : Codec σ) : Codec σ × List Call :=
  ({ c with installed := false, status := .closed }, if blocked then [] else [.closed])

/-- `NotifyCodecReady` (codec_service.cc:153-161, ws_client.cc:132-136). -/
def ready (c : Codec σ) : Codec σ × List Call :=
  ({ c with status := if c.status = .connecting then .connected else c.status }, [.opened])

/-- `OnHandshakeResData` (ws_codec_service.cc:277-293). -/
def handshake (L : LL σ) (c : Codec σ) (data : List Byte) : Codec σ × List Call :=
  let c1 := (L.exec c.ll data).2.1.foldl commit { c with ll := (L.exec c.ll data).1 }
  if (L.exec c.ll data).2.2 = false then closeCodec false c1
  else match c1.hs with
    | .success => ready c1
    | .wrong => closeCodec false c1
    | .none => (c1, [])

/-- The effects of the frame callbacks (ws_codec_service.cc:104-120; ws_client.cc:126-130). -/
def effect (s : Codec σ × List Call) : Out → Codec σ × List Call
  | .deliver m => (s.1, s.2 ++ [.message m])
  | .sendPong => s
  | .sendClose => s
  | .closeService => ((closeCodec false s.1).1, s.2 ++ (closeCodec false s.1).2)

/-- `OnDataReceived` (ws_codec_service.cc:295-311). -/
def onData (L : LL σ) (c : Codec σ) (data : List Byte) : Option (Codec σ × List Call) :=
  if c.hs ≠ .success then some (handshake L c data)
  else match receive c.parser c.cur [data] with
    | none => none
    | some (p, cur, outs) => some (outs.foldl effect ({ c with parser := p, cur := cur }, []))

/-- `HandleEvent` (codec_service.cc:129-143). -/
def onEvent (L : LL σ) (c : Codec σ) (data : List Byte) (failed : Bool) : Option (Codec σ × List Call) :=
  if c.installed then
    match (if data = [] then some (c, []) else onData L c data) with
    | none => none
    | some (c1, calls) => some (if failed then ((closeCodec false c1).1, calls ++ (closeCodec false c1).2) else (c1, calls))
  else some (c, [])

/-- What happens to a client. `send m ok`: `Send` of a frame, the socket write succeeding or not. -/
inductive In where
  | connectFailed
  | connected
  | event (data : List Byte) (failed : Bool)
  | send (m : Message) (ok : Bool)
deriving DecidableEq, Repr

/-- `Send` (ws_client.cc:58-79). -/
def Client.send (w : Client σ) (m : Message) (ok : Bool) : Client σ :=
  match w.transport with
  | none => { w with calls := w.calls ++ [.broken] }
  | some c =>
    if c.status ≠ .connected then { w with calls := w.calls ++ [.broken] }
    else if ok then { w with wire := w.wire ++ [m] }
    else { w with transport := some (closeCodec true c).1, calls := w.calls ++ (closeCodec true c).2 ++ [.broken] }

/-- One thing happening. -/
def Client.step (L : LL σ) (w : Client σ) : In → Option (Client σ)
  | .connectFailed => some { w with calls := w.calls ++ [.refused] }
  | .connected => match w.transport with
    | none => some { w with transport := some (Codec.init L) }
    | some _ => none
  | .event data failed => match w.transport with
    | none => some w
    | some c => match onEvent L c data failed with
      | none => none
      | some (c', calls) => some { w with transport := some c', calls := w.calls ++ calls }
  | .send m ok => some (w.send m ok)

/-- A history. -/
def Client.run (L : LL σ) (w : Client σ) : List In → Option (Client σ)
  | [] => some w
  | i :: is => match w.step L i with
    | none => none
    | some w' => w'.run L is

/-- The Sec-WebSocket-Key the client sends for a random number, its bytes in memory order
(ws_codec_service.cc:139-143). -/
def bytes64 (x : BitVec 64) : List UInt8 := (List.range 8).map (fun i => UInt8.ofBitVec (x.extractLsb' (8 * i) 8))

def secKey (mem : Nat → BitVec 8) : Option (List UInt8) :=
  let h := Hash.Murmur.x64_128 mem 8 0xf03c#32
  Base64.base64Encode (bytes64 h.1 ++ bytes64 h.2)

/-! ### C117: the handshake -/

theorem commits_hs (rs : List Res) (c : Codec σ) :
    (rs.foldl commit c).hs = match rs.getLast? with
      | none => c.hs
      | some r => if getHeader r.headers "Sec-WebSocket-Accept".toList ≠ [] ∧ r.upgrade = true then .success else .wrong := by
  induction rs generalizing c with
  | nil => rfl
  | cons r rs ih =>
    rw [List.foldl_cons, ih]
    cases rs with
    | nil => rfl
    | cons x xs => rfl

theorem commits_inv (rs : List Res) (c : Codec σ) :
    (rs.foldl commit c).status = c.status ∧ (rs.foldl commit c).installed = c.installed := by
  induction rs generalizing c with
  | nil => exact ⟨rfl, rfl⟩
  | cons r rs ih => rw [List.foldl_cons]; exact ih (commit c r)

/-- **C117 (ready)**: for every response parser and every read of a connection in handshake, the open
callback is made exactly if llhttp reports no error and the last response completed has a non-empty
Sec-WebSocket-Accept and is an upgrade; a read that completes other responses, or fails, closes. -/
theorem c117_ready_iff (L : LL σ) (c : Codec σ) (hs : c.hs = .none) (data : List Byte) :
    let rs := (L.exec c.ll data).2.1
    let ok := (L.exec c.ll data).2.2
    ((handshake L c data).2 = [.opened] ↔ ok = true ∧ ∃ r, rs.getLast? = some r ∧
      getHeader r.headers "Sec-WebSocket-Accept".toList ≠ [] ∧ r.upgrade = true) ∧
    ((handshake L c data).2 = [.closed] ↔ ok = false ∨ ∃ r, rs.getLast? = some r ∧
      ¬ (getHeader r.headers "Sec-WebSocket-Accept".toList ≠ [] ∧ r.upgrade = true)) := by
  intro rs ok
  have h1 := commits_hs rs { c with ll := (L.exec c.ll data).1 }
  unfold handshake
  simp only [rs, ok] at *
  generalize (L.exec c.ll data).2.1.foldl commit { c with ll := (L.exec c.ll data).1 } = d at h1
  cases hok : (L.exec c.ll data).2.2 with
  | false => simp [closeCodec]
  | true =>
    simp only [Bool.true_eq_false, if_false]
    cases hl : (L.exec c.ll data).2.1.getLast? with
    | none =>
      rw [hl] at h1
      simp only [hs] at h1
      rw [h1]
      simp
    | some r =>
      rw [hl] at h1
      simp only at h1
      by_cases hg : getHeader r.headers "Sec-WebSocket-Accept".toList ≠ [] ∧ r.upgrade = true
      · rw [if_pos hg] at h1
        rw [h1]
        simp only [ready, true_and]
        constructor
        · simpa using hg
        · constructor
          · intro h; cases h
          · rintro (h | ⟨r', hr', hn⟩)
            · cases h
            · cases hr'; exact absurd hg hn
      · rw [if_neg hg] at h1
        rw [h1]
        simp only [closeCodec, true_and]
        constructor
        · constructor
          · intro h; cases h
          · rintro ⟨r', hr', hn⟩
            cases hr'
            exact absurd hn hg
        · simpa using hg

/-- **C117 (the accept value is not checked)**: violation.  RFC 6455 has the client fail the connection
unless Sec-WebSocket-Accept is the value derived from the key it sent; any non-empty value is taken. -/
theorem c117_accept_unchecked_violated (L : LL σ) (data : List Byte) (r : Res) (key : List UInt8) (hd : data ≠ [])
    (he : (L.exec L.start data).2 = ([r], true)) (hu : r.upgrade = true)
    (_hv : some (bytesOf (getHeader r.headers "Sec-WebSocket-Accept".toList)) ≠ Hash.Sha1.genAcceptKey (fun _ => 0#8) key)
    (hn : getHeader r.headers "Sec-WebSocket-Accept".toList ≠ []) :
    ∃ w, Client.init.run L [.connected, .event data false] = some w ∧ w.calls = [.opened] := by
  have h1 : (L.exec L.start data).2.1 = [r] := by rw [he]
  have h2 : (L.exec L.start data).2.2 = true := by rw [he]
  have h3 : handshake L (Codec.init L) data = ready (commit { Codec.init L with ll := (L.exec L.start data).1 } r) := by
    unfold handshake
    simp only [Codec.init, h1, h2, List.foldl_cons, List.foldl_nil, Bool.true_eq_false, if_false]
    have : (commit (⟨(L.exec L.start data).1, .none, .connecting, Parser.init, none, true⟩ : Codec σ) r).hs = .success := by
      unfold commit
      exact if_pos ⟨hn, hu⟩
    rw [this]
  have h4 : onEvent L (Codec.init L) data false = some (handshake L (Codec.init L) data) := by
    unfold onEvent onData
    rw [if_pos (by rfl), if_neg hd, if_pos (by simp [Codec.init])]
    simp
  rw [h3] at h4
  refine ⟨_, by
    rw [Client.run, Client.step]
    simp only [Client.init]
    rw [Client.run, Client.step]
    simp only []
    rw [h4]
    simp only [Client.run]
    rfl, rfl⟩

/-- The documented behaviour of llhttp: after a completed upgrade response `llhttp_execute` returns
HPE_PAUSED_UPGRADE, not HPE_OK. -/
def PausesOnUpgrade (L : LL σ) : Prop := ∀ s d, (∃ r ∈ (L.exec s d).2.1, r.upgrade = true) → (L.exec s d).2.2 = false

/-! ### Invariant of histories -/

/-- Callbacks that come from the connection. -/
def fromConn : Call → Bool
  | .opened | .message _ | .closed => true
  | .refused | .broken => false

/-- The callbacks that come from the connection are: nothing; or the opening and then messages and closings;
or closings only. -/
def Good (calls : List Call) : Prop :=
  (∃ rest, calls = .opened :: rest ∧ ∀ x ∈ rest, x = .closed ∨ ∃ m, x = .message m) ∨ ∀ x ∈ calls, x = .closed

/-- The invariant: `calls` are those of the connection. -/
structure Inv (c : Codec σ) (calls : List Call) : Prop where
  good : Good calls
  pre : c.installed = true → c.hs ≠ .success → calls = [] ∧ c.status = .connecting
  post : c.installed = true → c.hs = .success → ∃ ms : List Message, calls = .opened :: ms.map .message
  conn : c.installed = true ↔ c.status ≠ .closed
  up : c.status = .connected ↔ c.installed = true ∧ c.hs = .success

theorem good_close {calls : List Call} (h : Good calls) : Good (calls ++ [.closed]) := by
  rcases h with ⟨rest, h1, h2⟩ | h
  · refine Or.inl ⟨rest ++ [.closed], by rw [h1]; rfl, ?_⟩
    intro x hx
    rcases List.mem_append.mp hx with hx | hx
    · exact h2 x hx
    · exact Or.inl (List.mem_singleton.mp hx)
  · right
    intro x hx
    rcases List.mem_append.mp hx with hx | hx
    · exact h x hx
    · exact List.mem_singleton.mp hx

theorem inv_closed (c : Codec σ) (b : Bool) (calls : List Call) (h : Good calls) : Inv (closeCodec b c).1 calls :=
  ⟨h, fun h' => (by cases h'), fun h' => (by cases h'), by simp [closeCodec], by simp [closeCodec]⟩

theorem inv_init (L : LL σ) : Inv (Codec.init L) [] :=
  ⟨Or.inr (by simp), fun _ _ => ⟨rfl, rfl⟩, fun _ h => by simp [Codec.init] at h, by simp [Codec.init], by simp [Codec.init]⟩

theorem inv_handshake (L : LL σ) (c : Codec σ) (hi : c.installed = true) (hs : c.hs ≠ .success) (h : Inv c [])
    (data : List Byte) : Inv (handshake L c data).1 (handshake L c data).2 := by
  obtain ⟨a1, a2⟩ := commits_inv (L.exec c.ll data).2.1 { c with ll := (L.exec c.ll data).1 }
  have a3 : c.status = .connecting := (h.pre hi hs).2
  unfold handshake
  simp only []
  simp only [] at a1 a2
  generalize (L.exec c.ll data).2.1.foldl commit { c with ll := (L.exec c.ll data).1 } = d at a1 a2
  rw [a3] at a1
  rw [hi] at a2
  split
  · exact inv_closed d false _ (Or.inr (by simp [closeCodec]))
  · split
    · rename_i hd
      refine ⟨Or.inl ⟨[], rfl, by simp⟩, fun _ h' => absurd hd h', fun _ _ => ⟨[], rfl⟩, ?_, ?_⟩
      · simp [ready, a1, a2]
      · simp [ready, a1, a2, hd]
    · exact inv_closed d false _ (Or.inr (by simp [closeCodec]))
    · rename_i hd
      refine ⟨Or.inr (by simp), fun _ _ => ⟨rfl, a1⟩, fun _ h' => (by rw [hd] at h'; cases h'), ?_, ?_⟩
      · simp [a1, a2]
      · simp [a1, hd]

theorem inv_effects (outs : List Out) (s : Codec σ × List Call) (calls : List Call) (rest0 : List Call)
    (h0 : calls ++ s.2 = .opened :: rest0) (hr : ∀ x ∈ rest0, x = .closed ∨ ∃ m, x = .message m)
    (h : Inv s.1 (calls ++ s.2)) : Inv (outs.foldl effect s).1 (calls ++ (outs.foldl effect s).2) := by
  induction outs generalizing s rest0 with
  | nil => exact h
  | cons o outs ih =>
    rw [List.foldl_cons]
    cases o with
    | deliver m =>
      have e : calls ++ (effect s (.deliver m)).2 = .opened :: (rest0 ++ [.message m]) := by
        show calls ++ (s.2 ++ [.message m]) = _
        rw [← List.append_assoc, h0]; rfl
      have hr' : ∀ x ∈ rest0 ++ [Call.message m], x = .closed ∨ ∃ m, x = .message m := by
        intro x hx
        rcases List.mem_append.mp hx with hx | hx
        · exact hr x hx
        · exact Or.inr ⟨m, List.mem_singleton.mp hx⟩
      refine ih _ (rest0 ++ [.message m]) e hr' ?_
      rw [e]
      refine ⟨Or.inl ⟨_, rfl, hr'⟩, ?_, ?_, h.conn, h.up⟩
      · intro hi hs
        have := (h.pre hi hs).1
        rw [h0] at this
        cases this
      · intro hi hs
        obtain ⟨ms, hm⟩ := h.post hi hs
        refine ⟨ms ++ [m], ?_⟩
        rw [h0] at hm
        simp only [List.cons.injEq, true_and] at hm
        rw [hm]
        simp
    | sendPong => exact ih s rest0 h0 hr h
    | sendClose => exact ih s rest0 h0 hr h
    | closeService =>
      have e : calls ++ (effect s .closeService).2 = .opened :: (rest0 ++ [.closed]) := by
        show calls ++ (s.2 ++ [.closed]) = _
        rw [← List.append_assoc, h0]; rfl
      have hr' : ∀ x ∈ rest0 ++ [Call.closed], x = .closed ∨ ∃ m, x = .message m := by
        intro x hx
        rcases List.mem_append.mp hx with hx | hx
        · exact hr x hx
        · exact Or.inl (List.mem_singleton.mp hx)
      refine ih _ (rest0 ++ [.closed]) e hr' ?_
      rw [e]
      exact inv_closed s.1 false _ (Or.inl ⟨_, rfl, hr'⟩)

theorem inv_onEvent (L : LL σ) (c : Codec σ) (calls : List Call) (h : Inv c calls) (data : List Byte) (failed : Bool)
    (c' : Codec σ) (new : List Call) (he : onEvent L c data failed = some (c', new)) : Inv c' (calls ++ new) := by
  unfold onEvent at he
  by_cases hi : c.installed = true
  · rw [if_pos hi] at he
    have key : ∀ c1 n1, (if data = [] then some (c, []) else onData L c data) = some (c1, n1) → Inv c1 (calls ++ n1) := by
      intro c1 n1 h1
      by_cases hd : data = []
      · rw [if_pos hd] at h1
        cases h1
        rw [List.append_nil]
        exact h
      · rw [if_neg hd] at h1
        unfold onData at h1
        by_cases hs : c.hs = .success
        · rw [if_neg (by simpa using hs)] at h1
          cases hr : receive c.parser c.cur [data] with
          | none => rw [hr] at h1; cases h1
          | some t =>
            obtain ⟨p, cur, outs⟩ := t
            rw [hr] at h1
            simp only [Option.some.injEq] at h1
            obtain ⟨ms, hm⟩ := h.post hi hs
            have := inv_effects outs ({ c with parser := p, cur := cur }, []) calls (ms.map .message)
              (by rw [List.append_nil]; exact hm)
              (by
                intro x hx
                obtain ⟨m, _, rfl⟩ := List.mem_map.mp hx
                exact Or.inr ⟨m, rfl⟩)
              (by rw [List.append_nil]; exact ⟨h.good, h.pre, h.post, h.conn, h.up⟩)
            rw [h1] at this
            exact this
        · rw [if_pos hs] at h1
          simp only [Option.some.injEq] at h1
          have hc := (h.pre hi hs).1
          subst hc
          have := inv_handshake L c hi hs h data
          rw [h1] at this
          exact this
    cases ho : (if data = [] then some (c, []) else onData L c data) with
    | none => rw [ho] at he; cases he
    | some t =>
      obtain ⟨c1, n1⟩ := t
      have hk := key c1 n1 ho
      rw [ho] at he
      simp only [Option.some.injEq] at he
      cases failed with
      | false => rw [if_neg (by decide)] at he; cases he; exact hk
      | true =>
        rw [if_pos rfl] at he
        cases he
        rw [← List.append_assoc]
        exact inv_closed c1 false _ (good_close hk.good)
  · rw [if_neg hi] at he
    cases he
    rw [List.append_nil]
    exact h

/-- The invariant of the whole client. -/
def WInv (w : Client σ) : Prop :=
  match w.transport with
  | none => w.calls.filter fromConn = []
  | some c => Inv c (w.calls.filter fromConn)

theorem filter_all (l : List Call) (h : ∀ x ∈ l, x = .opened ∨ x = .closed ∨ ∃ m, x = .message m) : l.filter fromConn = l := by
  rw [List.filter_eq_self]
  intro x hx
  rcases h x hx with rfl | rfl | ⟨m, rfl⟩ <;> rfl

theorem effects_from (outs : List Out) (s : Codec σ × List Call)
    (h : ∀ x ∈ s.2, x = Call.opened ∨ x = .closed ∨ ∃ m, x = .message m) :
    ∀ x ∈ (outs.foldl effect s).2, x = Call.opened ∨ x = .closed ∨ ∃ m, x = .message m := by
  induction outs generalizing s with
  | nil => exact h
  | cons o outs ih =>
    rw [List.foldl_cons]
    refine ih _ ?_
    cases o with
    | deliver m =>
      intro x hx
      rcases List.mem_append.mp hx with hx | hx
      · exact h x hx
      · exact Or.inr (Or.inr ⟨m, List.mem_singleton.mp hx⟩)
    | sendPong => exact h
    | sendClose => exact h
    | closeService =>
      intro x hx
      rcases List.mem_append.mp hx with hx | hx
      · exact h x hx
      · exact Or.inr (Or.inl (List.mem_singleton.mp hx))

theorem onEvent_from (L : LL σ) (c : Codec σ) (data : List Byte) (failed : Bool) (c' : Codec σ) (new : List Call)
    (he : onEvent L c data failed = some (c', new)) : ∀ x ∈ new, x = Call.opened ∨ x = .closed ∨ ∃ m, x = .message m := by
  unfold onEvent at he
  by_cases hi : c.installed = true
  · rw [if_pos hi] at he
    have key : ∀ c1 n1, (if data = [] then some (c, []) else onData L c data) = some (c1, n1) →
        ∀ x ∈ n1, x = Call.opened ∨ x = .closed ∨ ∃ m, x = .message m := by
      intro c1 n1 h1
      by_cases hd : data = []
      · rw [if_pos hd] at h1
        cases h1
        simp
      · rw [if_neg hd] at h1
        unfold onData at h1
        by_cases hs : c.hs = .success
        · rw [if_neg (by simpa using hs)] at h1
          cases hr : receive c.parser c.cur [data] with
          | none => rw [hr] at h1; cases h1
          | some t =>
            obtain ⟨p, cur, outs⟩ := t
            rw [hr] at h1
            simp only [Option.some.injEq] at h1
            have := effects_from outs ({ c with parser := p, cur := cur }, []) (by simp)
            rw [h1] at this
            exact this
        · rw [if_pos hs] at h1
          simp only [Option.some.injEq] at h1
          have h2 : (handshake L c data).2 = n1 := by rw [h1]
          rw [← h2]
          unfold handshake
          simp only []
          split
          · simp [closeCodec]
          · split <;> simp [closeCodec, ready]
    cases ho : (if data = [] then some (c, []) else onData L c data) with
    | none => rw [ho] at he; cases he
    | some t =>
      obtain ⟨c1, n1⟩ := t
      have hk := key c1 n1 ho
      rw [ho] at he
      simp only [Option.some.injEq] at he
      cases failed with
      | false => rw [if_neg (by decide)] at he; cases he; exact hk
      | true =>
        rw [if_pos rfl] at he
        cases he
        intro x hx
        rcases List.mem_append.mp hx with hx | hx
        · exact hk x hx
        · exact Or.inr (Or.inl (List.mem_singleton.mp hx))
  · rw [if_neg hi] at he
    cases he
    simp

theorem winv_send (w : Client σ) (h : WInv w) (m : Message) (ok : Bool) : WInv (w.send m ok) := by
  unfold Client.send
  unfold WInv at h
  split
  · rename_i ht
    rw [ht] at h
    unfold WInv
    simp only [ht]
    rw [List.filter_append, h]
    rfl
  · rename_i c ht
    rw [ht] at h
    simp only at h
    split
    · unfold WInv
      simp only [ht]
      rw [List.filter_append]
      exact (by simpa [fromConn] using h)
    · split
      · unfold WInv; simp only [ht]; exact h
      · unfold WInv
        simp only []
        have : (w.calls ++ (closeCodec true c).2 ++ [Call.broken]).filter fromConn = w.calls.filter fromConn := by
          simp [closeCodec, fromConn]
        rw [this]
        exact inv_closed c true _ h.good

theorem winv_step (L : LL σ) (w w' : Client σ) (i : In) (h : WInv w) (hs : w.step L i = some w') : WInv w' := by
  cases i with
  | connectFailed =>
    cases hs
    unfold WInv at h ⊢
    simp only []
    have : (w.calls ++ [Call.refused]).filter fromConn = w.calls.filter fromConn := by simp [fromConn]
    rw [this]
    exact h
  | connected =>
    unfold Client.step at hs
    simp only [] at hs
    cases ht : w.transport with
    | some c => rw [ht] at hs; cases hs
    | none =>
      rw [ht] at hs
      cases hs
      unfold WInv at h ⊢
      rw [ht] at h
      simp only [] at h ⊢
      rw [h]
      exact inv_init L
  | event data failed =>
    unfold Client.step at hs
    simp only [] at hs
    cases ht : w.transport with
    | none => rw [ht] at hs; cases hs; exact h
    | some c =>
      rw [ht] at hs
      simp only [] at hs
      cases he : onEvent L c data failed with
      | none => rw [he] at hs; cases hs
      | some t =>
        obtain ⟨c', new⟩ := t
        rw [he] at hs
        cases hs
        unfold WInv at h ⊢
        rw [ht] at h
        simp only [] at h ⊢
        rw [List.filter_append, filter_all new (onEvent_from L c data failed c' new he)]
        exact inv_onEvent L c _ h data failed c' new he
  | send m ok => cases hs; exact winv_send w h m ok

theorem winv_run (L : LL σ) (is : List In) (w w' : Client σ) (h : WInv w) (hr : w.run L is = some w') : WInv w' := by
  induction is generalizing w with
  | nil => cases hr; exact h
  | cons i is ih =>
    rw [Client.run] at hr
    cases hs : w.step L i with
    | none => rw [hs] at hr; cases hr
    | some d => rw [hs] at hr; exact ih d (winv_step L w d i h hs) hr

theorem winv_init : WInv (Client.init : Client σ) := by
  unfold WInv; rfl

/-- **C117 (callbacks)**: for every response parser and every history of a client, the open, message and
close callbacks are: none; or one opening first, then messages and closings; or closings only.  No message
comes before the opening, and the opening comes at most once. -/
theorem c117_order (L : LL σ) (is : List In) (w : Client σ) (h : Client.init.run L is = some w) :
    Good (w.calls.filter fromConn) := by
  have hw := winv_run L is _ w winv_init h
  unfold WInv at hw
  cases ht : w.transport with
  | none => rw [ht] at hw; simp only [] at hw; rw [hw]; exact Or.inr (by simp)
  | some c => rw [ht] at hw; exact hw.good

/-! ### C118: Send -/

/-- The frames given to `Send`. -/
def sends : List In → List Message
  | [] => []
  | .send m _ :: is => m :: sends is
  | _ :: is => sends is

theorem step_send_count (L : LL σ) (w w' : Client σ) (i : In) (hs : w.step L i = some w') :
    w'.wire.length + w'.calls.count .broken = w.wire.length + w.calls.count .broken + (sends [i]).length ∧
    ∃ l, w'.wire = w.wire ++ l ∧ l.Sublist (sends [i]) := by
  cases i with
  | connectFailed => cases hs; exact ⟨by simp [sends], [], by simp, by simp [sends]⟩
  | connected =>
    unfold Client.step at hs
    simp only [] at hs
    split at hs
    · cases hs; exact ⟨rfl, [], by simp, by simp [sends]⟩
    · cases hs
  | event data failed =>
    unfold Client.step at hs
    simp only [] at hs
    split at hs
    · cases hs; exact ⟨rfl, [], by simp, by simp [sends]⟩
    · rename_i c ht
      cases he : onEvent L c data failed with
      | none => rw [he] at hs; cases hs
      | some t =>
        obtain ⟨c', new⟩ := t
        rw [he] at hs
        cases hs
        have : new.count .broken = 0 := by
          rw [List.count_eq_zero]
          intro hm
          rcases onEvent_from L c data failed c' new he _ hm with h | h | ⟨m, h⟩ <;> cases h
        exact ⟨by simp [sends, this], [], by simp, by simp [sends]⟩
  | send m ok =>
    cases hs
    unfold Client.send
    split
    · exact ⟨by simp [sends]; omega, [], by simp, by simp⟩
    · split
      · exact ⟨by simp [sends]; omega, [], by simp, by simp⟩
      · split
        · exact ⟨by simp [sends]; omega, [m], rfl, by simp [sends]⟩
        · exact ⟨by simp [sends, closeCodec]; omega, [], by simp, by simp⟩

/-- **C118 (every frame is written or reported)**: for every history, the frames written to the connection
are among those given to `Send`, in the order they were given, and their number and the number of kConnBroken
callbacks add up to the number of `Send`s. -/
theorem c118_accounted (L : LL σ) (is : List In) (w : Client σ) (h : Client.init.run L is = some w) :
    w.wire.Sublist (sends is) ∧ w.wire.length + w.calls.count .broken = (sends is).length := by
  have app : ∀ a b : List In, sends (a ++ b) = sends a ++ sends b := by
    intro a
    induction a with
    | nil => intro b; rfl
    | cons i a ih => intro b; cases i <;> simp [sends, ih]
  have : ∀ (is : List In) (v : Client σ), v.run L is = some w →
      w.wire.length + w.calls.count .broken = v.wire.length + v.calls.count .broken + (sends is).length ∧
      ∃ l, w.wire = v.wire ++ l ∧ l.Sublist (sends is) := by
    intro is
    induction is with
    | nil => intro v hr; cases hr; exact ⟨rfl, [], by simp, by simp⟩
    | cons i is ih =>
      intro v hr
      rw [Client.run] at hr
      cases hs : v.step L i with
      | none => rw [hs] at hr; cases hr
      | some d =>
        rw [hs] at hr
        obtain ⟨a1, l1, a2, a3⟩ := step_send_count L v d i hs
        obtain ⟨b1, l2, b2, b3⟩ := ih d hr
        have e : sends (i :: is) = sends [i] ++ sends is := app [i] is
        rw [e]
        refine ⟨by rw [List.length_append]; omega, l1 ++ l2, by rw [b2, a2, List.append_assoc], a3.append b3⟩
  obtain ⟨h1, l, h2, h3⟩ := this is _ h
  simp only [Client.init, List.nil_append] at h1 h2
  rw [h2]
  refine ⟨h3, ?_⟩
  rw [← h2]
  simpa using h1

/-- **C118 (only an open connection takes frames)**: in every reachable state `Send` writes a frame exactly if
the connection was opened and is not closed; otherwise it reports kConnBroken and changes nothing else. -/
theorem c118_send (L : LL σ) (is : List In) (w : Client σ) (h : Client.init.run L is = some w) (m : Message) :
    ((w.send m true).wire = w.wire ++ [m] ↔ ∃ c, w.transport = some c ∧ c.installed = true ∧ c.hs = .success) ∧
    ((w.send m true).wire ≠ w.wire ++ [m] → w.send m true = { w with calls := w.calls ++ [.broken] }) := by
  have hw := winv_run L is _ w winv_init h
  unfold WInv at hw
  unfold Client.send
  cases ht : w.transport with
  | none => simp
  | some c =>
    rw [ht] at hw
    have hup := hw.up
    simp only [Option.some.injEq, exists_eq_left', ← hup]
    by_cases hc : c.status = .connected
    · simp [hc]
    · simp [hc]

/-- **C118 (a failed Send is final)**: once a write has failed, the connection makes no callback any more and
every later `Send` reports kConnBroken. -/
theorem c118_failed_final (L : LL σ) (w : Client σ) (c : Codec σ) (ht : w.transport = some c) (hc : c.status = .connected)
    (m : Message) (is : List In) (w' : Client σ) (hr : (w.send m false).run L is = some w') :
    w'.wire = w.wire ∧ w'.calls.filter fromConn = w.calls.filter fromConn := by
  have key : ∀ (is : List In) (v : Client σ) (d : Codec σ), v.transport = some d → d.status = .closed → d.installed = false →
      v.run L is = some w' → w'.wire = v.wire ∧ w'.calls.filter fromConn = v.calls.filter fromConn := by
    intro is
    induction is with
    | nil => intro v d _ _ _ hr; cases hr; exact ⟨rfl, rfl⟩
    | cons i is ih =>
      intro v d h1 h2 h3 hr
      rw [Client.run] at hr
      cases hs : v.step L i with
      | none => rw [hs] at hr; cases hr
      | some v' =>
        rw [hs] at hr
        simp only [] at hr
        cases i with
        | connectFailed =>
          have e : v' = { v with calls := v.calls ++ [.refused] } := by cases hs; rfl
          subst e
          obtain ⟨a, b⟩ := ih { v with calls := v.calls ++ [.refused] } d h1 h2 h3 hr
          exact ⟨a, by rw [b]; simp [fromConn]⟩
        | connected => unfold Client.step at hs; simp [h1] at hs
        | event data failed =>
          unfold Client.step at hs
          simp only [h1, onEvent, h3, Bool.false_eq_true, if_false, List.append_nil, Option.some.injEq] at hs
          subst hs
          exact ih ⟨some d, v.calls, v.wire⟩ d rfl h2 h3 hr
        | send m' ok =>
          have e : v' = ⟨some d, v.calls ++ [.broken], v.wire⟩ := by
            unfold Client.step Client.send at hs
            simp only [h1, h2, ne_eq, reduceCtorEq, not_false_eq_true, if_true, Option.some.injEq] at hs
            exact hs.symm
          subst e
          obtain ⟨a, b⟩ := ih ⟨some d, v.calls ++ [.broken], v.wire⟩ d rfl h2 h3 hr
          exact ⟨a, by rw [b]; simp [fromConn]⟩
  have e : w.send m false = { w with transport := some (closeCodec true c).1, calls := w.calls ++ [] ++ [.broken] } := by
    unfold Client.send
    rw [ht]
    simp [hc, closeCodec]
  rw [e] at hr
  obtain ⟨a, b⟩ := key is _ _ rfl rfl rfl hr
  exact ⟨a, by rw [b]; simp [fromConn]⟩

/-- **C118 (no close callback)**: violation.  A user who releases resources in the close callback never gets
it for a connection whose write failed, whatever happens later. -/
theorem c118_no_close_violated (L : LL σ) (w : Client σ) (c : Codec σ) (ht : w.transport = some c)
    (hc : c.status = .connected) (ho : w.calls = [.opened]) (m : Message) (is : List In) (w' : Client σ)
    (hr : (w.send m false).run L is = some w') : .closed ∉ w'.calls := by
  intro hm
  have h1 := (c118_failed_final L w c ht hc m is w' hr).2
  have h2 : Call.closed ∈ w'.calls.filter fromConn := List.mem_filter.mpr ⟨hm, rfl⟩
  rw [h1, ho] at h2
  simp [fromConn] at h2

/-! ### C117 with llhttp -/

/-- **C117 (no connection ever opens)**: violation.  With llhttp as documented, no history of a client makes
the open callback, whatever the server answers, and no frame is ever written. -/
theorem c117_llhttp_violated (L : LL σ) (hL : PausesOnUpgrade L) (is : List In) (w : Client σ)
    (h : Client.init.run L is = some w) : .opened ∉ w.calls ∧ w.wire = [] := by
  have hs : ∀ (c : Codec σ) (data : List Byte), c.hs ≠ .success → .opened ∉ (handshake L c data).2 ∧
      ((handshake L c data).1.installed = true → (handshake L c data).1.hs ≠ .success ∧ (handshake L c data).1.status = c.status) := by
    intro c data hc
    have a2 := commits_hs (L.exec c.ll data).2.1 { c with ll := (L.exec c.ll data).1 }
    have a3 := (commits_inv (L.exec c.ll data).2.1 { c with ll := (L.exec c.ll data).1 }).1
    have key : (L.exec c.ll data).2.2 = true →
        ((L.exec c.ll data).2.1.foldl commit { c with ll := (L.exec c.ll data).1 }).hs ≠ .success := by
      intro hok
      rw [a2]
      cases hl : (L.exec c.ll data).2.1.getLast? with
      | none => exact hc
      | some r =>
        have hm := List.mem_of_getLast? hl
        have hw : r.upgrade = false := by
          cases hb : r.upgrade with
          | false => rfl
          | true =>
            have := hL c.ll data ⟨r, hm, hb⟩
            rw [hok] at this
            cases this
        simp [hw]
    unfold handshake
    simp only []
    simp only [] at a3
    generalize (L.exec c.ll data).2.1.foldl commit { c with ll := (L.exec c.ll data).1 } = d at a3 key
    split
    · simp [closeCodec]
    · rename_i hok
      have hk := key (by simpa using hok)
      split
      · rename_i hd; exact absurd hd hk
      · simp [closeCodec]
      · exact ⟨by simp, fun _ => ⟨hk, a3⟩⟩
  have step : ∀ (v v' : Client σ) (i : In), WInv v → (.opened ∉ v.calls ∧ v.wire = [] ∧ ∀ c, v.transport = some c → c.installed = true → c.hs ≠ .success) →
      v.step L i = some v' →
      (.opened ∉ v'.calls ∧ v'.wire = [] ∧ ∀ c, v'.transport = some c → c.installed = true → c.hs ≠ .success) := by
    intro v v' i hwi ⟨i1, i2, i3⟩ hst
    cases i with
    | connectFailed => cases hst; exact ⟨by simpa using i1, i2, i3⟩
    | connected =>
      unfold Client.step at hst
      simp only [] at hst
      split at hst
      · cases hst
        refine ⟨i1, i2, ?_⟩
        intro c hc _
        cases hc
        simp [Codec.init]
      · cases hst
    | event data failed =>
      unfold Client.step at hst
      simp only [] at hst
      cases ht : v.transport with
      | none => rw [ht] at hst; cases hst; exact ⟨i1, i2, i3⟩
      | some c =>
        rw [ht] at hst
        simp only [] at hst
        by_cases hin : c.installed = true
        · have hns := i3 c ht hin
          obtain ⟨k1, k2⟩ := hs c data hns
          unfold onEvent at hst
          rw [if_pos hin] at hst
          have e1 : onData L c data = some (handshake L c data) := by unfold onData; rw [if_pos hns]
          by_cases hd : data = []
          · rw [if_pos hd] at hst
            cases failed <;> cases hst
            · exact ⟨by simpa using i1, i2, fun c' hc' hi' => by cases hc'; exact hns⟩
            · exact ⟨by simpa [closeCodec] using i1, i2, fun c' hc' hi' => by cases hc'; cases hi'⟩
          · rw [if_neg hd, e1] at hst
            cases failed <;> cases hst
            · refine ⟨?_, i2, fun c' hc' hi' => by cases hc'; exact (k2 hi').1⟩
              intro hm
              rcases List.mem_append.mp hm with hm | hm
              · exact i1 hm
              · exact k1 hm
            · refine ⟨?_, i2, fun c' hc' hi' => by cases hc'; cases hi'⟩
              intro hm
              rcases List.mem_append.mp hm with hm | hm
              · exact i1 hm
              · rcases List.mem_append.mp hm with hm | hm
                · exact k1 hm
                · simp [closeCodec] at hm
        · unfold onEvent at hst
          rw [if_neg hin] at hst
          cases hst
          exact ⟨by simpa using i1, i2, fun c' hc' hi' => by cases hc'; exact absurd hi' hin⟩
    | send m ok =>
      cases hst
      unfold Client.send
      cases ht : v.transport with
      | none => exact ⟨by simpa using i1, i2, fun c' hc' => by simp at hc'⟩
      | some c =>
        have hne : c.status ≠ .connected := by
          intro hc
          unfold WInv at hwi
          rw [ht] at hwi
          obtain ⟨u1, u2⟩ := hwi.up.mp hc
          exact i3 c ht u1 u2
        simp only [if_pos hne]
        exact ⟨by simpa using i1, i2, fun c' hc' hi' => i3 c' (by simpa [ht] using hc') hi'⟩
  have run : ∀ (is : List In) (v : Client σ), WInv v →
      (.opened ∉ v.calls ∧ v.wire = [] ∧ ∀ c, v.transport = some c → c.installed = true → c.hs ≠ .success) →
      v.run L is = some w → .opened ∉ w.calls ∧ w.wire = [] := by
    intro is
    induction is with
    | nil => intro v _ hv hr; cases hr; exact ⟨hv.1, hv.2.1⟩
    | cons i is ih =>
      intro v hwi hv hr
      rw [Client.run] at hr
      cases hst : v.step L i with
      | none => rw [hst] at hr; cases hr
      | some d => rw [hst] at hr; exact ih d (winv_step L v d i hwi hst) (step v d i hwi hv hst) hr
  exact run is _ winv_init ⟨by simp [Client.init], rfl, fun c hc => by simp [Client.init] at hc⟩ h

/-! ### The key -/

theorem bytes64_length (x : BitVec 64) : (bytes64 x).length = 8 := by simp [bytes64]

theorem bytes64_inj (x y : BitVec 64) (h : bytes64 x = bytes64 y) : x = y := by
  refine BitVec.eq_of_getLsbD_eq ?_
  intro i hi
  have h1 : (bytes64 x)[i / 8]? = (bytes64 y)[i / 8]? := by rw [h]
  have hr : (List.range 8)[i / 8]? = some (i / 8) := by
    rw [List.getElem?_range (by omega)]
  unfold bytes64 at h1
  rw [List.getElem?_map, List.getElem?_map, hr] at h1
  simp only [Option.map_some, Option.some.injEq] at h1
  have h2 := congrArg (fun b : UInt8 => b.toBitVec.getLsbD (i % 8)) h1
  simp only [BitVec.getLsbD_extractLsb'] at h2
  have h3 : i % 8 < 8 := Nat.mod_lt _ (by decide)
  simpa [h3, Nat.div_add_mod] using h2

/-- **C117 (the key)**: for every random number the key is the base64 form of 16 bytes, 24 characters, as RFC
6455 wants it; and different random numbers give different keys. -/
theorem c117_key (mem mem' : Nat → BitVec 8) (x y : List UInt8) (hx : x.length = 8) (hy : y.length = 8)
    (hm : Hash.Murmur.Holds mem x) (hm' : Hash.Murmur.Holds mem' y) :
    (∃ k, secKey mem = some k ∧ k.length = 24 ∧ ∃ b : List UInt8, b.length = 16 ∧ k = Base64.Spec.encode b) ∧
    (x ≠ y → secKey mem ≠ secKey mem') := by
  constructor
  · unfold secKey
    simp only []
    generalize hb : bytes64 (Hash.Murmur.x64_128 mem 8 0xf03c#32).1 ++ bytes64 (Hash.Murmur.x64_128 mem 8 0xf03c#32).2 = b
    have hl : b.length = 16 := by rw [← hb, List.length_append, bytes64_length, bytes64_length]
    obtain ⟨e1, e2⟩ := Base64.c11_encode_length b
    exact ⟨_, e2, by rw [e1, hl], b, hl, Base64.c11_encode_rfc b⟩
  · intro hne heq
    have hdiff := (Hash.Murmur.c114_short mem mem' x y hm hm' (by rw [hx, hy]) 0xf03c#32 hne).2 (by omega)
    rw [hx, hy] at hdiff
    apply hdiff
    unfold secKey at heq
    simp only [] at heq
    generalize Hash.Murmur.x64_128 mem 8 0xf03c#32 = a at heq
    generalize Hash.Murmur.x64_128 mem' 8 0xf03c#32 = b at heq
    obtain ⟨e1, r1, r2⟩ := Base64.c11_roundtrip [0, 0, 0, 0] rfl (bytes64 a.1 ++ bytes64 a.2)
    obtain ⟨e2, s1, s2⟩ := Base64.c11_roundtrip [0, 0, 0, 0] rfl (bytes64 b.1 ++ bytes64 b.2)
    rw [r1, s1] at heq
    have he : e1 = e2 := by simpa using heq
    subst he
    rw [r2] at s2
    have hbytes : bytes64 a.1 ++ bytes64 a.2 = bytes64 b.1 ++ bytes64 b.2 := by simpa using s2
    obtain ⟨g1, g2⟩ := List.append_inj hbytes (by rw [bytes64_length, bytes64_length])
    exact Prod.ext (bytes64_inj _ _ g1) (bytes64_inj _ _ g2)

/-! ### Examples -/

def demoRes : Res := ⟨[("sec-websocket-accept".toList, "anything".toList)], true⟩
def demoLL (pause : Bool) : LL Bool := ⟨false, fun s _ => (true, if s then [] else [demoRes], s || !pause)⟩

/-- The documented llhttp exists in the model. -/
example : PausesOnUpgrade (demoLL true) := by
  intro s d h
  cases s with
  | false => rfl
  | true => obtain ⟨r, hr, _⟩ := h; simp [demoLL] at hr

/-- A whole history: send too early, open, send, receive, write failure, send again. -/
example : (Client.init.run (demoLL false) [.send ⟨1, []⟩ true, .connected, .event [72] false, .send ⟨1, [104]⟩ true,
      .event [0x81, 0x01, 0x68] false, .send ⟨1, [105]⟩ false, .event [0x81, 0x01, 0x68] true, .send ⟨1, []⟩ true]).map
      (fun w => (w.calls, w.wire)) =
    some ([.broken, .opened, .message ⟨1, [0x68]⟩, .broken, .broken], [⟨1, [104]⟩]) := by
  decide +kernel

/-- The unchecked accept value: its hypotheses are met. -/
example : ((demoLL false).exec (demoLL false).start [72]).2 = ([demoRes], true) ∧
    getHeader demoRes.headers "Sec-WebSocket-Accept".toList ≠ [] ∧
    some (bytesOf (getHeader demoRes.headers "Sec-WebSocket-Accept".toList)) ≠
      Hash.Sha1.genAcceptKey (fun _ => 0#8) [] := by
  refine ⟨rfl, by decide +kernel, by decide +kernel⟩

end Ltio.WebSocket.WsClient
