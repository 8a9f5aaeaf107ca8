import Verif.Http.ConnectionProps
import Verif.Net.EndToEndTls
import Verif.Net.EndToEndCodecs
import Verif.WebSocket.ServerProps
/-
HTTP/1 and WebSocket connections over TLS — the schemes https and wss (net_io/codec/codec_factory.cc:88-140) — (C172, C173, C174): the codec
services of Connection.lean and EndToEndCodecs.lean over the TLS channels of EndToEndTls.lean.  Both codec services write a message into the
channel's output buffer and flush it, at once (ws_codec_service.cc:167-202: operation `send`) or in a task posted to the loop
(http_codec_service.cc:47-50, 130-183: operations `queue` and `flush`; the theorems are for histories with any of these), so what waits for the socket waits in
that buffer.
-/
namespace Ltio.Http.ConnTls
open Ltio.Text Ltio.Http.Conn Ltio.Net.Ssl Ltio.Net.Ssl.E2E
open Ltio.Net.E2E (Reads Prompt Codec wireOf)

section
variable {Zg Zd : Gzip.Zlib} {host : Str} {τ : Type} (t : Bool → Tok τ) (ht : ∀ i, (t i).Meets i)

include ht in
theorem run_ok {ops : List (POp M)} (hok : OkOpsOf (Ok Zg Zd host) ops) : ∃ p : Pair (τ × HSt) Got M,
    (Pair.init (codecs t (unzip Zg Zd))).run (codecs t (unzip Zg Zd)) (pieces Zg Zd host) ops = some p ∧
    (∀ i m, m ∈ (p.e i).sent → Ok Zg Zd host i m) ∧ ∀ i, (p.e i).got <+: (p.e (!i)).sent.flatMap (handed Zg Zd host i) := by
  obtain ⟨p, e, h⟩ := PInv.run (readers (Zg := Zg) (Zd := Zd) (host := host) t ht) (PInv.init (readers t ht)) hok
  obtain ⟨p', e', h'⟩ := safe_and_prefix (readers (Zg := Zg) (Zd := Zd) (host := host) t ht) hok
  rw [e] at e'
  simp only [Option.some.injEq] at e'
  subst e'
  exact ⟨p, e, fun i m hm => (h.ends i).oks m hm, h'⟩

include ht in
/-- **C173.** At each end of an HTTPS connection the messages handed on are those the other end sent, in that order, up to some point, each with its
method, URL or status, version and headers, and with a body that is the sent one, or, if the library compressed it with gzip, begins with the sent
one — whatever is sent and when, whatever TLS answers, however the bytes are delivered, whatever errors occur. -/
theorem c173_prefix (ops : List (POp M)) (hok : OkOpsOf (Ok Zg Zd host) ops) : ∃ p : Pair (τ × HSt) Got M,
    (Pair.init (codecs t (unzip Zg Zd))).run (codecs t (unzip Zg Zd)) (pieces Zg Zd host) ops = some p ∧
    ∀ i, ∃ ms, ms <+: (p.e (!i)).sent ∧ List.Forall₂ Arrived ms (p.e i).got := by
  obtain ⟨p, e, h1, h2⟩ := run_ok t ht hok
  refine ⟨p, e, fun i => ?_⟩
  obtain ⟨ms, m1, m2⟩ := forall2_prefix (handed_full (h1 (!i))) (h2 i)
  exact ⟨ms, m1, m2.imp (fun _ _ h => h.1)⟩

include ht in
/-- **C173.** All of them have been handed on once the sender's buffer is empty, the network has delivered and the receiver has read, if the
sender has seen no error. -/
theorem c173_complete (ops : List (POp M)) (hok : OkOpsOf (Ok Zg Zd host) ops) (p : Pair (τ × HSt) Got M)
    (hrun : (Pair.init (codecs t (unzip Zg Zd))).run (codecs t (unzip Zg Zd)) (pieces Zg Zd host) ops = some p) (i : Bool)
    (h1 : (p.e (!i)).broken = false) (h2 : (p.e (!i)).c.ch.out.asString = []) (h3 : p.net (!i) = (p.e (!i)).c.ch.sock.length)
    (h4 : (p.e i).c.ch.peer = []) : List.Forall₂ Arrived (p.e (!i)).sent (p.e i).got := by
  obtain ⟨p', e, k1, _⟩ := run_ok (Zg := Zg) (Zd := Zd) (host := host) t ht hok
  rw [hrun] at e
  simp only [Option.some.injEq] at e
  subst e
  rw [complete (readers (Zg := Zg) (Zd := Zd) (host := host) t ht) hok hrun i (readers_prompt t ht i) h1 h2 h3 h4]
  exact (handed_full (k1 (!i))).imp (fun _ _ h => h.1)

include ht in
/-- **C172.** As long as neither end has seen an error, one write event, the network and one read event bring over all that has been sent.  Missing:
the case that what TLS has begun to write is no longer where it was in the output buffer, see `c172_second_message_violated`. -/
theorem c172_progress_partial (ops : List (POp M)) (hok : OkOpsOf (Ok Zg Zd host) ops) (p : Pair (τ × HSt) Got M)
    (hrun : (Pair.init (codecs t (unzip Zg Zd))).run (codecs t (unzip Zg Zd)) (pieces Zg Zd host) ops = some p) (i : Bool)
    (hb : ∀ j, (p.e j).broken = false) (hr : Retry (p.e (!i)).c) (hsz : ((p.e (!i)).sent.flatMap (wireOf (pieces Zg Zd host))).length < 2 ^ 31) :
    ∃ p', p.run (codecs t (unzip Zg Zd)) (pieces Zg Zd host) (bringOver p (!i)) = some p' ∧ List.Forall₂ Arrived (p.e (!i)).sent (p'.e i).got ∧
      (∀ j, (p'.e j).broken = false) ∧ ∀ j, (p'.e j).sent = (p.e j).sent := by
  obtain ⟨p0, e0, k1, _⟩ := run_ok (Zg := Zg) (Zd := Zd) (host := host) t ht hok
  rw [hrun] at e0
  simp only [Option.some.injEq] at e0
  subst e0
  obtain ⟨p', q1, q2, q3⟩ := progress (readers (Zg := Zg) (Zd := Zd) (host := host) t ht) hok hrun i (readers_prompt t ht i) hb hr hsz
  refine ⟨p', q1, ?_, q3⟩
  rw [q2]
  exact (handed_full (k1 (!i))).imp (fun _ _ h => h.1)

include ht in
/-- **C173.** If every message is sent when the one before it has been written — a client that waits for its answers, a server of such clients —, all that
was sent can be brought over by one write event, the network and one read event as long as neither end has seen an error. -/
theorem c173_progress (ops : List (POp M)) (hok : OkOpsOf (Ok Zg Zd host) ops)
    (hsp : Spaced (codecs t (unzip Zg Zd)) (pieces Zg Zd host) (Pair.init (codecs t (unzip Zg Zd))) ops) (p : Pair (τ × HSt) Got M)
    (hrun : (Pair.init (codecs t (unzip Zg Zd))).run (codecs t (unzip Zg Zd)) (pieces Zg Zd host) ops = some p) (i : Bool)
    (hb : ∀ j, (p.e j).broken = false) (hsz : ((p.e (!i)).sent.flatMap (wireOf (pieces Zg Zd host))).length < 2 ^ 31) :
    ∃ p', p.run (codecs t (unzip Zg Zd)) (pieces Zg Zd host) (bringOver p (!i)) = some p' ∧ List.Forall₂ Arrived (p.e (!i)).sent (p'.e i).got ∧
      (∀ j, (p'.e j).broken = false) ∧ ∀ j, (p'.e j).sent = (p.e j).sent := by
  obtain ⟨p0, e0, k1, _⟩ := run_ok (Zg := Zg) (Zd := Zd) (host := host) t ht hok
  rw [hrun] at e0
  simp only [Option.some.injEq] at e0
  subst e0
  obtain ⟨p', q1, q2, q3⟩ := spaced_progress (readers (Zg := Zg) (Zd := Zd) (host := host) t ht) (fun _ => rfl) (fun _ _ _ => ⟨_, rfl⟩) hok hsp hrun i
    (readers_prompt t ht i) hb hsz
  refine ⟨p', q1, ?_, q3⟩
  rw [q2]
  exact (handed_full (k1 (!i))).imp (fun _ _ h => h.1)

theorem bytes_pos {i : Bool} {m : M} (h : Ok Zg Zd host i m) : toB (bytes Zg Zd host m) ≠ [] := by
  intro hc
  have := congrArg List.length hc
  rw [toB_length, bytes_eq h, HMsg.text] at this
  have h2 : crlf.length = 2 := rfl
  simp only [List.length_append, List.length_nil, h2] at this
  omega

/-- **C172, violation.** On an HTTPS connection, for every end and every two messages of more than 1024 bytes together: if the socket cannot take the
first one at once and the second one is sent before it can, no later flush writes anything, whatever the network does, the next write event closes the connection,
and neither message ever reaches the peer — the output buffer has been moved under the record TLS has begun to write (tcp_channel_ssl.cc:175-213,
io_buffer.cc:59-80, without SSL_MODE_ACCEPT_MOVING_WRITE_BUFFER, lt_ssl.cc:61-114). -/
theorem c172_second_message_violated (i : Bool) (m1 m2 : M) (h1 : Ok Zg Zd host i m1) (h2 : Ok Zg Zd host i m2)
    (hlen : 1024 < (bytes Zg Zd host m1).length + (bytes Zg Zd host m2).length) : ∃ p : Pair (τ × HSt) Got M,
    (Pair.init (codecs t (unzip Zg Zd))).run (codecs t (unzip Zg Zd)) (pieces Zg Zd host) [.queue i m1, .flush i [.wantWrite], .queue i m2] = some p ∧
    (p.e i).broken = false ∧ (p.e i).sent = [m1, m2] ∧ (p.e i).c.ch.writing = true ∧
    ∀ (ss : List (List SRes)) (s : List SRes), ∃ p', p.run (codecs t (unzip Zg Zd)) (pieces Zg Zd host) (ss.map (.flush i) ++ [.writable i s]) = some p' ∧
      (p'.e i).broken = true ∧ (p'.e i).c.ch.sock = [] :=
  two_queued i rfl rfl (bytes_pos h1) (bytes_pos h2) (by rw [toB_length, toB_length]; exact hlen)

end

/-- A request that TLS writes at the second attempt, in which its buffer is where it was, and its response. -/
def demo : List (POp M) :=
  [.queue false (.inl (demoReq 3)), .flush false [.wantRead], .writable false [.wantWrite], .writable false [.syscall .intr, .ok 0], .net false 40,
   .readable true [.ok 98], .net false 999, .readable true [.ok 2, .ok 999], .queue true (.inr (demoAccept, demoResp 2)), .flush true [.ok 0], .net true 999,
   .readable false [.ok 999]]

theorem w_c173 : OkOpsOf (Ok Gzip.stored Gzip.stored demoHost) demo ∧
    Spaced (codecs lazyTok (unzip Gzip.stored Gzip.stored)) (pieces Gzip.stored Gzip.stored demoHost) (Pair.init (codecs lazyTok (unzip Gzip.stored Gzip.stored))) demo := by
  refine ⟨?_, spacedB_sound (by decide +kernel)⟩
  have key : demo.filterMap POp.sends = [(false, .inl (demoReq 3)), (true, .inr (demoAccept, demoResp 2))] := rfl
  intro o ho i m he
  have hm : (i, m) ∈ demo.filterMap POp.sends := List.mem_filterMap.2 ⟨o, ho, he⟩
  rw [key, List.mem_cons, List.mem_singleton, Prod.mk.injEq, Prod.mk.injEq] at hm
  rcases hm with ⟨rfl, rfl⟩ | ⟨rfl, rfl⟩
  · exact demoReq_ok 3 (by decide) (by decide +kernel)
  · exact demoResp_ok _ 2 (by decide) (by decide +kernel)

def seen (p : Option (Pair ((Str) × HSt) Got M)) (i : Bool) : Option (List Got) := p.map (fun p => (p.e i).got)

example : seen ((Pair.init (codecs lazyTok (unzip Gzip.stored Gzip.stored))).run (codecs lazyTok (unzip Gzip.stored Gzip.stored))
      (pieces Gzip.stored Gzip.stored demoHost) demo) true =
    some [⟨"POST".toList, "/a?b=1".toList, 0, 1, true, strs [("x-k", "v w"), ("host", "h:80"), ("connection", "keep-alive"),
      ("accept-encoding", "deflate,gzip"), ("content-length", "3"), ("content-type", "text/plain")], "aaa".toList⟩] := by
  decide +kernel

example : seen ((Pair.init (codecs lazyTok (unzip Gzip.stored Gzip.stored))).run (codecs lazyTok (unzip Gzip.stored Gzip.stored))
      (pieces Gzip.stored Gzip.stored demoHost) demo) false =
    some [⟨[], [], 200, 1, true, strs [("server", "s"), ("connection", "keep-alive"), ("content-length", "2"), ("content-type", "text/plain")], "bb".toList⟩] := by
  decide +kernel

/-- The hypotheses of C172's violation are met. -/
theorem w_c172 : Ok Gzip.stored Gzip.stored demoHost false (.inl (demoReq 1000)) ∧
    1024 < (bytes Gzip.stored Gzip.stored demoHost (.inl (demoReq 1000))).length + (bytes Gzip.stored Gzip.stored demoHost (.inl (demoReq 1000))).length :=
  ⟨demoReq_ok 1000 (by decide) (by decide +kernel), by decide +kernel⟩

end Ltio.Http.ConnTls

namespace Ltio.Http.WssPair
open Ltio.Net.Ssl Ltio.Net.Ssl.E2E
open Ltio.Net.E2E (Reads Prompt Codec wireOf)
open Ltio.Net.E2E.WsPair

/-- **C174.** WebSocket over TLS, once the handshake is done: each end is handed the messages the other sent, with their opcode and payload, in order,
unchanged, none twice, up to some point; and a pong is due for exactly the pings. -/
theorem c174_prefix (ops : List (POp WMsg)) (hok : OkOps Ok ops) :
    ∃ p : Pair (WebSocket.Parser × WebSocket.Cur) WebSocket.Out WMsg, (Pair.init (fun _ => codec)).run (fun _ => codec) pieces ops = some p ∧
      ∀ i, (p.e i).got <+: (p.e (!i)).sent.flatMap Ltio.Net.E2E.WsPair.expected :=
  safe_and_prefix (ok := fun _ => Ok) (fun _ => reads) hok

/-- **C174.** … and to the last one when all has been written, has arrived and has been read. -/
theorem c174_complete (ops : List (POp WMsg)) (hok : OkOps Ok ops) (p : Pair (WebSocket.Parser × WebSocket.Cur) WebSocket.Out WMsg)
    (hrun : (Pair.init (fun _ => codec)).run (fun _ => codec) pieces ops = some p) (i : Bool)
    (h1 : (p.e (!i)).broken = false) (h2 : (p.e (!i)).c.ch.out.asString = []) (h3 : p.net (!i) = (p.e (!i)).c.ch.sock.length)
    (h4 : (p.e i).c.ch.peer = []) : (p.e i).got = (p.e (!i)).sent.flatMap Ltio.Net.E2E.WsPair.expected :=
  complete (ok := fun _ => Ok) (fun _ => reads) hok hrun i prompt h1 h2 h3 h4

/-- **C174.** … which stays possible as long as neither end has seen an error and nothing TLS has begun to write was moved in the output buffer. -/
theorem c174_progress (ops : List (POp WMsg)) (hok : OkOps Ok ops) (p : Pair (WebSocket.Parser × WebSocket.Cur) WebSocket.Out WMsg)
    (hrun : (Pair.init (fun _ => codec)).run (fun _ => codec) pieces ops = some p) (i : Bool) (hb : ∀ j, (p.e j).broken = false)
    (hr : Retry (p.e (!i)).c) (hsz : ((p.e (!i)).sent.flatMap (wireOf pieces)).length < 2 ^ 31) :
    ∃ p', p.run (fun _ => codec) pieces (bringOver p (!i)) = some p' ∧ (p'.e i).got = (p.e (!i)).sent.flatMap Ltio.Net.E2E.WsPair.expected ∧
      (∀ j, (p'.e j).broken = false) ∧ ∀ j, (p'.e j).sent = (p.e j).sent :=
  progress (ok := fun _ => Ok) (fun _ => reads) hok hrun i prompt hb hr hsz

/-- **C174.** … in particular if every message is sent when the one before it has been written. -/
theorem c174_spaced_progress (ops : List (POp WMsg)) (hok : OkOps Ok ops) (hsp : Spaced (fun _ => codec) pieces (Pair.init (fun _ => codec)) ops)
    (p : Pair (WebSocket.Parser × WebSocket.Cur) WebSocket.Out WMsg)
    (hrun : (Pair.init (fun _ => codec)).run (fun _ => codec) pieces ops = some p) (i : Bool) (hb : ∀ j, (p.e j).broken = false)
    (hsz : ((p.e (!i)).sent.flatMap (wireOf pieces)).length < 2 ^ 31) :
    ∃ p', p.run (fun _ => codec) pieces (bringOver p (!i)) = some p' ∧ (p'.e i).got = (p.e (!i)).sent.flatMap Ltio.Net.E2E.WsPair.expected ∧
      (∀ j, (p'.e j).broken = false) ∧ ∀ j, (p'.e j).sent = (p.e j).sent :=
  spaced_progress (ok := fun _ => Ok) (fun _ => reads) (fun _ => rfl) (fun _ _ _ => ⟨_, rfl⟩) hok hsp hrun i prompt hb hsz

/-- **C172, violation.** The same for WebSocket messages over TLS. -/
theorem c172_second_frame_violated (i : Bool) (m1 m2 : WMsg) (h1 : Ok m1)
    (hlen : 1024 < (wireOf pieces m1).length + (wireOf pieces m2).length) (s : List (List SRes)) :
    ∃ p p' : Pair (WebSocket.Parser × WebSocket.Cur) WebSocket.Out WMsg,
    (Pair.init (fun _ => codec)).run (fun _ => codec) pieces [.send i m1 [[.wantWrite]]] = some p ∧
    (p.e i).broken = false ∧ (p.e i).c.ch.writing = true ∧
    p.step (fun _ => codec) pieces (.send i m2 s) = some p' ∧ (p'.e i).broken = true ∧ (p'.e i).c.ch.sock = [] := by
  have hw : ∀ m, wireOf pieces m = WebSocket.wireFrame m.op true ⟨m.payload, m.mask⟩ := by intro m; simp [wireOf, pieces]
  rw [hw, hw] at hlen
  obtain ⟨p, p', q1, q2, _, q3, q4, q5, q6⟩ := two_break (k := fun _ => codec) (ok := fun _ => Ok) (fun _ => reads) i rfl (m1 := m1) (m2 := m2) rfl rfl h1
    (Ltio.WebSocket.Server.wireFrame_ne _ _ _) (Ltio.WebSocket.Server.wireFrame_ne _ _ _) hlen s
  exact ⟨p, p', q1, q2, q3, q4, q5, q6⟩

def demo : List (POp WMsg) :=
  [.send false ⟨WebSocket.WS_OP_PING, [1, 2, 3], some [9, 8, 7, 6]⟩ [[.wantWrite]], .writable false [.ok 0], .net false 4, .readable true [.ok 99],
   .net false 99, .readable true [.ok 99], .send true ⟨WebSocket.WS_OP_PONG, [], none⟩ [[.ok 0]], .net true 99, .readable false [.ok 99]]

theorem w_c174 : OkOps Ok demo ∧ Spaced (fun _ => codec) pieces (Pair.init (fun _ => codec)) demo := by
  refine ⟨?_, spacedB_sound (by decide +kernel)⟩
  have key : demo.filterMap POp.sends = [(false, ⟨WebSocket.WS_OP_PING, [1, 2, 3], some [9, 8, 7, 6]⟩), (true, ⟨WebSocket.WS_OP_PONG, [], none⟩)] := rfl
  intro o ho i m he
  have hm : (i, m) ∈ demo.filterMap POp.sends := List.mem_filterMap.2 ⟨o, ho, he⟩
  rw [key, List.mem_cons, List.mem_singleton, Prod.mk.injEq, Prod.mk.injEq] at hm
  rcases hm with ⟨_, rfl⟩ | ⟨_, rfl⟩
  · exact ⟨by decide, by decide, by decide, by decide, by decide⟩
  · exact ⟨by decide, by decide, by decide, by decide, by decide⟩

def seen (p : Option (Pair (WebSocket.Parser × WebSocket.Cur) WebSocket.Out WMsg)) (i : Bool) : Option (List WebSocket.Out × Bool) :=
  p.map (fun p => ((p.e i).got, (p.e i).broken))

example : seen ((Pair.init (fun _ => codec)).run (fun _ => codec) pieces demo) true = some ([.sendPong, .deliver ⟨WebSocket.WS_OP_PING, [1, 2, 3]⟩], false) ∧
    seen ((Pair.init (fun _ => codec)).run (fun _ => codec) pieces demo) false = some ([.deliver ⟨WebSocket.WS_OP_PONG, []⟩], false) := by
  constructor <;> decide +kernel

end Ltio.Http.WssPair
