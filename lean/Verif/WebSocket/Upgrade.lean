import Verif.WebSocket.Client
import Verif.Http.Encode
import Verif.Url.Props

/-
C177, C178: the upgrade request a `WsClient` sends when its connection is up
(net_io/codec/websocket/ws_codec_service.cc:137-162, net_io/clients/ws_client.cc:30-40, 91-98).

Headers are a `std::map`: they are written in some order; the theorems hold for every order.
-/
namespace Ltio.WebSocket.Upgrade
open Ltio.Text Ltio.Http Ltio.Url

/-! ### The program -/

/-- The headers put into the request (ws_codec_service.cc:149-154). -/
def upgradeHeaders (host key : Str) : Headers :=
  insertHeader (insertHeader (insertHeader (insertHeader (insertHeader (insertHeader []
    "Host".toList host) "Server".toList "ltio".toList) "Upgrade".toList "websocket".toList)
    "Connection".toList "Upgrade".toList) "Sec-WebSocket-Version".toList "13".toList) "Sec-WebSocket-Key".toList key

/-- The request (ws_codec_service.cc:145-155; a new `HttpRequest`: HTTP/1.1, not keep-alive, empty body,
http_message.h:93-98), its headers in the order `hs`. -/
def upgradeReq (topic : Str) (hs : Headers) : Http.Req := ⟨"GET".toList, topic, 1, hs, false, []⟩

/-- What `Dial(addr, topic)` on a client with the fields `old` makes it send once connected, if its random key
is `key`, and the port it dials (ws_client.cc:30-40, 91-98). -/
def dialSends (old : Remote) (addr topic key : Str) (hs : Headers) (sent : Str) : Prop :=
  hs.Perm (upgradeHeaders (parseRemote none addr old).host key) ∧ sent = encodeReq (upgradeReq topic hs)

/-- The port `Dial` connects to (ws_client.cc:36). -/
def dialPort (old : Remote) (addr : Str) : Option Nat := (parseRemote none addr old).port

/-- How the receiving library stores header fields: `InsertHeader` one by one (parser_context.h). -/
def stored (fs : Headers) : Headers := fs.foldl (fun h p => insertHeader h p.1 p.2) []

/-! ### Specification (RFC 6455, 4.1; RFC 7230, 5.4) -/

/-- The fields of a header list with a name, in whatever case. -/
def fieldsOf (fs : Headers) (n : Str) : List Str := (fs.filter (fun p => sameName p.1 n)).map Prod.snd

/-- What an upgrade request must contain: each of these exactly once. -/
structure IsUpgrade (fs : Headers) (key : Str) : Prop where
  upgrade : fieldsOf fs "upgrade".toList = ["websocket".toList]
  connection : fieldsOf fs "connection".toList = ["Upgrade".toList]
  version : fieldsOf fs "sec-websocket-version".toList = ["13".toList]
  key : fieldsOf fs "sec-websocket-key".toList = [key]
  noBody : fieldsOf fs "content-length".toList = ["0".toList] ∧ fieldsOf fs "transfer-encoding".toList = []

/-- The value of `Host` for an address: the port is left out only if it is the default of the scheme. -/
def hostField (scheme host : Str) (port : Nat) : Str :=
  if (scheme = "ws".toList ∧ port = 80) ∨ (scheme = "wss".toList ∧ port = 443) then host
  else host ++ ':' :: decimal port

/-- The port an address means. -/
def portOf (scheme : Str) : Option Nat → Nat
  | some p => p
  | none => if scheme = "wss".toList then 443 else 80

/-! ### Proofs -/

theorem headers_eq (host key : Str) : upgradeHeaders host key =
    [("host".toList, host), ("server".toList, "ltio".toList), ("upgrade".toList, "websocket".toList),
     ("connection".toList, "Upgrade".toList), ("sec-websocket-version".toList, "13".toList),
     ("sec-websocket-key".toList, key)] := by
  have l1 : toLower "Host".toList = "host".toList := by decide +kernel
  have l2 : toLower "Server".toList = "server".toList := by decide +kernel
  have l3 : toLower "Upgrade".toList = "upgrade".toList := by decide +kernel
  have l4 : toLower "Connection".toList = "connection".toList := by decide +kernel
  have l5 : toLower "Sec-WebSocket-Version".toList = "sec-websocket-version".toList := by decide +kernel
  have l6 : toLower "Sec-WebSocket-Key".toList = "sec-websocket-key".toList := by decide +kernel
  unfold upgradeHeaders insertHeader
  rw [l1, l2, l3, l4, l5, l6]
  rfl

theorem fields_perm {a b : Headers} (h : a.Perm b) (n : Str) : (fieldsOf a n).Perm (fieldsOf b n) := by
  unfold fieldsOf
  exact (h.filter _).map _

theorem has_perm {a b : Headers} (h : a.Perm b) (n : Str) : hasHeader a n = hasHeader b n := by
  unfold hasHeader
  rw [Bool.eq_iff_iff, List.any_eq_true, List.any_eq_true]
  exact ⟨fun ⟨x, hx, e⟩ => ⟨x, h.mem_iff.mp hx, e⟩, fun ⟨x, hx, e⟩ => ⟨x, h.mem_iff.mpr hx, e⟩⟩

theorem added_eq (hs : Headers) (host key : Str) (h : hs.Perm (upgradeHeaders host key)) :
    added hs false true [] = [("Accept-Encoding".toList, "deflate,gzip".toList), ("Content-Length".toList, dec 0),
      ("Content-Type".toList, "text/plain".toList)] := by
  unfold added
  rw [has_perm h, has_perm h, has_perm h, has_perm h, headers_eq]
  rfl

theorem clean (hs : Headers) (host key : Str) (h : hs.Perm (upgradeHeaders host key)) (hh : '\r' ∉ host)
    (hk : '\r' ∉ key) : CleanHeaders hs := by
  intro p hp
  have hp := h.mem_iff.mp hp
  rw [headers_eq] at hp
  simp only [List.mem_cons, List.not_mem_nil, or_false] at hp
  rcases hp with rfl | rfl | rfl | rfl | rfl | rfl
  · exact ⟨show "host".toList ≠ [] by decide, show ':' ∉ "host".toList by decide, show '\r' ∉ "host".toList by decide, hh⟩
  · exact ⟨by decide, by decide, by decide, by decide⟩
  · exact ⟨by decide, by decide, by decide, by decide⟩
  · exact ⟨by decide, by decide, by decide, by decide⟩
  · exact ⟨by decide, by decide, by decide, by decide⟩
  · exact ⟨show "sec-websocket-key".toList ≠ [] by decide, show ':' ∉ "sec-websocket-key".toList by decide,
      show '\r' ∉ "sec-websocket-key".toList by decide, hk⟩

theorem lengthOk (hs : Headers) (host key : Str) (h : hs.Perm (upgradeHeaders host key)) : LengthOk hs [] := by
  intro p hp hn
  have hp := h.mem_iff.mp hp
  rw [headers_eq] at hp
  simp only [List.mem_cons, List.not_mem_nil, or_false] at hp
  exfalso
  have hn : p.1 ∈ (["host".toList, "server".toList, "upgrade".toList, "connection".toList, "sec-websocket-version".toList,
      "sec-websocket-key".toList] : List Str) → False := by
    intro hm
    revert hm
    generalize p.1 = x at hn
    intro hm
    simp only [List.mem_cons, List.not_mem_nil, or_false] at hm
    rcases hm with rfl | rfl | rfl | rfl | rfl | rfl <;> revert hn <;> decide +kernel
  apply hn
  rcases hp with rfl | rfl | rfl | rfl | rfl | rfl <;> simp

/-- C178: what is sent is one HTTP/1.1 message: `GET` of the topic given to `Dial` (of "/" for the empty one),
the headers of an upgrade request each once, no body; and one `Host` with the host of the address. -/
theorem c178_upgrade_request (old : Remote) (p : Parts) (ok : p.Ok) (topic key sent : Str) (hs : Headers)
    (h : dialSends old p.text topic key hs sent) (h1 : '\r' ∉ topic) (h2 : '\r' ∉ p.host) (h3 : '\r' ∉ key) :
    ∃ fs, (∀ rest, parseMsg (sent ++ rest) =
        some ("GET ".toList ++ (if topic = [] then ['/'] else topic) ++ " HTTP/1.1".toList, fs, [], rest)) ∧
      IsUpgrade fs key ∧ fieldsOf fs "host".toList = [p.host] := by
  obtain ⟨hp, hsent⟩ := h
  have hhost : (parseRemote none p.text old).host = p.host := (c37_parse_remote p ok old).2.2.2.1
  rw [hhost] at hp
  refine ⟨hs ++ added hs false true [], fun rest => ?_, ?_⟩
  · have := c43_request_partial (upgradeReq topic hs) rest (show '\r' ∉ "GET".toList by decide) h1 (clean hs _ _ hp h2 h3) (lengthOk hs _ _ hp)
    rw [hsent, this]
    have d1 : dec 1 = ['1'] := by decide +kernel
    simp only [upgradeReq, d1, List.append_assoc]
    rfl
  · rw [added_eq hs _ _ hp]
    have hperm : (hs ++ [("Accept-Encoding".toList, "deflate,gzip".toList), ("Content-Length".toList, dec 0),
      ("Content-Type".toList, "text/plain".toList)]).Perm ([("host".toList, p.host), ("server".toList, "ltio".toList), ("upgrade".toList, "websocket".toList),
     ("connection".toList, "Upgrade".toList), ("sec-websocket-version".toList, "13".toList),
     ("sec-websocket-key".toList, key)] ++ [("Accept-Encoding".toList, "deflate,gzip".toList), ("Content-Length".toList, dec 0),
      ("Content-Type".toList, "text/plain".toList)]) := by
      rw [headers_eq] at hp
      exact hp.append_right _
    have d0 : dec 0 = "0".toList := by decide +kernel
    rw [d0] at hperm ⊢
    have one : ∀ (n v : Str), fieldsOf ([("host".toList, p.host), ("server".toList, "ltio".toList), ("upgrade".toList, "websocket".toList),
     ("connection".toList, "Upgrade".toList), ("sec-websocket-version".toList, "13".toList),
     ("sec-websocket-key".toList, key)] ++ [("Accept-Encoding".toList, "deflate,gzip".toList), ("Content-Length".toList, "0".toList),
      ("Content-Type".toList, "text/plain".toList)]) n = [v] →
        fieldsOf (hs ++ [("Accept-Encoding".toList, "deflate,gzip".toList), ("Content-Length".toList, "0".toList),
      ("Content-Type".toList, "text/plain".toList)]) n = [v] := by
      intro n v hv
      have := fields_perm hperm n
      rw [hv] at this
      exact List.perm_singleton.mp this
    refine ⟨⟨one _ _ rfl, one _ _ rfl, one _ _ rfl, one _ _ rfl, one _ _ rfl, ?_⟩, one _ _ rfl⟩
    have := fields_perm hperm "transfer-encoding".toList
    exact List.Perm.eq_nil this

theorem expected_append (f : Str) : ∀ (fs : Headers) (cur : Option Str),
    (fs.map (fun p => Op.insert p.1 p.2)).foldl (fun cur op => match op with
      | .insert k v => if sameName k f then (match cur with | none => some v | some w => some w) else cur
      | .remove k => if sameName k f then none else cur) cur = cur.or (fieldsOf fs f).head?
  | [], cur => by simp [fieldsOf]
  | p :: fs, cur => by
    rw [List.map_cons, List.foldl_cons, expected_append f fs]
    unfold fieldsOf
    rw [List.filter_cons]
    by_cases h : sameName p.1 f = true
    · simp only [h, if_true, List.map_cons, List.head?_cons]
      cases cur <;> simp
    · simp [h]

/-- Looking up a name in what is stored gives the first field of that name. -/
theorem get_stored (fs : Headers) (hp : ∀ p ∈ fs, nul ∉ p.1) (f : Str) (hf : nul ∉ f) (hfe : f ≠ []) :
    getHeader (stored fs) f = (fieldsOf fs f).head?.getD [] := by
  have h1 : stored fs = run (fs.map (fun p => Op.insert p.1 p.2)) := by
    unfold stored Http.run
    rw [List.foldl_map]
    rfl
  rw [h1]
  have h2 := (c30_lookup_partial (fs.map (fun p => Op.insert p.1 p.2)) (by
    intro op hop
    obtain ⟨p, hpm, rfl⟩ := List.mem_map.mp hop
    exact hp p hpm) f hf hfe).2.1
  have h3 : expected f (fs.map (fun p => Op.insert p.1 p.2)) = (none : Option Str).or (fieldsOf fs f).head? := by
    unfold expected
    exact expected_append f fs none
  rw [h2, h3]
  rfl

theorem fields_same (fs : Headers) {a b : Str} (h : a.map Char.toLower = b.map Char.toLower) :
    fieldsOf fs a = fieldsOf fs b := by
  unfold fieldsOf sameName
  rw [h]

/-- C178: a server of the library that is handed this request takes it for an upgrade and answers with the
accept value for the key sent. -/
theorem c178_server_accepts (fs : Headers) (hp : ∀ p ∈ fs, nul ∉ p.1) (key path : Str) (h : IsUpgrade fs key) :
    Server.wantsWebsocket ⟨stored fs, path⟩ = true ∧
    Server.acceptFor ⟨stored fs, path⟩ = Hash.Sha1.genAcceptKey (fun _ => 0#8) (Server.bytesOf key) := by
  constructor
  · unfold Server.wantsWebsocket
    rw [get_stored fs hp _ (by decide +kernel) (by decide), fields_same fs (b := "upgrade".toList) (by decide +kernel), h.upgrade]
    rfl
  · unfold Server.acceptFor
    rw [get_stored fs hp _ (by decide +kernel) (by decide),
      fields_same fs (b := "sec-websocket-key".toList) (by decide +kernel), h.key]
    rfl

/-- C178: with the port in the address that port is dialled; without it, the port left from the last address
dialled, zero for the first. -/
theorem c178_port (old : Remote) (p : Parts) (ok : p.Ok) :
    dialPort old p.text = match p.port with | some n => some n | none => old.port :=
  (c37_parse_remote p ok old).2.2.2.2.1

/-- C177 violation. Whenever the address has a port that is not the default one of its scheme, the request names
a `Host` without it (ws_codec_service.cc:149): not what RFC 6455 (4.1, item 4) asks for. -/
theorem c177_host_port_violated (old : Remote) (p : Parts) (ok : p.Ok) (topic key sent : Str) (hs : Headers)
    (h : dialSends old p.text topic key hs sent) (h1 : '\r' ∉ topic) (h2 : '\r' ∉ p.host) (h3 : '\r' ∉ key)
    (scheme : Str) (n : Nat) (_hport : p.port = some n) (_hscheme : p.scheme = some scheme)
    (hd : ¬ ((scheme = "ws".toList ∧ n = 80) ∨ (scheme = "wss".toList ∧ n = 443))) :
    ∃ line fs, parseMsg sent = some (line, fs, [], []) ∧ fieldsOf fs "host".toList ≠ [hostField scheme p.host n] := by
  obtain ⟨fs, e, _, hh⟩ := c178_upgrade_request old p ok topic key sent hs h h1 h2 h3
  have e := e []
  rw [List.append_nil] at e
  refine ⟨_, fs, e, ?_⟩
  rw [hh]
  unfold hostField
  rw [if_neg hd]
  intro hc
  have := congrArg List.length (List.head_eq_of_cons_eq hc)
  simp at this

/-- C177 violation. An address without a port is not dialled at the default port of its scheme: the first such
dial goes to port 0. -/
theorem c177_default_port_violated (p : Parts) (ok : p.Ok) (hport : p.port = none) (scheme : Str)
    (_hscheme : p.scheme = some scheme) : dialPort Remote.fresh p.text ≠ some (portOf scheme p.port) := by
  rw [c178_port Remote.fresh p ok, hport]
  unfold portOf Remote.fresh
  simp only []
  split <;> simp

/-! ### The hypotheses can be met -/

/-- `ws://localhost:5007`, topic `/chat`. -/
def demo : Parts := ⟨some "ws".toList, none, "localhost".toList, some 5007, none⟩

theorem demo_ok : demo.Ok where
  scheme := by intro s h; cases h; decide
  noScheme := by intro h; cases h
  user := by intro u pw h; cases h
  passwd := by intro u pw h; cases h
  noCred := by intro _; exact ⟨by decide, by intro kvs h; cases h⟩
  host := ⟨by decide, by decide⟩
  port := by intro n h; cases h; decide
  query := by intro kvs h; cases h
  length := by decide +kernel

theorem w_c178 : ∃ sent fs, dialSends Remote.fresh demo.text "/chat".toList "dGhlIHNhbXBsZSBub25jZQ==".toList
      (upgradeHeaders "localhost".toList "dGhlIHNhbXBsZSBub25jZQ==".toList) sent ∧
    parseMsg sent = some ("GET /chat HTTP/1.1".toList, fs, [], []) ∧ fieldsOf fs "host".toList = ["localhost".toList] ∧
    hostField "ws".toList "localhost".toList 5007 = "localhost:5007".toList ∧
    dialPort Remote.fresh "ws://localhost".toList = some 0 ∧ (∀ p ∈ fs, nul ∉ p.1) := by
  have hd : dialSends Remote.fresh demo.text "/chat".toList "dGhlIHNhbXBsZSBub25jZQ==".toList
      (upgradeHeaders "localhost".toList "dGhlIHNhbXBsZSBub25jZQ==".toList)
      (encodeReq (upgradeReq "/chat".toList (upgradeHeaders "localhost".toList "dGhlIHNhbXBsZSBub25jZQ==".toList))) :=
    ⟨by rw [(c37_parse_remote demo demo_ok Remote.fresh).2.2.2.1]; exact List.Perm.refl _, rfl⟩
  obtain ⟨fs, e, _, hh⟩ := c178_upgrade_request _ demo demo_ok _ _ _ _ hd (by decide) (by decide) (by decide)
  have e := e []
  rw [List.append_nil] at e
  refine ⟨_, fs, hd, e, hh, by decide +kernel, by decide +kernel, ?_⟩
  have e2 : parseMsg (encodeReq (upgradeReq "/chat".toList (upgradeHeaders "localhost".toList "dGhlIHNhbXBsZSBub25jZQ==".toList))) =
      some ("GET /chat HTTP/1.1".toList, upgradeHeaders "localhost".toList "dGhlIHNhbXBsZSBub25jZQ==".toList ++
        added (upgradeHeaders "localhost".toList "dGhlIHNhbXBsZSBub25jZQ==".toList) false true [], [], []) := by
    decide +kernel
  rw [e] at e2
  simp only [Option.some.injEq, Prod.mk.injEq] at e2
  rw [e2.2.1]
  decide +kernel

end Ltio.WebSocket.Upgrade
