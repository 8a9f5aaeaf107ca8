/-
Model of `CodecFactory` (net_io/codec/codec_factory.cc) and of the decision between a plain and a TLS channel
(`UseSSLChannel`: codec_service.h:119, http_codec_service.cc:57-59, h2_codec_service.cc:555-557,
ws_codec_service.h:60), used by servers (io_service.cc:103-147) and clients (client.cc:172-196).

A creator is a `std::function` from a loop to a codec pointer: it may be empty (`none`), and what it returns may be
null (`some none`).  Codecs are named by their class; `custom n` stands for a class of the user's, whose
`UseSSLChannel` is the base class's.  The registry is a `std::unordered_map`, modelled as an association
list in which the first entry of a key counts.
-/
namespace Ltio.Server.Registry

inductive Kind where
  | line | http | raw | resp | ws | h2
  | custom (n : Nat)
deriving DecidableEq, Repr

/-- `ProtoserviceCreator`: empty, or a function whose result may be null. -/
abbrev Creator := Option (Option Kind)

abbrev Reg := List (String × Creator)

/-- `creators_.find(proto)`. -/
def Reg.find (r : Reg) (p : String) : Option Creator := (r.lookup p)

/-- `CodecFactory::InitInnerDefault` (codec_factory.cc:86-139); `h2` is `LTIO_WITH_HTTP2`. -/
def defaults (h2 : Bool) : Reg :=
  [("line", some (some .line)), ("http", some (some .http)), ("https", some (some .http)), ("raw", some (some .raw)),
   ("rawSSL", some (some .raw)), ("redis", some (some .resp)), ("ws", some (some .ws)), ("wss", some (some .ws))] ++
  (if h2 = true then [("h2", some (some .h2)), ("h2c", some (some .h2))] else [])

/-- `CodecFactory::RegisterCreator` (codec_factory.cc:74-79). -/
def Reg.register (r : Reg) (p : String) (c : Creator) : Reg := (p, c) :: r

/-- `CodecFactory::HasCreator` (codec_factory.cc:81-84). -/
def Reg.hasCreator (r : Reg) (p : String) : Bool := (r.find p).isSome

/-- A codec object: its class, `protocol_` and `server_side_`. -/
structure Codec where
  kind : Kind
  protocol : String
  serverSide : Bool
deriving DecidableEq, Repr

inductive Made where
  | codec (c : Codec)
  | null            -- `_null`
  | crash           -- `codec->SetProtocol` through a null pointer
deriving DecidableEq, Repr

/-- `CodecFactory::CreateProtocolService` (codec_factory.cc:57-71). -/
def Reg.create (r : Reg) (p : String) (server : Bool) : Made :=
  match r.find p with
  | some (some (some k)) => .codec ⟨k, p, server⟩
  | some (some none) => .crash
  | _ => .null

/-- `NewServerService` (codec_factory.cc:47-50). -/
def Reg.newServer (r : Reg) (p : String) : Made := r.create p true
/-- `NewClientService` (codec_factory.cc:52-55). -/
def Reg.newClient (r : Reg) (p : String) : Made := r.create p false

/-- `UseSSLChannel` of the codec classes. -/
def Codec.useSSL (c : Codec) : Bool :=
  match c.kind with
  | .http => c.protocol == "https"
  | .h2 => c.protocol == "h2"
  | .ws => c.protocol == "wss"
  | _ => false

/-- `ServeAddress`'s test of the scheme (generic_server.h:84-87): the server starts. -/
def starts (r : Reg) (p : String) : Bool := r.hasCreator p

/-- What becomes of a connection accepted by a started server (io_service.cc:103-147): a plain or TLS channel with
its codec, the socket closed at once, or a crash. -/
inductive Served where
  | plain (k : Kind) | tls (k : Kind) | dropped | crash
deriving DecidableEq, Repr

def serve (r : Reg) (p : String) : Served :=
  match r.newServer p with
  | .codec c => if c.useSSL = true then .tls c.kind else .plain c.kind
  | .null => .dropped
  | .crash => .crash

/-! ### Specification -/

/-- The calls of `RegisterCreator` so far, oldest first. -/
abbrev History := List (String × Creator)

/-- The last registration of `p` in a history, if any. -/
def lastOf (h : History) (p : String) : Option Creator := (h.reverse.lookup p)

/-- The schemes that are there from the beginning. -/
def builtin (h2 : Bool) : List String :=
  ["line", "http", "https", "raw", "rawSSL", "redis", "ws", "wss"] ++ (if h2 = true then ["h2", "h2c"] else [])

/-- The schemes whose name promises TLS. -/
def secure : List String := ["https", "wss", "rawSSL", "h2"]

/-- The factory after a history. -/
def after (h2 : Bool) (h : History) : Reg := h.foldl (fun r x => r.register x.1 x.2) (defaults h2)

/-! ### Theorems -/

theorem after_eq (h2 : Bool) (h : History) : after h2 h = h.reverse ++ defaults h2 := by
  have : ∀ (r : Reg), h.foldl (fun r x => r.register x.1 x.2) r = h.reverse ++ r := by
    induction h with
    | nil => intro r; rfl
    | cons x t ih =>
      intro r
      rw [List.foldl_cons, ih, List.reverse_cons, List.append_assoc]
      rfl
  exact this _

theorem find_after (h2 : Bool) (h : History) (p : String) :
    (after h2 h).find p = (lastOf h p).or ((defaults h2).find p) := by
  rw [Reg.find, after_eq, List.lookup_append]
  rfl

/-- **C144.** The codec made for a scheme is the one whose creator was registered last for exactly this
scheme, with the scheme and side that were asked for. -/
theorem c144_last_wins (h2 : Bool) (h : History) (p : String) (k : Kind) (server : Bool)
    (hl : lastOf h p = some (some (some k))) : (after h2 h).create p server = .codec ⟨k, p, server⟩ := by
  rw [Reg.create, find_after, hl]
  rfl

/-- **C144.** A scheme that was never registered has its built-in codec, if it is built in. -/
theorem c144_builtin (h2 : Bool) (h : History) (p : String) (server : Bool)
    (hl : lastOf h p = none) (hp : p ∈ builtin h2) :
    ∃ k, (after h2 h).create p server = .codec ⟨k, p, server⟩ ∧ (defaults h2).find p = some (some (some k)) := by
  have hd : ∃ k, (defaults h2).find p = some (some (some k)) := by
    cases h2 <;> simp only [builtin, Bool.false_eq_true, if_false, if_true, List.append_nil, List.cons_append, List.nil_append, List.mem_cons, List.not_mem_nil, or_false] at hp
    · rcases hp with rfl | rfl | rfl | rfl | rfl | rfl | rfl | rfl
      · exact ⟨.line, by decide⟩
      · exact ⟨.http, by decide⟩
      · exact ⟨.http, by decide⟩
      · exact ⟨.raw, by decide⟩
      · exact ⟨.raw, by decide⟩
      · exact ⟨.resp, by decide⟩
      · exact ⟨.ws, by decide⟩
      · exact ⟨.ws, by decide⟩
    · rcases hp with rfl | rfl | rfl | rfl | rfl | rfl | rfl | rfl | rfl | rfl
      · exact ⟨.line, by decide⟩
      · exact ⟨.http, by decide⟩
      · exact ⟨.http, by decide⟩
      · exact ⟨.raw, by decide⟩
      · exact ⟨.raw, by decide⟩
      · exact ⟨.resp, by decide⟩
      · exact ⟨.ws, by decide⟩
      · exact ⟨.ws, by decide⟩
      · exact ⟨.h2, by decide⟩
      · exact ⟨.h2, by decide⟩
  obtain ⟨k, hk⟩ := hd
  refine ⟨k, ?_, hk⟩
  rw [Reg.create, find_after, hl, hk]
  rfl

theorem defaults_find_none (h2 : Bool) (p : String) (hp : p ∉ builtin h2) : (defaults h2).find p = none := by
  rw [Reg.find, List.lookup_eq_none_iff]
  intro x hx
  have : x.1 ∈ builtin h2 := by
    cases h2 <;> simp only [defaults, builtin, Bool.false_eq_true, if_false, if_true, List.append_nil, List.cons_append, List.nil_append, List.mem_cons, List.not_mem_nil, or_false] at hx ⊢
    · rcases hx with rfl | rfl | rfl | rfl | rfl | rfl | rfl | rfl <;> simp
    · rcases hx with rfl | rfl | rfl | rfl | rfl | rfl | rfl | rfl | rfl | rfl <;> simp
  simp only [bne_iff_ne, ne_eq]
  intro hc
  exact hp (hc ▸ this)

/-- **C144.** Any other scheme is refused: no codec, a server for it does not start. -/
theorem c144_unknown (h2 : Bool) (h : History) (p : String) (server : Bool)
    (hl : lastOf h p = none) (hp : p ∉ builtin h2) :
    (after h2 h).create p server = .null ∧ starts (after h2 h) p = false := by
  have hf : (after h2 h).find p = none := by rw [find_after, hl, defaults_find_none h2 p hp]; rfl
  constructor
  · rw [Reg.create, hf]
  · rw [starts, Reg.hasCreator, hf]; rfl

/-- **C144.** Registering one scheme does not change another. -/
theorem c144_independent (h2 : Bool) (h : History) (p q : String) (c : Creator) (server : Bool) (hne : p ≠ q) :
    (after h2 (h ++ [(q, c)])).create p server = (after h2 h).create p server := by
  have : lastOf (h ++ [(q, c)]) p = lastOf h p := by
    have hb : (p == q) = false := by simpa using hne
    rw [lastOf, lastOf, List.reverse_append, List.reverse_singleton, List.singleton_append, List.lookup_cons, hb]
  rw [Reg.create, Reg.create, find_after, find_after, this]

/-- **C144.** A client and a server of the same scheme use the same codec, and agree on whether the connection
is encrypted. -/
theorem c144_sides_agree (r : Reg) (p : String) (c : Codec) (h : r.newServer p = .codec c) :
    ∃ c', r.newClient p = .codec c' ∧ c'.kind = c.kind ∧ c'.useSSL = c.useSSL ∧ c.serverSide = true ∧ c'.serverSide = false := by
  simp only [Reg.newServer, Reg.newClient, Reg.create] at h ⊢
  cases hf : r.find p with
  | none => rw [hf] at h; simp at h
  | some x =>
    rw [hf] at h
    cases x with
    | none => simp at h
    | some y =>
      cases y with
      | none => simp at h
      | some k =>
        simp only [Made.codec.injEq] at h
        subst h
        exact ⟨⟨k, p, false⟩, rfl, rfl, rfl, rfl, rfl⟩

/-- **C144.** With the built-in codecs, exactly `https`, `wss` and `h2` connections are encrypted. -/
theorem c144_tls (h2 : Bool) (p : String) : (∃ k, serve (defaults h2) p = .tls k) ↔ p = "https" ∨ p = "wss" ∨ (h2 = true ∧ p = "h2") := by
  constructor
  · rintro ⟨k, hk⟩
    by_cases hp : p ∈ builtin h2
    · cases h2 <;> simp only [builtin, Bool.false_eq_true, if_false, if_true, List.append_nil, List.cons_append, List.nil_append, List.mem_cons, List.not_mem_nil, or_false] at hp
      · rcases hp with rfl | rfl | rfl | rfl | rfl | rfl | rfl | rfl <;> first | (simp; done) | (exact absurd hk (by simp [serve, Reg.newServer, Reg.create, Reg.find, defaults, List.lookup, Codec.useSSL]))
      · rcases hp with rfl | rfl | rfl | rfl | rfl | rfl | rfl | rfl | rfl | rfl <;> first | (simp; done) | (exact absurd hk (by simp [serve, Reg.newServer, Reg.create, Reg.find, defaults, List.lookup, Codec.useSSL]))
    · have hf := defaults_find_none h2 p hp
      simp only [serve, Reg.newServer, Reg.create, hf] at hk
      exact absurd hk (by simp)
  · rintro (rfl | rfl | ⟨rfl, rfl⟩)
    · exact ⟨.http, by cases h2 <;> decide⟩
    · exact ⟨.ws, by cases h2 <;> decide⟩
    · exact ⟨.h2, by decide⟩

/-- **C144.** A built-in scheme that was not registered anew can be served: the server starts, and every
accepted connection gets a codec. -/
theorem c144_builtin_serves (h2 : Bool) (h : History) (p : String) (hl : lastOf h p = none) (hp : p ∈ builtin h2) :
    starts (after h2 h) p = true ∧ ∃ k, serve (after h2 h) p = .plain k ∨ serve (after h2 h) p = .tls k := by
  obtain ⟨k, hk, hf⟩ := c144_builtin h2 h p true hl hp
  constructor
  · rw [starts, Reg.hasCreator, find_after, hl, hf]; rfl
  · refine ⟨k, ?_⟩
    simp only [serve, Reg.newServer, hk]
    split
    · exact Or.inr rfl
    · exact Or.inl rfl

/-! ### Violations -/

/-- **C145, violation.** `rawSSL` is built in with the same codec as `raw`, whose `UseSSLChannel` is the base class's
`false` (codec_factory.cc:107-111, codec_service.h:119): a `rawSSL://` server and its clients talk in the
clear. -/
theorem c145_rawssl_plain_violated (h2 : Bool) :
    "rawSSL" ∈ secure ∧ serve (defaults h2) "rawSSL" = .plain .raw ∧
    ∃ c, (defaults h2).newClient "rawSSL" = .codec c ∧ c.useSSL = false := by
  refine ⟨by decide, by cases h2 <;> decide, ⟨.raw, "rawSSL", false⟩, by cases h2 <;> decide, by decide⟩

/-- **C145, violation.** `HasCreator` does not look whether the creator is empty (codec_factory.cc:81-84): a server
for a scheme registered with an empty creator starts, and drops every connection. -/
theorem c145_empty_creator_violated (h2 : Bool) (h : History) (p : String) :
    starts (after h2 (h ++ [(p, none)])) p = true ∧ serve (after h2 (h ++ [(p, none)])) p = .dropped := by
  have hl : lastOf (h ++ [(p, none)]) p = some none := by
    rw [lastOf, List.reverse_append, List.reverse_singleton, List.singleton_append, List.lookup_cons]; simp
  constructor
  · rw [starts, Reg.hasCreator, find_after, hl]; rfl
  · rw [serve, Reg.newServer, Reg.create, find_after, hl]; rfl

/-- **C145, violation.** A creator that returns null crashes the process at the first connection
(codec_factory.cc:62-64). -/
theorem c145_null_codec_violated (h2 : Bool) (h : History) (p : String) :
    starts (after h2 (h ++ [(p, some none)])) p = true ∧ serve (after h2 (h ++ [(p, some none)])) p = .crash := by
  have hl : lastOf (h ++ [(p, some none)]) p = some (some none) := by
    rw [lastOf, List.reverse_append, List.reverse_singleton, List.singleton_append, List.lookup_cons]; simp
  constructor
  · rw [starts, Reg.hasCreator, find_after, hl]; rfl
  · rw [serve, Reg.newServer, Reg.create, find_after, hl]; rfl

/-- **C145.** The other secure schemes are encrypted. -/
theorem c145_secure_otherwise (p : String) (hp : p ∈ secure) (hne : p ≠ "rawSSL") : ∃ k, serve (defaults true) p = .tls k := by
  rw [c144_tls]
  simp only [secure, List.mem_cons, List.not_mem_nil, or_false] at hp
  rcases hp with h | h | h | h
  · exact Or.inl h
  · exact Or.inr (Or.inl h)
  · exact absurd h hne
  · exact Or.inr (Or.inr ⟨rfl, h⟩)

/-! ### The hypotheses are met -/

example : lastOf [("http", some (some (.custom 1))), ("x", none), ("http", some (some (.custom 2)))] "http" = some (some (some (.custom 2))) := by decide
example : (after true [("http", some (some (.custom 1))), ("x", none), ("http", some (some (.custom 2)))]).newServer "http" = .codec ⟨.custom 2, "http", true⟩ := by decide
example : lastOf [("x", none)] "redis" = none ∧ "redis" ∈ builtin false := by decide
example : lastOf [("x", none)] "ftp" = none ∧ "ftp" ∉ builtin true := by decide

end Ltio.Server.Registry
