import Verif.Http.Encode
import Verif.Http.Assemble
import Verif.Util.Gzip
import Verif.Common.Stream
/-
The receiving side of the HTTP/1 codec (net_io/codec/http/parser_context.h, http_codec_service.cc:67-87): llhttp's callbacks make
requests and responses.  llhttp itself is a parameter with a contract (`Tok.Meets`): from the bytes of well-formed messages, in
whatever pieces, it makes the callbacks of these messages, with names, values, URL and body cut in whatever way.
-/
namespace Ltio.Http.Conn
open Ltio.Text

/-! ### Specification: HTTP/1 messages (RFC 7230) -/

inductive Start where
  | req (method url : Str)
  | resp (code : Nat) (reason : Str)
deriving DecidableEq

/-- A message as it is on the wire. -/
structure HMsg where
  start : Start
  minor : Nat
  headers : Headers
  body : Str
deriving DecidableEq

def reqLine (m u : Str) (minor : Nat) : Str := m ++ [' '] ++ u ++ " HTTP/1.".toList ++ dec minor

def respLine (c : Nat) (r : Str) (minor : Nat) : Str := "HTTP/1.".toList ++ dec minor ++ [' '] ++ dec c ++ [' '] ++ r

def Start.line (minor : Nat) : Start → Str
  | .req m u => reqLine m u minor
  | .resp c r => respLine c r minor

def HMsg.text (m : HMsg) : Str :=
  m.start.line m.minor ++ crlf ++ (m.headers.flatMap (fun p => headerLine p.1 p.2) ++ (crlf ++ m.body))

/-- `VCHAR / obs-text / SP / HTAB`. -/
def fieldChar (c : Char) : Bool := c == '\t' || (decide (32 ≤ c.toNat) && decide (c.toNat < 256) && decide (c.toNat ≠ 127))

def tokenChar (c : Char) : Bool := c.isAlphanum || "!#$%&'*+-.^_`|~".toList.contains c

def urlChar (c : Char) : Bool := decide (33 ≤ c.toNat) && decide (c.toNat ≤ 126)

def blank (c : Option Char) : Bool := c == some ' ' || c == some '\t'

def methods : List Str := ["GET", "POST", "PUT", "DELETE", "HEAD", "OPTIONS", "PATCH", "TRACE"].map String.toList

/-- Start lines; `client`: what a client sends. -/
def Start.Sound (client : Bool) (body : Str) : Start → Prop
  | .req m u => client = true ∧ m ∈ methods ∧ u.head? = some '/' ∧ u.all urlChar = true
  | .resp c r => client = false ∧ 200 ≤ c ∧ c ≤ 599 ∧ ((c = 204 ∨ c = 304) → body = []) ∧ r.all fieldChar = true

structure FieldSound (p : Str × Str) : Prop where
  name : p.1 ≠ [] ∧ p.1.all tokenChar = true
  value : p.2.all fieldChar = true ∧ blank p.2.head? = false ∧ blank p.2.getLast? = false

/-- Messages framed by their one Content-Length, on a connection that is kept. -/
structure HMsg.Sound (client : Bool) (m : HMsg) : Prop where
  start : m.start.Sound client m.body
  minor : m.minor ≤ 1
  fields : ∀ p ∈ m.headers, FieldSound p
  length : ∃ n, m.headers.filter (fun p => sameName p.1 "content-length".toList) = [(n, dec m.body.length)]
  alive : ∃ p ∈ m.headers, sameName p.1 "connection".toList = true
  alives : ∀ p ∈ m.headers, sameName p.1 "connection".toList = true → p.2.map Char.toLower = "keep-alive".toList
  others : ∀ p ∈ m.headers, sameName p.1 "transfer-encoding".toList = false ∧ sameName p.1 "upgrade".toList = false ∧
    sameName p.1 "proxy-connection".toList = false
  body : (∀ c ∈ m.body, c.toNat < 256) ∧ m.body.length < 2 ^ 31

/-! ### llhttp -/

/-- What llhttp knows at the end of a message: `llhttp_method_name`, `status_code`, `http_minor`, `llhttp_should_keep_alive`. -/
structure Info where
  method : Str
  code : Nat
  minor : Nat
  keep : Bool
deriving DecidableEq

/-- Callbacks: those of Assemble.lean but the last, `on_url`, and `on_message_complete`. -/
inductive Ev where
  | cb (c : Cb)
  | url (s : Str)
  | done (i : Info)
deriving DecidableEq

/-- How a message was cut. -/
structure Cut where
  urls : List Str
  headers : List Frag
  body : List Str

def Start.url : Start → Str
  | .req _ u => u
  | .resp _ _ => []

def Start.method : Start → Str
  | .req m _ => m
  | .resp _ _ => []

def Start.code : Start → Nat
  | .req _ _ => 0
  | .resp c _ => c

def HMsg.info (m : HMsg) : Info := ⟨m.start.method, m.start.code, m.minor, true⟩

/-- The pieces are those of the message. -/
structure Cut.Of (f : Cut) (m : HMsg) : Prop where
  urls : f.urls.flatten = m.start.url
  none : m.start.url = [] → f.urls = []
  headers : f.headers.map (fun x => (x.name, x.val)) = m.headers
  body : f.body.flatten = m.body

/-- The callbacks of a message cut this way. -/
def Cut.events (f : Cut) (i : Info) : List Ev :=
  .cb .messageBegin :: (f.urls.map .url ++ ((f.headers.flatMap Frag.events ++ [Cb.headersComplete]).map .cb ++
    ((f.body.map Cb.body).map .cb ++ [.done i])))

/-- A tokenizer: `llhttp_init` and `llhttp_execute` (`none`: not `HPE_OK`). -/
structure Tok (τ : Type) where
  init : τ
  exec : τ → Str → Option (τ × List Ev)

variable {τ : Type}

/-- One piece of input after the other. -/
def Tok.runFrom (t : Tok τ) (st : τ) : List Str → Option (τ × List Ev)
  | [] => some (st, [])
  | c :: cs => (t.exec st c).bind (fun x => (t.runFrom x.1 cs).map (fun y => (y.1, x.2 ++ y.2)))

def Tok.run (t : Tok τ) (cs : List Str) : Option (τ × List Ev) := t.runFrom t.init cs

def allEvents : List Cut → List HMsg → List Ev
  | f :: fs, m :: ms => f.events m.info ++ allEvents fs ms
  | _, _ => []

/-- **The contract of llhttp.**  Having been given, in whatever pieces, some first bytes of sound messages, it has accepted them
and made some first callbacks of these messages; all of them, if it was given all bytes. -/
def Tok.Meets (t : Tok τ) (client : Bool) : Prop :=
  ∀ (ms : List HMsg), (∀ m ∈ ms, m.Sound client) → ∀ (cs : List Str), cs.flatten <+: ms.flatMap HMsg.text →
    ∃ st evs fs, t.run cs = some (st, evs) ∧ List.Forall₂ Cut.Of fs ms ∧ evs <+: allEvents fs ms ∧
      (cs.flatten = ms.flatMap HMsg.text → evs = allEvents fs ms)

/-! ### The parser -/

/-- What the application is handed. -/
structure Got where
  method : Str
  url : Str
  code : Nat
  minor : Nat
  keep : Bool
  headers : Headers
  body : Str
deriving DecidableEq

/-- Parser state: that of Assemble.lean (its list of messages is not used) and the URL of `current_`. -/
structure HSt where
  p : PSt
  url : Str

def HSt.init : HSt := ⟨PSt.init, []⟩

/-- The functions of `base::Gzip` that undo compression (`none`: not 0): gzip, deflate. -/
structure Unzip where
  gzip : Str → Option Str
  deflate : Str → Option Str

/-- Undoing the content encoding (parser_context.h:211-229, 244-262): requests keep the header, responses lose it. -/
def decodeBody (z : Unzip) (client : Bool) (h : Headers) (b : Str) : Option (Headers × Str) :=
  if (find (getHeader h "Content-Encoding".toList) "gzip".toList 0).isSome then
    (z.gzip b).map (fun b' => (if client then h else (removeHeader h "Content-Encoding".toList).2, b'))
  else if (find (getHeader h "Content-Encoding".toList) "deflate".toList 0).isSome then
    (z.deflate b).map (fun b' => (if client then h else (removeHeader h "Content-Encoding".toList).2, b'))
  else some (h, b)

/-- `OnMessageParsed` (parser_context.h:202-267).  `SetMethod` changes nothing in llhttp's names, which are upper case. -/
def commit (z : Unzip) (client : Bool) (i : Info) (url : Str) (h : Headers) (b : Str) : Option Got :=
  (decodeBody z client h b).map (fun x => ⟨i.method, url, i.code, i.minor, i.keep, x.1, x.2⟩)

/-- One callback; `client`: the other end is a client.  `none`: null pointer, or the callback reports an error, after which the
connection is closed. -/
def hstep (z : Unzip) (client : Bool) (s : HSt) : Ev → Option (HSt × List Got)
  | .cb c => (cb s.p c).map (fun p => (⟨p, if c = .messageBegin then [] else s.url⟩, []))
  | .url u =>
    -- OnURL, AppendURL (parser_context.h:144-147, 182-200)
    if client = true then match s.p.cur with
      | none => none
      | some _ => some (⟨s.p, s.url ++ u⟩, [])
    else none
  | .done i => match s.p.cur with
    | none => none
    | some m => (commit z client i s.url m.1 m.2).map (fun g => (⟨{ s.p with cur := none }, s.url⟩, [g]))

def hsteps (z : Unzip) (client : Bool) : HSt → List Ev → Option (HSt × List Got)
  | s, [] => some (s, [])
  | s, e :: es => (hstep z client s e).bind (fun x => (hsteps z client x.1 es).map (fun y => (y.1, x.2 ++ y.2)))

/-- What should be handed on for a message on the wire. -/
def HMsg.got (z : Unzip) (client : Bool) (m : HMsg) : Option Got :=
  commit z client m.info m.start.url (m.headers.foldl (fun h p => insertHeader h p.1 p.2) []) m.body

/-! ### Proofs: the parser -/

section
variable (z : Unzip) (client : Bool)

theorem hsteps_append (s : HSt) (a b : List Ev) :
    hsteps z client s (a ++ b) = (hsteps z client s a).bind (fun x => (hsteps z client x.1 b).map (fun y => (y.1, x.2 ++ y.2))) := by
  induction a generalizing s with
  | nil => simp [hsteps]
  | cons e a ih =>
    simp only [List.cons_append, hsteps]
    cases hstep z client s e with
    | none => rfl
    | some x =>
      simp only [Option.bind_some, ih]
      cases hsteps z client x.1 a with
      | none => rfl
      | some y => simp [Option.map_map, Function.comp_def]

theorem hsteps_cbs (s : HSt) (l : List Cb) (h : Cb.messageBegin ∉ l) :
    hsteps z client s (l.map .cb) = (cbs s.p l).map (fun p => (⟨p, s.url⟩, [])) := by
  induction l generalizing s with
  | nil => rfl
  | cons c l ih =>
    simp only [List.mem_cons, not_or] at h
    simp only [List.map_cons, hsteps, hstep, cbs]
    rw [if_neg (fun e => h.1 e.symm)]
    cases cb s.p c with
    | none => rfl
    | some p =>
      simp only [Option.map_some, Option.bind_some, ih _ h.2]
      cases cbs p l <;> simp

theorem hsteps_urls (p : PSt) (u : Str) (us : List Str) (hp : p.cur ≠ none) (hc : us ≠ [] → client = true) :
    hsteps z client ⟨p, u⟩ (us.map .url) = some (⟨p, u ++ us.flatten⟩, []) := by
  induction us generalizing u with
  | nil => simp [hsteps]
  | cons x us ih =>
    have h1 := hc (by simp)
    cases hcur : p.cur with
    | none => exact absurd hcur hp
    | some m =>
      simp only [List.map_cons, hsteps, hstep, hcur, if_pos h1, Option.bind_some]
      rw [ih (u ++ x) (fun _ => h1)]
      simp

theorem frag_no_begin (l : List Frag) : Cb.messageBegin ∉ l.flatMap Frag.events ++ [.headersComplete] := by
  simp [Frag.events]

/-- One message, in whatever pieces. -/
theorem hsteps_msg {m : HMsg} {f : Cut} (hf : f.Of m) (hn : ∀ p ∈ m.headers, p.1 ≠ []) (hc : m.start.url ≠ [] → client = true)
    {g : Got} (hg : m.got z client = some g) (c : Option (Headers × Str)) (fl : Bool) (u : Str) :
    ∃ fl', hsteps z client ⟨⟨c, fl, [], [], []⟩, u⟩ (f.events m.info) = some (⟨⟨none, fl', [], [], []⟩, m.start.url⟩, [g]) := by
  have hn' : ∀ x ∈ f.headers, x.name ≠ [] := by
    intro x hx
    have : (x.name, x.val) ∈ m.headers := by rw [← hf.headers]; exact List.mem_map_of_mem hx
    exact hn _ this
  obtain ⟨fl', hb⟩ := cbs_block [] [] f.headers [] hn'
  refine ⟨fl', ?_⟩
  have hb' : cbs ⟨some ([], []), false, [], [], []⟩ (f.headers.flatMap Frag.events ++ [.headersComplete]) =
      some ⟨some (m.headers.foldl (fun h p => insertHeader h p.1 p.2) [], []), fl', [], [], []⟩ := by
    rw [hb, ← hf.headers]
    cases f.headers <;> rfl
  have hurls : f.urls ≠ [] → client = true := by
    intro hne
    exact hc (fun e => hne (hf.none e))
  unfold Cut.events
  have e0 : hstep z client ⟨⟨c, fl, [], [], []⟩, u⟩ (.cb .messageBegin) = some (⟨⟨some ([], []), false, [], [], []⟩, []⟩, []) := rfl
  rw [hsteps, e0, Option.bind_some]
  rw [hsteps_append, hsteps_urls z client _ _ _ (by simp) hurls, Option.bind_some, hsteps_append,
    hsteps_cbs z client _ _ (frag_no_begin f.headers), hb', Option.map_some, Option.bind_some, hsteps_append,
    hsteps_cbs z client _ _ (by simp), cbs_body, Option.map_some, Option.bind_some]
  unfold HMsg.got at hg
  simp only [hsteps, hstep, List.nil_append, hf.urls, hf.body, hg, Option.map_some, Option.bind_some]
  rfl

/-- All messages, in whatever pieces. -/
theorem hsteps_all {fs : List Cut} {ms : List HMsg} (hf : List.Forall₂ Cut.Of fs ms) (hn : ∀ m ∈ ms, ∀ p ∈ m.headers, p.1 ≠ [])
    (hc : ∀ m ∈ ms, m.start.url ≠ [] → client = true) (g : HMsg → Got) (hg : ∀ m ∈ ms, m.got z client = some (g m))
    (c : Option (Headers × Str)) (fl : Bool) (u : Str) :
    ∃ s, hsteps z client ⟨⟨c, fl, [], [], []⟩, u⟩ (allEvents fs ms) = some (s, ms.map g) := by
  induction hf generalizing c fl u with
  | nil => exact ⟨_, rfl⟩
  | @cons f m fs ms h _ ih =>
    obtain ⟨fl', h1⟩ := hsteps_msg z client h (hn m (by simp)) (hc m (by simp)) (hg m (by simp)) c fl u
    obtain ⟨s, h2⟩ := ih (fun x hx => hn x (by simp [hx])) (fun x hx => hc x (by simp [hx])) (fun x hx => hg x (by simp [hx])) none fl' m.start.url
    refine ⟨s, ?_⟩
    rw [allEvents, hsteps_append, h1, Option.bind_some]
    simp only
    rw [h2]
    rfl

theorem hsteps_prefix {s s' : HSt} {a b : List Ev} {o : List Got} (hp : a <+: b) (h : hsteps z client s b = some (s', o)) :
    ∃ s1 o1, hsteps z client s a = some (s1, o1) ∧ o1 <+: o := by
  obtain ⟨x, rfl⟩ := hp
  rw [hsteps_append] at h
  cases ha : hsteps z client s a with
  | none => rw [ha] at h; simp at h
  | some y =>
    rw [ha, Option.bind_some] at h
    cases hx : hsteps z client y.1 x with
    | none => rw [hx] at h; simp at h
    | some w =>
      rw [hx] at h
      simp only [Option.map_some, Option.some.injEq, Prod.mk.injEq] at h
      exact ⟨y.1, y.2, rfl, ⟨w.2, h.2⟩⟩

end

theorem runFrom_append (t : Tok τ) (st : τ) (a b : List Str) :
    t.runFrom st (a ++ b) = (t.runFrom st a).bind (fun x => (t.runFrom x.1 b).map (fun y => (y.1, x.2 ++ y.2))) := by
  induction a generalizing st with
  | nil => simp [Tok.runFrom]
  | cons c a ih =>
    simp only [List.cons_append, Tok.runFrom]
    cases t.exec st c with
    | none => rfl
    | some x =>
      simp only [Option.bind_some, ih]
      cases t.runFrom x.1 a with
      | none => rfl
      | some y => simp [Option.map_map, Function.comp_def]

end Ltio.Http.Conn
