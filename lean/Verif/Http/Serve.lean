import Verif.Http.NoContent
/-
A server's HTTP/1 connection from bytes to bytes: `HttpCodecService::OnDataReceived` (http_codec_service.cc:67-87), the parser
(Receive.lean), the handler, `HttpRequestCtx::Response` (http_context.cc:75-107) and `SendResponse` (http_codec_service.cc:149-183).

Handlers answer at once, with a function of the request; what is written is written to the peer in order (that is C24, C45).  llhttp is a
machine that makes callbacks and says whether it returned `HPE_OK`; what is needed of it is its contract.  Requests that end the
connection (Connection: close) are C40, C45, C78: here `llhttp_should_keep_alive` only becomes the `keepAlive` of the response.
-/
namespace Ltio.Http.Serve
open Ltio.Text Ltio.Http.Conn Ltio.Http.NoContent

/-- `llhttp_execute`: new state, callbacks made, whether it returned `HPE_OK`. -/
structure LL (τ : Type) where
  init : τ
  exec : τ → Str → τ × List Ev × Bool

/-- What the application brings: the compressors are those of base/utils/gzip. -/
structure App where
  z : Unzip
  gzip : Str → Option Str
  deflate : Str → Option Str
  answer : Got → Resp

/-- `HttpRequestCtx::Response`, `SendResponse` (http_context.cc:75-107, http_codec_service.cc:149-183): the response sent for a request. -/
def App.sent (a : App) (g : Got) : Resp :=
  beforeSend a.gzip a.deflate (getHeader g.headers "Accept-Encoding".toList) { a.answer g with keepAlive := g.keep }

/-- The bytes written. -/
def App.reply (a : App) (g : Got) : Str := (encodeResp (a.sent g)).getD []

/-- `HttpConstant::kBadRequest` (http_constants.cc:41-42). -/
def badRequest : Str := "HTTP/1.1 400 Bad Request\r\n\r\n".toList

/-- The callbacks of one call of `llhttp_execute`: the requests handed to the handler; `false`: a callback has reported an error. -/
def handle (z : Unzip) : HSt → List Ev → HSt × List Got × Bool
  | s, [] => (s, [], true)
  | s, e :: es => match hstep z true s e with
    | none => (s, [], false)
    | some x => let r := handle z x.1 es; (r.1, x.2 ++ r.2.1, r.2.2)

/-- A connection: state of the parser, bytes written to the peer, requests handed to the handler, and whether it is open. -/
structure Srv (τ : Type) where
  ll : τ
  p : HSt
  out : Str
  handed : List Got
  isOpen : Bool

variable {τ : Type}

def Srv.init (t : LL τ) : Srv τ := ⟨t.init, HSt.init, [], [], true⟩

/-- `OnDataReceived` (http_codec_service.cc:67-87): a closed connection gets no events. -/
def Srv.step (t : LL τ) (a : App) (s : Srv τ) (piece : Str) : Srv τ :=
  if s.isOpen then
    let x := t.exec s.ll piece
    let h := handle a.z s.p x.2.1
    let ok := x.2.2 && h.2.2
    ⟨x.1, h.1, s.out ++ h.2.1.flatMap a.reply ++ (if ok then [] else badRequest), s.handed ++ h.2.1, ok⟩
  else s

def Srv.run (t : LL τ) (a : App) (s : Srv τ) (pieces : List Str) : Srv τ := pieces.foldl (Srv.step t a) s

/-! ### The contract of llhttp -/

/-- Pieces of input until one is refused. -/
def LL.feed (t : LL τ) (st : τ) : List Str → τ × List Ev × Bool
  | [] => (st, [], true)
  | c :: cs =>
    let x := t.exec st c
    if x.2.2 then let r := t.feed x.1 cs; (r.1, x.2.1 ++ r.2.1, r.2.2) else (x.1, x.2.1, false)

/-- As `Tok.Meets`: the first bytes of well-formed requests, in whatever pieces, are accepted; the callbacks are those of the requests,
all of them once all bytes are there. -/
def LL.Meets (t : LL τ) : Prop :=
  ∀ (ms : List HMsg), (∀ m ∈ ms, m.Sound true) → ∀ (cs : List Str), cs.flatten <+: ms.flatMap HMsg.text →
    ∃ st evs fs, t.feed t.init cs = (st, evs, true) ∧ List.Forall₂ Cut.Of fs ms ∧ evs <+: allEvents fs ms ∧
      (cs.flatten = ms.flatMap HMsg.text → evs = allEvents fs ms)

/-- A well-formed request with `Connection: upgrade` and an Upgrade header, and no content (its length, if it says one, is 0). -/
structure AsksUpgrade (u : HMsg) : Prop where
  start : u.start.Sound true []
  minor : u.minor = 1
  fields : ∀ p ∈ u.headers, FieldSound p
  body : u.body = []
  length : u.headers.filter (fun p => sameName p.1 "content-length".toList) = [] ∨
    ∃ n, u.headers.filter (fun p => sameName p.1 "content-length".toList) = [(n, dec 0)]
  connection : ∃ p ∈ u.headers, sameName p.1 "connection".toList = true
  connections : ∀ p ∈ u.headers, sameName p.1 "connection".toList = true → p.2.map Char.toLower = "upgrade".toList
  upgrade : ∃ p ∈ u.headers, sameName p.1 "upgrade".toList = true
  others : ∀ p ∈ u.headers, sameName p.1 "transfer-encoding".toList = false ∧ sameName p.1 "proxy-connection".toList = false

/-- The documented behaviour of llhttp: after a request that asks for an upgrade, and its callbacks, `llhttp_execute` returns
`HPE_PAUSED_UPGRADE`, not `HPE_OK`. -/
def LL.Pauses (t : LL τ) : Prop :=
  ∀ (ms : List HMsg) (u : HMsg), (∀ m ∈ ms, m.Sound true) → AsksUpgrade u → ∀ (cs : List Str),
    cs.flatten = ms.flatMap HMsg.text ++ u.text →
    ∃ st evs fs f, t.feed t.init cs = (st, evs, false) ∧ List.Forall₂ Cut.Of fs ms ∧ Cut.Of f u ∧
      evs = allEvents fs ms ++ f.events u.info

/-! ### Proofs -/

theorem handle_some (z : Unzip) : ∀ (evs : List Ev) (s s' : HSt) (got : List Got), hsteps z true s evs = some (s', got) →
    handle z s evs = (s', got, true) := by
  intro evs
  induction evs with
  | nil =>
    intro s s' got h
    simp only [hsteps, Option.some.injEq, Prod.mk.injEq] at h
    rw [handle, h.1, h.2]
  | cons e es ih =>
    intro s s' got h
    rw [hsteps] at h
    obtain ⟨x, h1, h2⟩ := Option.bind_eq_some_iff.1 h
    obtain ⟨y, h3, h4⟩ := Option.map_eq_some_iff.1 h2
    simp only [Prod.mk.injEq] at h4
    rw [handle, h1]
    simp only
    rw [ih _ _ _ h3]
    simp [h4.1, h4.2]

theorem run_closed (t : LL τ) (a : App) : ∀ (cs : List Str) (s : Srv τ), s.isOpen = false → s.run t a cs = s := by
  intro cs
  induction cs with
  | nil => intro s _; rfl
  | cons c cs ih =>
    intro s h
    show (s.step t a c).run t a cs = s
    have : s.step t a c = s := by unfold Srv.step; rw [if_neg (by simp [h])]
    rw [this]
    exact ih s h

theorem handle_append (z : Unzip) : ∀ (a b : List Ev) (s : HSt), handle z s (a ++ b) =
    if (handle z s a).2.2 then ((handle z (handle z s a).1 b).1, (handle z s a).2.1 ++ (handle z (handle z s a).1 b).2.1, (handle z (handle z s a).1 b).2.2)
    else handle z s a := by
  intro a
  induction a with
  | nil => intro b s; simp [handle]
  | cons e a ih =>
    intro b s
    rw [List.cons_append, handle, handle]
    cases hstep z true s e with
    | none => simp
    | some x =>
      simp only [ih]
      by_cases hx : (handle z x.1 a).2.2 = true
      · simp [hx]
      · simp [hx]

/-- A connection, by the callbacks made until llhttp refuses something. -/
theorem run_handle (t : LL τ) (a : App) : ∀ (cs : List Str) (s : Srv τ), s.isOpen = true →
    (s.run t a cs).out = s.out ++ (handle a.z s.p (t.feed s.ll cs).2.1).2.1.flatMap a.reply ++
      (if (t.feed s.ll cs).2.2 && (handle a.z s.p (t.feed s.ll cs).2.1).2.2 then [] else badRequest) ∧
    (s.run t a cs).handed = s.handed ++ (handle a.z s.p (t.feed s.ll cs).2.1).2.1 ∧
    (s.run t a cs).isOpen = ((t.feed s.ll cs).2.2 && (handle a.z s.p (t.feed s.ll cs).2.1).2.2) := by
  intro cs
  induction cs with
  | nil =>
    intro s ho
    simp [Srv.run, LL.feed, handle, ho]
  | cons c cs ih =>
    intro s ho
    have hrun : s.run t a (c :: cs) = (s.step t a c).run t a cs := rfl
    rw [hrun, LL.feed]
    simp only
    by_cases hh : (handle a.z s.p (t.exec s.ll c).2.1).2.2 = true
    · by_cases hx : (t.exec s.ll c).2.2 = true
      · rw [if_pos hx]
        simp only [handle_append, hh, if_true]
        have hs : s.step t a c = ⟨(t.exec s.ll c).1, (handle a.z s.p (t.exec s.ll c).2.1).1,
            s.out ++ (handle a.z s.p (t.exec s.ll c).2.1).2.1.flatMap a.reply, s.handed ++ (handle a.z s.p (t.exec s.ll c).2.1).2.1, true⟩ := by
          unfold Srv.step
          rw [if_pos ho]
          simp only [hh, hx, Bool.and_self, if_true, List.append_nil]
        have := ih (s.step t a c) (by rw [hs])
        rw [hs] at this ⊢
        simp only [List.flatMap_append, List.append_assoc] at this ⊢
        exact this
      · rw [if_neg hx]
        simp only
        have hx' : (t.exec s.ll c).2.2 = false := by simpa using hx
        have hs : s.step t a c = ⟨(t.exec s.ll c).1, (handle a.z s.p (t.exec s.ll c).2.1).1,
            s.out ++ (handle a.z s.p (t.exec s.ll c).2.1).2.1.flatMap a.reply ++ badRequest, s.handed ++ (handle a.z s.p (t.exec s.ll c).2.1).2.1, false⟩ := by
          unfold Srv.step
          rw [if_pos ho]
          simp only [hx', Bool.false_and, Bool.false_eq_true, if_false]
        rw [run_closed t a cs _ (by rw [hs]), hs]
        simp
    · have hh' : (handle a.z s.p (t.exec s.ll c).2.1).2.2 = false := by simpa using hh
      have hs : s.step t a c = ⟨(t.exec s.ll c).1, (handle a.z s.p (t.exec s.ll c).2.1).1,
          s.out ++ (handle a.z s.p (t.exec s.ll c).2.1).2.1.flatMap a.reply ++ badRequest, s.handed ++ (handle a.z s.p (t.exec s.ll c).2.1).2.1, false⟩ := by
        unfold Srv.step
        rw [if_pos ho]
        simp only [hh', Bool.and_false, Bool.false_eq_true, if_false]
      rw [run_closed t a cs _ (by rw [hs]), hs]
      by_cases hx : (t.exec s.ll c).2.2 = true
      · rw [if_pos hx]
        simp only [handle_append, hh', Bool.false_eq_true, if_false, Bool.and_false, and_self]
      · rw [if_neg hx]
        simp only [hh', Bool.and_false, Bool.false_eq_true, if_false, and_self]

/-- … that all succeed. -/
theorem run_feed (t : LL τ) (a : App) (cs : List Str) (s : Srv τ) (st : τ) (evs : List Ev) (ok : Bool) (p' : HSt) (got : List Got)
    (ho : s.isOpen = true) (hf : t.feed s.ll cs = (st, evs, ok)) (hh : hsteps a.z true s.p evs = some (p', got)) :
    (s.run t a cs).out = s.out ++ got.flatMap a.reply ++ (if ok then [] else badRequest) ∧
    (s.run t a cs).handed = s.handed ++ got ∧ (s.run t a cs).isOpen = ok := by
  have := run_handle t a cs s ho
  rw [hf] at this
  simp only [handle_some a.z _ _ _ _ hh, Bool.and_true] at this
  exact this

/-- What the requests hand on. -/
theorem steps_all (z : Unzip) {ms : List HMsg} {fs : List Cut} (hf : List.Forall₂ Cut.Of fs ms) (h : ∀ m ∈ ms, ∀ p ∈ m.headers, p.1 ≠ [])
    (g : HMsg → Got) (hg : ∀ m ∈ ms, m.got z true = some (g m)) :
    ∃ p, hsteps z true HSt.init (allEvents fs ms) = some (p, ms.map g) :=
  hsteps_all z true hf h (fun _ _ _ => rfl) g hg none false []

/-- The callbacks of a message but the last. -/
def preEvents (f : Cut) : List Ev :=
  .cb .messageBegin :: (f.urls.map .url ++ ((f.headers.flatMap Frag.events ++ [Cb.headersComplete]).map .cb ++ (f.body.map Cb.body).map .cb))

theorem pre_msg (z : Unzip) {m : HMsg} {f : Cut} (hf : f.Of m) (hn : ∀ p ∈ m.headers, p.1 ≠ []) (c : Option (Headers × Str)) (fl : Bool) (u : Str) :
    ∃ fl', hsteps z true ⟨⟨c, fl, [], [], []⟩, u⟩ (preEvents f) =
      some (⟨⟨some (m.headers.foldl (fun h p => insertHeader h p.1 p.2) [], m.body), fl', [], [], []⟩, m.start.url⟩, []) := by
  have hn' : ∀ x ∈ f.headers, x.name ≠ [] := by
    intro x hx
    have : (x.name, x.val) ∈ m.headers := by rw [← hf.headers]; exact List.mem_map_of_mem hx
    exact hn _ this
  obtain ⟨fl', hb⟩ := cbs_block [] [] f.headers [] hn'
  refine ⟨fl', ?_⟩
  have hb' : cbs ⟨some ([], []), false, [], [], []⟩ (f.headers.flatMap Frag.events ++ [.headersComplete]) =
      some ⟨some (m.headers.foldl (fun h p => insertHeader h p.1 p.2) [], []), fl', [], [], []⟩ := by
    rw [hb, ← hf.headers]
    cases f.headers <;> rfl
  unfold preEvents
  have e0 : hstep z true ⟨⟨c, fl, [], [], []⟩, u⟩ (.cb .messageBegin) = some (⟨⟨some ([], []), false, [], [], []⟩, []⟩, []) := rfl
  rw [hsteps, e0, Option.bind_some]
  rw [hsteps_append, hsteps_urls z true _ _ _ (by simp) (fun _ => rfl), Option.bind_some, hsteps_append,
    hsteps_cbs z true _ _ (frag_no_begin f.headers), hb', Option.map_some, Option.bind_some,
    hsteps_cbs z true _ _ (by simp), cbs_body]
  simp only [List.nil_append, hf.urls, hf.body, Option.map_some]

/-- A message whose body cannot be decoded. -/
theorem handle_bad (z : Unzip) {m : HMsg} {f : Cut} (hf : f.Of m) (hn : ∀ p ∈ m.headers, p.1 ≠ []) (hb : m.got z true = none)
    (c : Option (Headers × Str)) (fl : Bool) (u : Str) :
    (handle z ⟨⟨c, fl, [], [], []⟩, u⟩ (f.events m.info)).2.1 = [] ∧ (handle z ⟨⟨c, fl, [], [], []⟩, u⟩ (f.events m.info)).2.2 = false := by
  obtain ⟨fl', hp⟩ := pre_msg z hf hn c fl u
  have e : f.events m.info = preEvents f ++ [.done m.info] := by
    unfold Cut.events preEvents
    simp only [List.cons_append, List.append_assoc]
  have hd : hstep z true ⟨⟨some (m.headers.foldl (fun h p => insertHeader h p.1 p.2) [], m.body), fl', [], [], []⟩, m.start.url⟩ (.done m.info) = none := by
    have hb' : commit z true m.info m.start.url (m.headers.foldl (fun h p => insertHeader h p.1 p.2) []) m.body = none := hb
    unfold hstep
    simp only [hb']
    rfl
  rw [e, handle_append, handle_some z _ _ _ _ hp]
  simp only [if_true, handle, hd, List.append_nil, and_self]

/-- The state after whole messages. -/
theorem steps_shape (z : Unzip) (g : HMsg → Got) {fs : List Cut} {ms : List HMsg} (hf : List.Forall₂ Cut.Of fs ms)
    (hn : ∀ m ∈ ms, ∀ p ∈ m.headers, p.1 ≠ []) (hg : ∀ m ∈ ms, m.got z true = some (g m)) (c : Option (Headers × Str)) (fl : Bool) (u : Str) :
    ∃ c' fl' u', hsteps z true ⟨⟨c, fl, [], [], []⟩, u⟩ (allEvents fs ms) = some (⟨⟨c', fl', [], [], []⟩, u'⟩, ms.map g) := by
  induction hf generalizing c fl u with
  | nil => exact ⟨c, fl, u, rfl⟩
  | @cons f m fs ms h _ ih =>
    obtain ⟨fl', h1⟩ := hsteps_msg z true h (hn m (by simp)) (fun _ => rfl) (hg m (by simp)) c fl u
    obtain ⟨c', fl2, u', h2⟩ := ih (fun x hx => hn x (by simp [hx])) (fun x hx => hg x (by simp [hx])) none fl' m.start.url
    refine ⟨c', fl2, u', ?_⟩
    rw [allEvents, hsteps_append, h1, Option.bind_some]
    simp only
    rw [h2]
    rfl

/-- The answers to requests, one after the other. -/
theorem answers_read (a : App) (g : HMsg → Got) : ∀ (ms : List HMsg) (rest : Str),
    (∀ m ∈ ms, Fine (a.sent (g m)) ∧ (noContent m.start.method (sentCode (a.sent (g m))) → (a.sent (g m)).body = [])) →
    ∃ seen, readAll (ms.map (fun m => m.start.method)) ((ms.map g).flatMap a.reply ++ rest) = some (seen, rest) ∧
      List.Forall₂ (fun s m => s.code = sentCode (a.sent (g m)) ∧ s.body = (a.sent (g m)).body ∧ (a.sent (g m)).headers <+: s.headers ∧
        (hasHeader (a.sent (g m)).headers "Connection".toList = false →
          ("Connection".toList, if (a.sent (g m)).keepAlive then "keep-alive".toList else "Close".toList) ∈ s.headers)) seen ms := by
  intro ms rest h
  obtain ⟨bs, seen, h1, h2, h3⟩ := c202_stream (ms.map (fun m => (m.start.method, a.sent (g m)))) rest (by
    intro x hx
    obtain ⟨m, hm, rfl⟩ := List.mem_map.1 hx
    exact h m hm)
  have hb : bs.flatten = (ms.map g).flatMap a.reply := by
    clear h2 h3 h
    induction ms generalizing bs with
    | nil =>
      simp only [List.map_nil, List.mapM_nil] at h1
      cases h1
      rfl
    | cons m ms ih =>
      rw [List.map_cons, List.mapM_cons] at h1
      obtain ⟨b, e1, e2⟩ := Option.bind_eq_some_iff.1 h1
      obtain ⟨bs', e3, e4⟩ := Option.bind_eq_some_iff.1 e2
      cases e4
      rw [List.flatten_cons, ih bs' e3, List.map_cons, List.flatMap_cons]
      congr 1
      unfold App.reply
      simp only at e1
      rw [e1]
      rfl
  rw [hb, List.map_map] at h2
  refine ⟨seen, h2, ?_⟩
  rw [List.forall₂_map_right_iff] at h3
  exact h3

theorem findFrom_infix (d : Str) (hd : d ≠ []) : ∀ (s : Str) (i : Nat), (findFrom d s i).isSome = true ↔ d <:+: s := by
  intro s
  induction s with
  | nil =>
    intro i
    unfold findFrom
    rw [if_neg hd]
    simp [hd]
  | cons x t ih =>
    intro i
    unfold findFrom
    by_cases hp : d.isPrefixOf (x :: t) = true
    · rw [if_pos hp]
      simp only [Option.isSome_some, true_iff]
      exact (List.isPrefixOf_iff_prefix.1 hp).isInfix
    · rw [if_neg hp, ih, List.infix_cons_iff]
      rw [List.isPrefixOf_iff_prefix] at hp
      simp [hp]

theorem find_infix (s d : Str) (hd : d ≠ []) : (find s d 0).isSome = true ↔ d <:+: s := by
  unfold find
  rw [if_pos (by omega), List.drop_zero]
  exact findFrom_infix d hd s 0

theorem sent_keep (a : App) (g : Got) : (a.sent g).keepAlive = g.keep := by
  unfold App.sent beforeSend
  (repeat' split) <;> rfl

theorem insert_connection (h : Headers) (v : Str) :
    hasHeader (insertHeader h "Content-Encoding".toList v) "Connection".toList = hasHeader h "Connection".toList := by
  unfold insertHeader insertKey hasHeader
  split
  · rfl
  split
  · rfl
  · rw [List.any_append]
    have : (toLower "Content-Encoding".toList == toLower "Connection".toList) = false := by decide +kernel
    rw [List.any_cons, this, List.any_nil, Bool.or_false, Bool.or_false]

theorem sent_connection (a : App) (g : Got) :
    hasHeader (a.sent g).headers "Connection".toList = hasHeader (a.answer g).headers "Connection".toList := by
  unfold App.sent beforeSend
  (repeat' split) <;> first | rfl | exact insert_connection _ _

/-- **C204: what is sent for the handler's response.**  Its body as it is; or, if that is longer than 8096 bytes and no coding was set, its gzip
or deflate form, if the request accepts this (gzip first), marked as such; the rest of the headers are the handler's. -/
theorem c204_coding (a : App) (g : Got) :
    ((a.sent g).body = (a.answer g).body ∧ (a.sent g).headers = (a.answer g).headers) ∨
    (8096 < (a.answer g).body.length ∧ hasHeader (a.answer g).headers "Content-Encoding".toList = false ∧
      ((("gzip".toList <:+: getHeader g.headers "Accept-Encoding".toList) ∧ a.gzip (a.answer g).body = some (a.sent g).body ∧
          (a.sent g).headers = insertHeader (a.answer g).headers "Content-Encoding".toList "gzip".toList) ∨
        (("deflate".toList <:+: getHeader g.headers "Accept-Encoding".toList) ∧ ¬ ("gzip".toList <:+: getHeader g.headers "Accept-Encoding".toList) ∧
          a.deflate (a.answer g).body = some (a.sent g).body ∧
          (a.sent g).headers = insertHeader (a.answer g).headers "Content-Encoding".toList "deflate".toList))) := by
  unfold App.sent beforeSend
  simp only
  by_cases hc : (a.answer g).body.length > 8096 ∧ hasHeader (a.answer g).headers "Content-Encoding".toList = false
  · rw [if_pos hc]
    by_cases hg : (find (getHeader g.headers "Accept-Encoding".toList) "gzip".toList 0).isSome = true
    · rw [if_pos hg]
      cases hz : a.gzip (a.answer g).body with
      | none => exact .inl ⟨rfl, rfl⟩
      | some z => exact .inr ⟨hc.1, hc.2, .inl ⟨(find_infix _ _ (by decide)).1 hg, rfl, rfl⟩⟩
    · rw [if_neg hg]
      by_cases hd : (find (getHeader g.headers "Accept-Encoding".toList) "deflate".toList 0).isSome = true
      · rw [if_pos hd]
        cases hz : a.deflate (a.answer g).body with
        | none => exact .inl ⟨rfl, rfl⟩
        | some z => exact .inr ⟨hc.1, hc.2, .inr ⟨(find_infix _ _ (by decide)).1 hd, fun h => hg ((find_infix _ _ (by decide)).2 h), rfl, rfl⟩⟩
      · rw [if_neg hd]
        exact .inl ⟨rfl, rfl⟩
  · rw [if_neg hc]
    exact .inl ⟨rfl, rfl⟩

/-- **C204: every request is answered, in order, by its handler's answer and nothing else.**  For all sequences of well-formed requests (that
keep the connection), however their bytes are cut, all handlers (whose responses have a status line, and no body if to HEAD or with 1xx,
204, 304) and all compressors: the handler is handed exactly these requests, the connection stays open, and a client that knows what it
asked for reads, in what was written, exactly the answers, in order. -/
theorem c204_answers {t : LL τ} (ht : t.Meets) (a : App) (ms : List HMsg) (g : HMsg → Got) (h : ∀ m ∈ ms, m.Sound true)
    (hg : ∀ m ∈ ms, m.got a.z true = some (g m))
    (ha : ∀ m ∈ ms, Fine (a.sent (g m)) ∧ (noContent m.start.method (sentCode (a.sent (g m))) → (a.sent (g m)).body = []))
    (cs : List Str) (hc : cs.flatten = ms.flatMap HMsg.text) :
    ((Srv.init t).run t a cs).handed = ms.map g ∧ ((Srv.init t).run t a cs).isOpen = true ∧
    ∃ seen, readAll (ms.map (fun m => m.start.method)) ((Srv.init t).run t a cs).out = some (seen, []) ∧
      List.Forall₂ (fun s m => s.code = sentCode (a.answer (g m)) ∧ s.body = (a.sent (g m)).body ∧ (a.sent (g m)).headers <+: s.headers ∧
        (hasHeader (a.answer (g m)).headers "Connection".toList = false → ("Connection".toList, "keep-alive".toList) ∈ s.headers)) seen ms := by
  obtain ⟨st, evs, fs, r1, r2, _, r4⟩ := ht ms h cs (by rw [hc]; exact List.prefix_refl _)
  obtain ⟨p, hp⟩ := steps_all a.z r2 (fun m hm q hq => ((h m hm).fields q hq).name.1) g hg
  rw [← r4 hc] at hp
  obtain ⟨o1, o2, o3⟩ := run_feed t a cs (Srv.init t) st evs true p _ rfl r1 hp
  refine ⟨by rw [o2]; rfl, o3, ?_⟩
  obtain ⟨seen, s1, s2⟩ := answers_read a g ms [] ha
  refine ⟨seen, ?_, ?_⟩
  · rw [o1]
    simpa [Srv.init] using s1
  · have hcode : ∀ x : Got, sentCode (a.sent x) = sentCode (a.answer x) := by
      intro x
      have : (a.sent x).code = (a.answer x).code := by
        unfold App.sent beforeSend
        (repeat' split) <;> rfl
      unfold sentCode
      rw [this]
    have hall : ∀ (l1 : List Seen) (l2 : List HMsg), (∀ m ∈ l2, m ∈ ms) →
        List.Forall₂ (fun s m => s.code = sentCode (a.sent (g m)) ∧ s.body = (a.sent (g m)).body ∧ (a.sent (g m)).headers <+: s.headers ∧
          (hasHeader (a.sent (g m)).headers "Connection".toList = false →
            ("Connection".toList, if (a.sent (g m)).keepAlive then "keep-alive".toList else "Close".toList) ∈ s.headers)) l1 l2 →
        List.Forall₂ (fun s m => s.code = sentCode (a.answer (g m)) ∧ s.body = (a.sent (g m)).body ∧ (a.sent (g m)).headers <+: s.headers ∧
          (hasHeader (a.answer (g m)).headers "Connection".toList = false → ("Connection".toList, "keep-alive".toList) ∈ s.headers)) l1 l2 := by
      intro l1 l2 hm hl
      induction hl with
      | nil => exact .nil
      | cons hr _ ih =>
        rename_i s m l1 l2 _
        refine .cons ⟨by rw [← hcode]; exact hr.1, hr.2.1, hr.2.2.1, ?_⟩ (ih (fun x hx => hm x (List.mem_cons_of_mem _ hx)))
        intro hk
        have := hr.2.2.2 (by rw [sent_connection]; exact hk)
        rw [sent_keep] at this
        have hkeep : (g m).keep = true := by
          have := hg m (hm m (by simp))
          unfold HMsg.got commit at this
          obtain ⟨x, _, hx⟩ := Option.map_eq_some_iff.1 this
          rw [← hx]
          rfl
        rw [hkeep] at this
        exact this
    exact hall seen ms (fun _ h => h) s2

/-- **C204: at any moment.**  After any first bytes of such requests: what was handed on and written belongs to the first requests, and each
request whose bytes are all there has been answered. -/
theorem c204_prefix {t : LL τ} (ht : t.Meets) (a : App) (ms : List HMsg) (g : HMsg → Got) (h : ∀ m ∈ ms, m.Sound true)
    (hg : ∀ m ∈ ms, m.got a.z true = some (g m)) (cs : List Str) (hc : cs.flatten <+: ms.flatMap HMsg.text) :
    ∃ got, ((Srv.init t).run t a cs).handed = got ∧ got <+: ms.map g ∧ ((Srv.init t).run t a cs).out = got.flatMap a.reply ∧
      ((Srv.init t).run t a cs).isOpen = true := by
  obtain ⟨st, evs, fs, r1, r2, r3, _⟩ := ht ms h cs hc
  obtain ⟨p, hp⟩ := steps_all a.z r2 (fun m hm q hq => ((h m hm).fields q hq).name.1) g hg
  obtain ⟨p1, o, q1, q2⟩ := hsteps_prefix a.z true r3 hp
  obtain ⟨o1, o2, o3⟩ := run_feed t a cs (Srv.init t) st evs true p1 o rfl r1 q1
  exact ⟨o, by rw [o2]; rfl, q2, by rw [o1]; simp [Srv.init], o3⟩

theorem allEvents_snoc {fs : List Cut} {ms : List HMsg} (h : List.Forall₂ Cut.Of fs ms) (f : Cut) (bad : HMsg) :
    allEvents (fs ++ [f]) (ms ++ [bad]) = allEvents fs ms ++ f.events bad.info := by
  induction h with
  | nil => simp [allEvents]
  | cons _ _ ih => simp only [List.cons_append, allEvents, ih, List.append_assoc]

/-- **C204: a body that cannot be decoded.**  A request whose Content-Encoding says gzip or deflate and whose body is not that is refused: after the
answers to the requests before it comes a 400, and the connection is closed. -/
theorem c204_undecodable {t : LL τ} (ht : t.Meets) (a : App) (ms : List HMsg) (bad : HMsg) (g : HMsg → Got) (h : ∀ m ∈ ms ++ [bad], m.Sound true)
    (hg : ∀ m ∈ ms, m.got a.z true = some (g m)) (hb : bad.got a.z true = none) (cs later : List Str)
    (hc : cs.flatten = ms.flatMap HMsg.text ++ bad.text) :
    ((Srv.init t).run t a (cs ++ later)).handed = ms.map g ∧ ((Srv.init t).run t a (cs ++ later)).isOpen = false ∧
    ((Srv.init t).run t a (cs ++ later)).out = (ms.map g).flatMap a.reply ++ badRequest := by
  have hc' : cs.flatten = (ms ++ [bad]).flatMap HMsg.text := by rw [hc]; simp
  obtain ⟨st, evs, fs, r1, r2, _, r4⟩ := ht (ms ++ [bad]) h cs (by rw [hc']; exact List.prefix_refl _)
  have hev := r4 hc'
  obtain ⟨fs1, fs2, rfl, q1, q2⟩ : ∃ fs1 fs2, fs = fs1 ++ fs2 ∧ List.Forall₂ Cut.Of fs1 ms ∧ List.Forall₂ Cut.Of fs2 [bad] := by
    refine ⟨fs.take ms.length, fs.drop ms.length, (List.take_append_drop _ _).symm, List.forall₂_take_append _ _ _ r2, List.forall₂_drop_append _ _ _ r2⟩
  obtain ⟨f, rfl⟩ : ∃ f, fs2 = [f] := by
    cases q2 with
    | cons _ h2 => cases h2; exact ⟨_, rfl⟩
  have hfb : Cut.Of f bad := by
    cases q2 with
    | cons h1 _ => exact h1
  have hsplit := allEvents_snoc q1 f bad
  obtain ⟨c', fl', u', hp⟩ := steps_shape a.z g q1 (fun m hm q hq => ((h m (by simp [hm])).fields q hq).name.1) hg none false []
  have hbad := handle_bad a.z hfb (fun q hq => ((h bad (by simp)).fields q hq).name.1) hb c' fl' u'
  have hinit0 : HSt.init = ⟨⟨none, false, [], [], []⟩, []⟩ := rfl
  have hhandle : handle a.z HSt.init evs = ((handle a.z ⟨⟨c', fl', [], [], []⟩, u'⟩ (f.events bad.info)).1, ms.map g, false) := by
    rw [hev, hsplit, handle_append, hinit0, handle_some a.z _ _ _ _ hp]
    simp only [if_true]
    rw [hbad.1, hbad.2, List.append_nil]
  have hr := run_handle t a cs (Srv.init t) rfl
  have hfeed : t.feed (Srv.init t).ll cs = (st, evs, true) := r1
  have hinit : (Srv.init t).p = HSt.init := rfl
  rw [hfeed] at hr
  simp only [hinit, hhandle, Bool.and_false, Bool.false_eq_true, if_false] at hr
  obtain ⟨o1, o2, o3⟩ := hr
  have hl : (Srv.init t).run t a (cs ++ later) = (Srv.init t).run t a cs := by
    unfold Srv.run
    rw [List.foldl_append]
    exact run_closed t a later _ o3
  rw [hl]
  exact ⟨by rw [o2]; rfl, o3, by rw [o1]; simp [Srv.init]⟩

/-- What every connection looks like. -/
def Shape (a : App) (s : Srv τ) : Prop :=
  s.out = s.handed.flatMap a.reply ++ (if s.isOpen then [] else badRequest)

theorem step_shape (t : LL τ) (a : App) (s : Srv τ) (piece : Str) (h : Shape a s) : Shape a (s.step t a piece) := by
  unfold Srv.step
  split
  · rename_i ho
    unfold Shape at h ⊢
    rw [ho] at h
    simp only [if_true, List.append_nil] at h
    simp only [h, List.flatMap_append]
  · exact h

/-- **C204: anything else is refused once.**  Whatever llhttp and whatever bytes: what was written are the answers to the requests handed to
the handler, in order, and after them, exactly if the connection was refused, one 400; then it is closed, and nothing follows. -/
theorem c204_refused (t : LL τ) (a : App) (cs cs' : List Str) :
    ((Srv.init t).run t a cs).out = ((Srv.init t).run t a cs).handed.flatMap a.reply ++
      (if ((Srv.init t).run t a cs).isOpen then [] else badRequest) ∧
    (((Srv.init t).run t a cs).isOpen = false → (Srv.init t).run t a (cs ++ cs') = (Srv.init t).run t a cs) := by
  constructor
  · have : ∀ (cs : List Str) (s : Srv τ), Shape a s → Shape a (s.run t a cs) := by
      intro cs
      induction cs with
      | nil => intro s h; exact h
      | cons c cs ih => intro s h; exact ih _ (step_shape t a s c h)
    exact this cs _ rfl
  · intro hcl
    unfold Srv.run
    rw [List.foldl_append]
    exact run_closed t a cs' _ hcl

/-- **C204: the refusal says 400.**  A client that reads the refusal finds a status line with the code 400, an empty header and nothing more. -/
theorem c204_bad_request : ∃ line rest, takeLine badRequest = some (line, rest) ∧ statusOf line = some 400 ∧ parseHeaders rest = some ([], []) :=
  ⟨"HTTP/1.1 400 Bad Request".toList, "\r\n".toList, by decide +kernel, by decide +kernel, by decide +kernel⟩

/-- **C203 violated: a request that asks for an upgrade is answered twice, or refused.**  A server may ignore Upgrade (RFC 7230, 6.7).  Here,
with llhttp as documented: after any requests, whatever a request that asks for an upgrade is and however the bytes are cut, its handler
is called and its answer written, and then a 400, which a client reads as the answer to its next request; the connection is closed, and
whatever it asks later is neither handled nor answered. -/
theorem c203_upgrade_violated {t : LL τ} (hp : t.Pauses) (a : App) (ms : List HMsg) (u : HMsg) (g : HMsg → Got) (h : ∀ m ∈ ms, m.Sound true)
    (hu : AsksUpgrade u) (hg : ∀ m ∈ ms ++ [u], m.got a.z true = some (g m))
    (ha : ∀ m ∈ ms ++ [u], Fine (a.sent (g m)) ∧ (noContent m.start.method (sentCode (a.sent (g m))) → (a.sent (g m)).body = []))
    (cs later : List Str) (hc : cs.flatten = ms.flatMap HMsg.text ++ u.text) :
    ((Srv.init t).run t a (cs ++ later)).handed = (ms ++ [u]).map g ∧ ((Srv.init t).run t a (cs ++ later)).isOpen = false ∧
    ∃ seen, readAll ((ms ++ [u]).map (fun m => m.start.method)) ((Srv.init t).run t a (cs ++ later)).out = some (seen, badRequest) ∧
      seen.length = ms.length + 1 := by
  obtain ⟨st, evs, fs, f, r1, r2, r3, r4⟩ := hp ms u h hu cs hc
  have hff : List.Forall₂ Cut.Of (fs ++ [f]) (ms ++ [u]) := List.rel_append r2 (.cons r3 .nil)
  have hev : allEvents (fs ++ [f]) (ms ++ [u]) = evs := by
    rw [r4]
    clear r1 r4 hff hc hg ha h
    induction r2 with
    | nil => simp [allEvents]
    | cons _ _ ih => simp only [List.cons_append, allEvents, ih, List.append_assoc]
  obtain ⟨p, hq⟩ := steps_all a.z hff (fun m hm q hq => by
    rcases List.mem_append.1 hm with hm | hm
    · exact ((h m hm).fields q hq).name.1
    · rw [List.mem_singleton] at hm
      subst hm
      exact (hu.fields q hq).name.1) g hg
  rw [hev] at hq
  obtain ⟨o1, o2, o3⟩ := run_feed t a cs (Srv.init t) st evs false p _ rfl r1 hq
  have hl : (Srv.init t).run t a (cs ++ later) = (Srv.init t).run t a cs := (c204_refused t a cs later).2 o3
  rw [hl]
  refine ⟨by rw [o2]; rfl, o3, ?_⟩
  obtain ⟨seen, s1, s2⟩ := answers_read a g (ms ++ [u]) badRequest ha
  refine ⟨seen, ?_, by rw [s2.length_eq]; simp⟩
  rw [o1]
  simpa [Srv.init] using s1

/-- A request with another body of the same length. -/
theorem swap_req {m : HMsg} (h : m.Sound true) {b : Str} (hl : b.length = m.body.length) (hb : ∀ c ∈ b, c.toNat < 256) :
    ({ m with body := b } : HMsg).Sound true := by
  refine ⟨?_, h.minor, h.fields, ?_, h.alive, h.alives, h.others, hb, ?_⟩
  · have := h.start
    obtain ⟨start, minor, headers, body⟩ := m
    cases start with
    | req a b => exact this
    | resp c d => exact absurd this.1 (by simp)
  · show ∃ n, m.headers.filter _ = [(n, dec b.length)]
    rw [hl]
    exact h.length
  · show b.length < 2 ^ 31
    rw [hl]
    exact h.body.2

/-- **C203 violated: who waits for 100 Continue waits for ever.**  A server that has received the header fields of a request with
`Expect: 100-continue` must answer: with 100 or with a final response (RFC 7231, 5.1.1).  Whatever the requests before and however the bytes
are cut, nothing is written and nobody is told. -/
theorem c203_expect_violated {t : LL τ} (ht : t.Meets) (a : App) (m : HMsg) (h : m.Sound true) (hne : m.body ≠ [])
    (_hx : ("expect".toList, "100-continue".toList) ∈ m.headers)
    (hpl : NoContent.Plain m) (cs : List Str) (hc : cs.flatten = headText m) :
    ((Srv.init t).run t a cs).out = [] ∧ ((Srv.init t).run t a cs).handed = [] ∧ ((Srv.init t).run t a cs).isOpen = true := by
  have fill : ∀ c : Char, c.toNat < 256 → ∃ got, ((Srv.init t).run t a cs).handed = got ∧ got.all (fun x => x.body == List.replicate m.body.length c) = true ∧
      ((Srv.init t).run t a cs).out = got.flatMap a.reply ∧ ((Srv.init t).run t a cs).isOpen = true := by
    intro c hlt
    have hs := swap_req h (b := List.replicate m.body.length c) (by simp) (by
      intro d hd
      rw [List.mem_replicate] at hd
      rw [hd.2]; exact hlt)
    obtain ⟨got, g1, g2, g3, g4⟩ := c204_prefix ht a [{ m with body := List.replicate m.body.length c }]
      (fun m => ⟨m.start.method, m.start.url, m.start.code, m.minor, true, m.headers.foldl (fun h p => insertHeader h p.1 p.2) [], m.body⟩)
      (by
        intro x hx
        rw [List.mem_singleton] at hx
        rw [hx]; exact hs)
      (by
        intro x hx
        rw [List.mem_singleton] at hx
        subst hx
        unfold HMsg.got commit decodeBody
        rw [hpl.1, hpl.2]
        rfl) cs (by
        rw [hc, List.flatMap_cons, List.flatMap_nil, List.append_nil, text_eq]
        exact List.prefix_append _ _)
    refine ⟨got, g1, ?_, g3, g4⟩
    rw [List.all_eq_true]
    intro x hx
    have := g2.subset hx
    rw [List.map_cons, List.map_nil, List.mem_singleton] at this
    rw [this]
    simp
  obtain ⟨g, a1, a2, a3, a4⟩ := fill 'a' (by decide)
  obtain ⟨g', b1, b2, _, _⟩ := fill 'b' (by decide)
  rw [a1] at b1
  subst b1
  cases g with
  | nil => exact ⟨by rw [a3]; rfl, a1, a4⟩
  | cons x l =>
    exfalso
    simp only [List.all_cons, Bool.and_eq_true, beq_iff_eq] at a2 b2
    have eb := a2.1.symm.trans b2.1
    cases hb : m.body with
    | nil => exact hne hb
    | cons y ys =>
      rw [hb] at eb
      simp [List.replicate_succ] at eb

/-! ### Concrete: a tokenizer that waits for whole messages and pauses after requests that ask for an upgrade -/

/-- A message whose length, if it says none, is 0. -/
def parseReq (s : Str) : Option (Str × Headers × Str × Str) :=
  match takeLine s with
  | none => none
  | some l =>
    match parseHeaders l.2 with
    | none => none
    | some h =>
      if (contentLength h.1).getD 0 ≤ h.2.length then
        some (l.1, h.1, h.2.take ((contentLength h.1).getD 0), h.2.drop ((contentLength h.1).getD 0)) else none

theorem parseReq_stable (x s : Str) (m : Str × Headers × Str × Str) (h : parseReq s = some m) :
    parseReq (s ++ x) = some (m.1, m.2.1, m.2.2.1, m.2.2.2 ++ x) := by
  unfold parseReq at h
  split at h
  · simp at h
  · rename_i l hl
    split at h
    · simp at h
    · rename_i w hw
      split at h
      · rename_i hle
        simp only [Option.some.injEq] at h
        unfold parseReq
        rw [takeLine_stable x s l hl]
        simp only
        rw [parseHeaders_stable x _ w hw]
        simp only
        rw [if_pos (by simp; omega), ← h, List.take_append_of_le_length hle, List.drop_append_of_le_length hle]
      · simp at h

theorem parseReq_lt (s : Str) (m : Str × Headers × Str × Str) (h : parseReq s = some m) : m.2.2.2.length < s.length := by
  unfold parseReq at h
  split at h
  · simp at h
  · rename_i l hl
    split at h
    · simp at h
    · rename_i w hw
      split at h
      · simp only [Option.some.injEq] at h
        have := takeLine_lt _ _ hl
        have := parseHeaders_le _ _ hw
        rw [← h]
        simp only [List.length_drop]
        omega
      · simp at h

def reqDecoder : Stream.Decoder Char (Str × Headers × Str) where
  dec s := match parseReq s with
    | none => .more
    | some m => .out (m.1, m.2.1, m.2.2.1) m.2.2.2
  shrinks := by
    intro b e r h
    cases hp : parseReq b with
    | none => rw [hp] at h; simp at h
    | some m =>
      rw [hp] at h
      simp only [Stream.Res.out.injEq] at h
      rw [← h.2]
      exact parseReq_lt b m hp

theorem reqDecoder_stable : reqDecoder.Stable := by
  constructor
  · intro b e r x h
    simp only [reqDecoder] at h ⊢
    cases hp : parseReq b with
    | none => rw [hp] at h; simp at h
    | some m =>
      rw [hp] at h
      simp only [Stream.Res.out.injEq] at h
      rw [parseReq_stable x b m hp]
      simp only [← h.1, ← h.2]
  · intro b x h
    simp only [reqDecoder] at h
    cases hp : parseReq b <;> rw [hp] at h <;> simp at h

theorem reqDecoder_rest (s : Str) : ∃ k, (reqDecoder.drain s).rest = some k := by
  induction hn : s.length using Nat.strongRecOn generalizing s with
  | ind n ih =>
    cases hd : reqDecoder.dec s with
    | more => rw [Stream.drain_more _ hd]; exact ⟨_, rfl⟩
    | crash =>
      simp only [reqDecoder] at hd
      cases hp : parseReq s <;> rw [hp] at hd <;> simp at hd
    | out e r =>
      rw [Stream.drain_out _ hd]
      exact ih r.length (by have := reqDecoder.shrinks hd; omega) r rfl

/-- The message asks for an upgrade. -/
def asks (x : Str × Headers × Str) : Bool :=
  x.2.1.any (fun p => sameName p.1 "upgrade".toList) &&
  x.2.1.any (fun p => sameName p.1 "connection".toList && p.2.map Char.toLower == "upgrade".toList)

/-- Callbacks up to the first message that asks for an upgrade. -/
def upTo : List (Str × Headers × Str) → List Ev × Bool
  | [] => ([], true)
  | x :: xs => if asks x then (evOf true x, false) else (evOf true x ++ (upTo xs).1, (upTo xs).2)

def lazyLL : LL Str where
  init := []
  exec kept c := (((reqDecoder.drain (kept ++ c)).rest).getD [], upTo (reqDecoder.drain (kept ++ c)).items)

theorem upTo_append (a b : List (Str × Headers × Str)) :
    upTo (a ++ b) = if (upTo a).2 then ((upTo a).1 ++ (upTo b).1, (upTo b).2) else upTo a := by
  induction a with
  | nil => simp [upTo]
  | cons x a ih =>
    rw [List.cons_append, upTo, upTo]
    by_cases hx : asks x = true
    · rw [if_pos hx, if_pos hx]; simp
    · rw [if_neg hx, if_neg hx, ih]
      by_cases h2 : (upTo a).2 = true
      · rw [if_pos h2, if_pos h2]; simp
      · rw [if_neg h2, if_neg h2]

theorem lazy_feed : ∀ (cs : List Str) (kept : Str), reqDecoder.dec kept = .more →
    ∃ st, lazyLL.feed kept cs = (st, (upTo (reqDecoder.drain (kept ++ cs.flatten)).items).1, (upTo (reqDecoder.drain (kept ++ cs.flatten)).items).2) := by
  intro cs
  induction cs with
  | nil =>
    intro kept hk
    refine ⟨kept, ?_⟩
    rw [List.flatten_nil, List.append_nil, Stream.drain_more _ hk]
    rfl
  | cons c cs ih =>
    intro kept hk
    obtain ⟨k, hr⟩ := reqDecoder_rest (kept ++ c)
    have hd := Stream.drain_append _ reqDecoder_stable (kept ++ c) cs.flatten
    rw [hr] at hd
    simp only at hd
    rw [List.flatten_cons, ← List.append_assoc, hd, LL.feed]
    simp only [upTo_append]
    have hx : (lazyLL.exec kept c).2 = upTo (reqDecoder.drain (kept ++ c)).items := rfl
    have hx1 : (lazyLL.exec kept c).1 = k := by
      show ((reqDecoder.drain (kept ++ c)).rest).getD [] = k
      rw [hr]; rfl
    rw [hx, hx1]
    by_cases hok : (upTo (reqDecoder.drain (kept ++ c)).items).2 = true
    · rw [if_pos hok, if_pos hok]
      obtain ⟨st, hst⟩ := ih k (Stream.drain_rest_more _ _ hr)
      refine ⟨st, ?_⟩
      rw [hst]
    · rw [if_neg hok, if_neg hok]
      refine ⟨k, ?_⟩
      have : (upTo (reqDecoder.drain (kept ++ c)).items).2 = false := by simpa using hok
      rw [this]

theorem req_text {m : HMsg} (hline : '\r' ∉ m.start.line m.minor) (hf : ∀ p ∈ m.headers, FieldSound p)
    (hl : (contentLength m.headers).getD 0 = m.body.length) (x : Str) :
    reqDecoder.dec (m.text ++ x) = .out (m.start.line m.minor, m.headers, m.body) x := by
  have e : m.text ++ x = m.start.line m.minor ++ crlf ++ (m.headers.flatMap (fun p => headerLine p.1 p.2) ++ (crlf ++ (m.body ++ x))) := by
    simp [HMsg.text]
  have hp : parseReq (m.text ++ x) = some (m.start.line m.minor, m.headers, m.body, x) := by
    rw [e]
    unfold parseReq
    rw [takeLine_line _ _ hline]
    simp only
    rw [parseHeaders_clean _ _ (fun p hp => (hf p hp).clean)]
    simp only [hl]
    simp
  simp only [reqDecoder, hp]

theorem sound_text {m : HMsg} (h : m.Sound true) (x : Str) :
    reqDecoder.dec (m.text ++ x) = .out (m.start.line m.minor, m.headers, m.body) x :=
  req_text (line_clean h) h.fields (by rw [contentLength_sound h]; rfl) x

theorem not_asks {m : HMsg} (h : m.Sound true) : asks (m.start.line m.minor, m.headers, m.body) = false := by
  unfold asks
  rw [Bool.and_eq_false_iff]
  left
  rw [List.any_eq_false]
  intro p hp
  rw [(h.others p hp).2.1]
  decide

theorem upTo_sound : ∀ (ms : List HMsg), (∀ m ∈ ms, m.Sound true) →
    upTo (ms.map (fun m => (m.start.line m.minor, m.headers, m.body))) = (allEvents (ms.map whole) ms, true) := by
  intro ms
  induction ms with
  | nil => intro _; rfl
  | cons m ms ih =>
    intro h
    rw [List.map_cons, upTo, if_neg (by rw [not_asks (h m (by simp))]; decide), ih (fun x hx => h x (by simp [hx]))]
    rw [List.map_cons, allEvents]
    congr 2
    unfold evOf
    rw [startOf_line (h m (by simp))]

theorem upTo_pre (a b : List (Str × Headers × Str)) (h : (upTo (a ++ b)).2 = true) : (upTo a).2 = true ∧ (upTo a).1 <+: (upTo (a ++ b)).1 := by
  rw [upTo_append] at h ⊢
  by_cases ha : (upTo a).2 = true
  · rw [if_pos ha]
    exact ⟨ha, List.prefix_append _ _⟩
  · rw [if_neg ha] at h
    exact absurd h ha

theorem lazyLL_meets : lazyLL.Meets := by
  intro ms hms cs hpre
  obtain ⟨y, hy⟩ := hpre
  have hnil : reqDecoder.dec [] = .more := rfl
  have hall := Stream.drain_concat reqDecoder HMsg.text (fun m => (m.start.line m.minor, m.headers, m.body)) ms
    (fun m hm x => sound_text (hms m hm) x) []
  rw [List.append_nil, Stream.drain_more _ hnil] at hall
  simp only [List.append_nil] at hall
  obtain ⟨st, hst⟩ := lazy_feed cs [] hnil
  simp only [List.nil_append] at hst
  obtain ⟨k, hk⟩ := reqDecoder_rest cs.flatten
  have ha := Stream.drain_append _ reqDecoder_stable cs.flatten y
  rw [hy, hall, hk] at ha
  simp only [Stream.Outcome.mk.injEq] at ha
  have hu := upTo_sound ms hms
  rw [ha.1] at hu
  have hp := upTo_pre _ _ (by rw [hu])
  refine ⟨st, (upTo (reqDecoder.drain cs.flatten).items).1, ms.map whole, ?_, ?_, ?_, ?_⟩
  · show lazyLL.feed [] cs = _
    rw [hst, hp.1]
  · rw [List.forall₂_map_left_iff]
    exact List.forall₂_same.2 (fun m _ => whole_of m)
  · have := hp.2
    rw [hu] at this
    exact this
  · intro he
    rw [he, hall, upTo_sound ms hms]

theorem upgrade_line {u : HMsg} (h : AsksUpgrade u) : '\r' ∉ u.start.line u.minor ∧ startOf true (u.start.line u.minor) = (u.start, u.minor) := by
  -- the start line is that of a well-formed request
  have hs : (⟨u.start, u.minor, [("content-length".toList, dec 0), ("connection".toList, "keep-alive".toList)], []⟩ : HMsg).Sound true := by
    have hd : dec 0 = "0".toList := by decide +kernel
    refine ⟨h.start, by rw [h.minor], ?_, ?_, ?_, ?_, ?_, ?_⟩
    · intro p hp
      simp only [List.mem_cons, List.not_mem_nil, or_false] at hp
      rw [hd] at hp
      rcases hp with rfl | rfl <;> exact ⟨⟨by decide, by decide +kernel⟩, ⟨by decide +kernel, by decide +kernel, by decide +kernel⟩⟩
    · exact ⟨"content-length".toList, by
        rw [List.filter_cons_of_pos (by decide +kernel), List.filter_cons_of_neg (by decide +kernel)]; rfl⟩
    · exact ⟨("connection".toList, "keep-alive".toList), by simp, by decide +kernel⟩
    · intro p hp
      simp only [List.mem_cons, List.not_mem_nil, or_false] at hp
      rcases hp with rfl | rfl
      · intro hc; exact absurd hc (by show ¬ sameName "content-length".toList _ = true; decide +kernel)
      · intro _; decide +kernel
    · intro p hp
      simp only [List.mem_cons, List.not_mem_nil, or_false] at hp
      rcases hp with rfl | rfl
      · show sameName "content-length".toList _ = false ∧ sameName "content-length".toList _ = false ∧ sameName "content-length".toList _ = false
        decide +kernel
      · decide +kernel
    · exact ⟨by intro c hc; exact absurd hc (by simp), by show 0 < 2 ^ 31; omega⟩
  have a := line_clean hs
  have b := startOf_line hs
  exact ⟨a, b⟩

theorem lazyLL_pauses : lazyLL.Pauses := by
  intro ms u hms hu cs hc
  have hnil : reqDecoder.dec [] = .more := rfl
  have hlen : (contentLength u.headers).getD 0 = u.body.length := by
    rw [hu.body]
    have := List.head?_filter (p := fun p : Str × Str => sameName p.1 "content-length".toList) (l := u.headers)
    unfold contentLength
    rw [← this]
    rcases hu.length with hl | ⟨n, hl⟩
    · rw [hl]; rfl
    · rw [hl]
      show (readDec (dec 0)).getD 0 = 0
      rw [readDec_dec]
      rfl
  have h1 := req_text (m := u) (upgrade_line hu).1 hu.fields hlen []
  rw [List.append_nil] at h1
  have hall := Stream.drain_concat reqDecoder HMsg.text (fun m => (m.start.line m.minor, m.headers, m.body)) ms
    (fun m hm x => sound_text (hms m hm) x) u.text
  rw [Stream.drain_out _ h1, Stream.drain_more _ hnil] at hall
  have hasks : asks (u.start.line u.minor, u.headers, u.body) = true := by
    unfold asks
    rw [Bool.and_eq_true]
    constructor
    · rw [List.any_eq_true]; exact hu.upgrade
    · rw [List.any_eq_true]
      obtain ⟨p, hp, hq⟩ := hu.connection
      exact ⟨p, hp, by rw [hq, hu.connections p hp hq]; simp⟩
  obtain ⟨st, hst⟩ := lazy_feed cs [] hnil
  simp only [List.nil_append] at hst
  rw [hc, hall] at hst
  simp only at hst
  rw [upTo_append, upTo_sound ms hms] at hst
  simp only [if_true, upTo, hasks] at hst
  refine ⟨st, _, ms.map whole, whole u, hst, ?_, whole_of u, ?_⟩
  · rw [List.forall₂_map_left_iff]
    exact List.forall₂_same.2 (fun m _ => whole_of m)
  · congr 1
    unfold evOf
    rw [(upgrade_line hu).2]

/-- An application whose handlers say hello, and nothing to HEAD. -/
def demoApp : App :=
  ⟨⟨fun _ => none, fun _ => none⟩, fun _ => none, fun _ => none, fun g => ⟨200, 1, [], true, if g.method = "HEAD".toList then [] else "hello".toList⟩⟩

theorem demo_sent (g : Got) : demoApp.sent g = ⟨200, 1, [], g.keep, if g.method = "HEAD".toList then [] else "hello".toList⟩ := by
  unfold App.sent beforeSend
  rw [if_neg]
  · rfl
  · intro h
    have : ((demoApp.answer g).body).length ≤ 5 := by
      show (if g.method = "HEAD".toList then ([] : Str) else "hello".toList).length ≤ 5
      split <;> decide
    have h1 : 8096 < (demoApp.answer g).body.length := h.1
    omega

/-- Its answers are as C204 asks. -/
theorem demo_answers (m : HMsg) (g : Got) (h : g.method = m.start.method) :
    Fine (demoApp.sent g) ∧ (noContent m.start.method (sentCode (demoApp.sent g)) → (demoApp.sent g).body = []) := by
  rw [demo_sent]
  refine ⟨⟨by show 1 ≤ 1; omega, .inl ⟨by show (0 : Int) ≤ 200; omega, by show known 200 = true; decide⟩,
    fun p hp => absurd hp (by simp), fun p hp => absurd hp (by simp)⟩, ?_⟩
  intro hn
  have hc : sentCode ⟨200, 1, [], g.keep, if g.method = "HEAD".toList then [] else "hello".toList⟩ = 200 := rfl
  rw [hc] at hn
  rcases hn with hn | hn | hn | hn
  · show (if g.method = "HEAD".toList then ([] : Str) else "hello".toList) = []
    rw [if_pos (h.trans hn)]
  all_goals omega

/-- `POST /` with a body of five bytes and Expect: 100-continue. -/
def demoPost : HMsg := ⟨.req "POST".toList "/".toList, 1, [("content-length".toList, "5".toList), ("connection".toList, "keep-alive".toList),
  ("expect".toList, "100-continue".toList)], "hello".toList⟩

/-- `GET /` with Upgrade: h2c, as a client sends it that can do HTTP/2. -/
def demoUpgrade : HMsg := ⟨.req "GET".toList "/".toList, 1, [("host".toList, "h".toList), ("connection".toList, "Upgrade".toList),
  ("upgrade".toList, "h2c".toList)], []⟩

theorem demoPost_sound : demoPost.Sound true ∧ NoContent.Plain demoPost := by
  have hd : dec 5 = "5".toList := by decide +kernel
  refine ⟨⟨⟨rfl, by decide, by decide, by decide +kernel⟩, by decide, ?_, ?_, ?_, ?_, ?_, ?_, ?_⟩, ?_, ?_⟩
  · intro p hp
    simp only [demoPost, List.mem_cons, List.not_mem_nil, or_false] at hp
    rcases hp with rfl | rfl | rfl <;> exact ⟨⟨by decide, by decide +kernel⟩, ⟨by decide +kernel, by decide +kernel, by decide +kernel⟩⟩
  · refine ⟨"content-length".toList, ?_⟩
    show _ = [("content-length".toList, dec 5)]
    rw [hd]
    decide +kernel
  · exact ⟨("connection".toList, "keep-alive".toList), by simp [demoPost], by decide +kernel⟩
  · decide +kernel
  · decide +kernel
  · decide +kernel
  · decide
  · decide +kernel
  · decide +kernel

theorem demoUpgrade_asks : AsksUpgrade demoUpgrade := by
  refine ⟨⟨rfl, by decide, by decide, by decide +kernel⟩, rfl, ?_, rfl, .inl (by decide +kernel), ?_, by decide +kernel, ?_, by decide +kernel⟩
  · intro p hp
    simp only [demoUpgrade, List.mem_cons, List.not_mem_nil, or_false] at hp
    rcases hp with rfl | rfl | rfl <;> exact ⟨⟨by decide, by decide +kernel⟩, ⟨by decide +kernel, by decide +kernel, by decide +kernel⟩⟩
  · exact ⟨("connection".toList, "Upgrade".toList), by simp [demoUpgrade], by decide +kernel⟩
  · exact ⟨("upgrade".toList, "h2c".toList), by simp [demoUpgrade], by decide +kernel⟩

/-- llhttp as described exists in the model. -/
theorem w_c204 : lazyLL.Meets ∧ lazyLL.Pauses := ⟨lazyLL_meets, lazyLL_pauses⟩

/-- C204 on two requests. -/
theorem w_c204_demo : ((Srv.init lazyLL).run lazyLL demoApp [demoPost.text ++ demoPost.text]).isOpen = true ∧
    ((Srv.init lazyLL).run lazyLL demoApp [demoPost.text ++ demoPost.text]).handed.length = 2 := by
  have h := c204_answers lazyLL_meets demoApp [demoPost, demoPost]
    (fun m => ⟨m.start.method, m.start.url, m.start.code, m.minor, true, m.headers.foldl (fun h p => insertHeader h p.1 p.2) [], m.body⟩)
    (by
      intro m hm
      have : m = demoPost := by simpa using hm
      rw [this]; exact demoPost_sound.1)
    (by
      intro m hm
      have : m = demoPost := by simpa using hm
      subst this
      unfold HMsg.got commit decodeBody
      rw [demoPost_sound.2.1, demoPost_sound.2.2]
      rfl)
    (fun m _ => demo_answers m _ rfl) [demoPost.text ++ demoPost.text] (by simp)
  exact ⟨h.2.1, by rw [h.1]; rfl⟩

/-- `POST /` whose body is said to be gzip, and is not. -/
def demoBad : HMsg := ⟨.req "POST".toList "/".toList, 1, [("content-length".toList, "5".toList), ("connection".toList, "keep-alive".toList),
  ("content-encoding".toList, "gzip".toList)], "hello".toList⟩

theorem demoBad_sound : demoBad.Sound true ∧ demoBad.got demoApp.z true = none := by
  have hd : dec 5 = "5".toList := by decide +kernel
  refine ⟨⟨⟨rfl, by decide, by decide, by decide +kernel⟩, by decide, ?_, ?_, ?_, ?_, ?_, ?_, ?_⟩, ?_⟩
  · intro p hp
    simp only [demoBad, List.mem_cons, List.not_mem_nil, or_false] at hp
    rcases hp with rfl | rfl | rfl <;> exact ⟨⟨by decide, by decide +kernel⟩, ⟨by decide +kernel, by decide +kernel, by decide +kernel⟩⟩
  · refine ⟨"content-length".toList, ?_⟩
    show _ = [("content-length".toList, dec 5)]
    rw [hd]
    decide +kernel
  · exact ⟨("connection".toList, "keep-alive".toList), by simp [demoBad], by decide +kernel⟩
  · decide +kernel
  · decide +kernel
  · decide +kernel
  · decide
  · decide +kernel

/-- C204's refusal on such requests, a good one first. -/
theorem w_c204_bad : ((Srv.init lazyLL).run lazyLL demoApp [demoPost.text ++ demoBad.text, demoPost.text]).isOpen = false ∧
    ((Srv.init lazyLL).run lazyLL demoApp [demoPost.text ++ demoBad.text, demoPost.text]).handed.length = 1 := by
  have h := c204_undecodable lazyLL_meets demoApp [demoPost] demoBad
    (fun m => ⟨m.start.method, m.start.url, m.start.code, m.minor, true, m.headers.foldl (fun h p => insertHeader h p.1 p.2) [], m.body⟩)
    (by
      intro m hm
      rcases List.mem_append.1 hm with hm | hm
      · have : m = demoPost := by simpa using hm
        rw [this]; exact demoPost_sound.1
      · have : m = demoBad := by simpa using hm
        rw [this]; exact demoBad_sound.1)
    (by
      intro m hm
      have : m = demoPost := by simpa using hm
      subst this
      unfold HMsg.got commit decodeBody
      rw [demoPost_sound.2.1, demoPost_sound.2.2]
      rfl)
    demoBad_sound.2 [demoPost.text ++ demoBad.text] [demoPost.text] (by simp)
  exact ⟨h.2.1, (congrArg List.length h.1).trans rfl⟩

/-- The violations on these requests. -/
theorem w_c203 : AsksUpgrade demoUpgrade ∧ NoContent.Plain demoUpgrade ∧ demoPost.Sound true ∧ NoContent.Plain demoPost ∧ demoPost.body ≠ [] ∧
    ("expect".toList, "100-continue".toList) ∈ demoPost.headers :=
  ⟨demoUpgrade_asks, ⟨by decide +kernel, by decide +kernel⟩, demoPost_sound.1, demoPost_sound.2, by decide, by simp [demoPost]⟩

end Ltio.Http.Serve
