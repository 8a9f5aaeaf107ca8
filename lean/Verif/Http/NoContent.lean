import Verif.Http.ConnectionProps
/-
Responses without content: answers to HEAD, and responses with codes 1xx, 204 and 304 (RFC 7230, 3.3.3: their message ends after the
header section, whatever the header fields say).

Modelled code: `HttpCodecService::SendResponse`, `ResponseToBuffer` (http_codec_service.cc:149-222), which write the body and its
length whatever the request's method and the code; `HttpUtil::expect_response_body` (http_util.h:9-21) has no caller.  On the client's
side `HttpParser<…, HttpResponse>` (parser_context.h:122-133): `OnHeaderFinish` always returns 0 (go on with the body), it does not know
the request; llhttp by its contract (Receive.lean).
-/
namespace Ltio.Http.NoContent
open Ltio.Text

/-- `HttpUtil::expect_response_body(method, code)` (http_util.h:10-17), which nobody calls. -/
def expectBody (method : Str) (code : Nat) : Bool :=
  decide (method ≠ "HEAD".toList) && (decide (code = 101) || (decide (code / 100 ≠ 1) && decide (code ≠ 304) && decide (code ≠ 204)))

/-- `SendResponse` (http_codec_service.cc:149-183): what is written for a response to a request with this Accept-Encoding.  The method of
the request is not looked at. -/
def sendResp (gzip deflate : Str → Option Str) (accept : Str) (r : Resp) : Option Str :=
  encodeResp (beforeSend gzip deflate accept r)

/-! ### Specification: a client that knows what it asked for (RFC 7230, 3.3.3) -/

/-- No content whatever the header fields say. -/
def noContent (method : Str) (code : Nat) : Prop :=
  method = "HEAD".toList ∨ (100 ≤ code ∧ code < 200) ∨ code = 204 ∨ code = 304

instance (m : Str) (c : Nat) : Decidable (noContent m c) := by unfold noContent; infer_instance

/-- The code of a status line: the number after the first blank. -/
def statusOf (line : Str) : Option Nat := readDec (((line.dropWhile (· ≠ ' ')).drop 1).takeWhile Char.isDigit)

/-- A response as seen by a client: status line, code, headers, content. -/
structure Seen where
  line : Str
  code : Nat
  headers : Headers
  body : Str
deriving DecidableEq

/-- The response to a request with this method, and the rest of the stream. -/
def readResp (method : Str) (s : Str) : Option (Seen × Str) :=
  match takeLine s with
  | none => none
  | some l => match statusOf l.1, parseHeaders l.2 with
    | some code, some h =>
      if noContent method code then some (⟨l.1, code, h.1, []⟩, h.2)
      else match contentLength h.1 with
        | none => none
        | some n => if n ≤ h.2.length then some (⟨l.1, code, h.1, h.2.take n⟩, h.2.drop n) else none
    | _, _ => none

/-- The responses to requests with these methods, in order. -/
def readAll : List Str → Str → Option (List Seen × Str)
  | [], s => some ([], s)
  | m :: ms, s => (readResp m s).bind (fun x => (readAll ms x.2).map (fun y => (x.1 :: y.1, y.2)))

/-- The code that is sent: unknown ones become 500. -/
def sentCode (r : Resp) : Nat := if r.code < 100 ∨ 511 < r.code then 500 else r.code.toNat

/-- Responses that can be written on lines of their own, with no wrong length (C31, C43). -/
structure Fine (r : Resp) : Prop where
  minor : r.minor ≤ 1
  code : (0 ≤ r.code ∧ known r.code.toNat = true) ∨ r.code < 100 ∨ 511 < r.code
  clean : CleanHeaders r.headers
  length : LengthOk r.headers r.body

/-! ### Proofs -/

theorem lines_ok : ∀ e ∈ descTable, ∀ m ≤ 1,
    '\r' ∉ ("HTTP/1." ++ toString m ++ " " ++ toString e.1 ++ " " ++ entry descTable e.1).toList ∧
    statusOf ("HTTP/1." ++ toString m ++ " " ++ toString e.1 ++ " " ++ entry descTable e.1).toList = some e.1 := by
  decide +kernel

theorem line_range : ∀ e ∈ lineTable, 100 ≤ e.1 ∧ e.1 ≤ 511 := by decide

/-- The status line. -/
theorem head_line {r : Resp} (h : Fine r) : ∃ line : Str, '\r' ∉ line ∧ statusOf line = some (sentCode r) ∧
    ∃ l, headLine r.code r.minor = some l ∧ l.toList = line ++ crlf := by
  have hm := h.minor
  have hst := c31_status_line_partial r.code r.minor hm
  have fin : ∀ code reason, (code, reason) ∈ descTable → reason = entry descTable code → headLine r.code r.minor = some (statusLine r.minor code reason) →
      code = sentCode r → ∃ line : Str, '\r' ∉ line ∧ statusOf line = some (sentCode r) ∧
        ∃ l, headLine r.code r.minor = some l ∧ l.toList = line ++ crlf := by
    intro code reason hmem he hl hc
    have := lines_ok _ hmem r.minor hm
    refine ⟨("HTTP/1." ++ toString r.minor ++ " " ++ toString code ++ " " ++ entry descTable code).toList, this.1, by rw [← hc]; exact this.2,
      statusLine r.minor code reason, hl, ?_⟩
    rw [he]
    unfold statusLine
    rw [String.toList_append]
    rfl
  rcases h.code with ⟨h0, hk⟩ | hk
  · have hk' := hk
    obtain ⟨v, hv⟩ := Option.isSome_iff_exists.1 (show (lineTable.lookup r.code.toNat).isSome from hk')
    have hmem := lookup_mem hv
    obtain ⟨h1, _, _, _⟩ := tables_agree _ hmem
    obtain ⟨w, hw⟩ := Option.ne_none_iff_exists'.1 h1
    have hr := line_range _ hmem
    simp only at hr hw
    have hd : desc r.code = entry descTable r.code.toNat := by
      unfold desc
      rw [if_pos (by omega)]
    have hw' : entry descTable r.code.toNat = w := by unfold entry; rw [hw]; rfl
    refine fin r.code.toNat (desc r.code) ?_ hd (hst.1 h0 hk) ?_
    · rw [hd, hw']; exact lookup_mem hw
    · unfold sentCode
      rw [if_neg (by omega)]
  · refine fin 500 "Internal Server Error" (by decide) (by decide) (hst.2 hk) ?_
    unfold sentCode
    rw [if_pos hk]

/-- What a client sees in the bytes of a response: without content the body of the response is taken for what follows. -/
theorem read_resp {r : Resp} (h : Fine r) (method rest : Str) : ∃ bytes line, encodeResp r = some bytes ∧
    statusOf line = some (sentCode r) ∧
    readResp method (bytes ++ rest) = some (
      if noContent method (sentCode r) then (⟨line, sentCode r, r.headers ++ added r.headers r.keepAlive false r.body, []⟩, r.body ++ rest)
      else (⟨line, sentCode r, r.headers ++ added r.headers r.keepAlive false r.body, r.body⟩, rest)) := by
  obtain ⟨line, h1, h2, l, h3, h4⟩ := head_line h
  have hb : encodeResp r = some (l.toList ++ r.headers.flatMap (fun p => headerLine p.1 p.2) ++ connLine r.headers r.keepAlive ++
      lengthLine r.headers r.body ++ typeLine r.headers ++ crlf ++ r.body) := by
    unfold encodeResp
    rw [h3]
  refine ⟨_, line, hb, h2, ?_⟩
  have e : (l.toList ++ r.headers.flatMap (fun p => headerLine p.1 p.2) ++ connLine r.headers r.keepAlive ++
      lengthLine r.headers r.body ++ typeLine r.headers ++ crlf ++ r.body) ++ rest =
      line ++ crlf ++ ((r.headers ++ added r.headers r.keepAlive false r.body).flatMap (fun p => headerLine p.1 p.2) ++
        (crlf ++ (r.body ++ rest))) := by
    rw [List.flatMap_append, ← added_resp, h4]
    simp only [List.append_assoc]
  rw [e]
  unfold readResp
  rw [takeLine_line _ _ h1]
  simp only
  rw [h2, parseHeaders_clean _ _ (by
    intro p hp
    rcases List.mem_append.1 hp with hp | hp
    · exact h.clean p hp
    · exact added_clean _ _ _ _ p hp)]
  simp only
  rw [contentLength_ok r.headers r.keepAlive false r.body h.length]
  by_cases hn : noContent method (sentCode r)
  · rw [if_pos hn, if_pos hn]
  · rw [if_neg hn, if_neg hn]
    simp

theorem added_connection (h : Headers) (k a : Bool) (b : Str) (hk : hasHeader h "Connection".toList = false) :
    ("Connection".toList, if k then "keep-alive".toList else "Close".toList) ∈ added h k a b := by
  unfold added
  refine List.mem_append_left _ (List.mem_append_left _ (List.mem_append_left _ ?_))
  rw [hk]
  exact List.mem_singleton.2 rfl

/-- **C202: each response is read as it was given.**  For all requests with whatever methods and responses to them (status, headers and
length as C43 asks), those to HEAD and those with codes 1xx, 204 and 304 having no body: a client reads the bytes written for them
as exactly these responses, in order, each with its own code, headers and content, and nothing is left over, whatever follows. -/
theorem c202_stream (xs : List (Str × Resp)) (rest : Str)
    (h : ∀ x ∈ xs, Fine x.2 ∧ (noContent x.1 (sentCode x.2) → x.2.body = [])) :
    ∃ bs seen, xs.mapM (fun x => encodeResp x.2) = some bs ∧ readAll (xs.map (·.1)) (bs.flatten ++ rest) = some (seen, rest) ∧
      List.Forall₂ (fun s x => s.code = sentCode x.2 ∧ s.body = x.2.body ∧ x.2.headers <+: s.headers ∧
        (hasHeader x.2.headers "Connection".toList = false →
          ("Connection".toList, if x.2.keepAlive then "keep-alive".toList else "Close".toList) ∈ s.headers)) seen xs := by
  induction xs with
  | nil => exact ⟨[], [], rfl, rfl, .nil⟩
  | cons x xs ih =>
    obtain ⟨bs, seen, i1, i2, i3⟩ := ih (fun y hy => h y (List.mem_cons_of_mem _ hy))
    obtain ⟨hf, he⟩ := h x (List.mem_cons_self ..)
    obtain ⟨b, line, e1, _, e3⟩ := read_resp hf x.1 (bs.flatten ++ rest)
    refine ⟨b :: bs, ⟨line, sentCode x.2, x.2.headers ++ added x.2.headers x.2.keepAlive false x.2.body, x.2.body⟩ :: seen, ?_, ?_, .cons ⟨rfl, rfl, List.prefix_append _ _, fun hk => List.mem_append_right _ (added_connection _ _ _ _ hk)⟩ i3⟩
    · rw [List.mapM_cons, e1, i1]; rfl
    · have : readResp x.1 (b ++ (bs.flatten ++ rest)) = some (⟨line, sentCode x.2, x.2.headers ++ added x.2.headers x.2.keepAlive false x.2.body, x.2.body⟩, bs.flatten ++ rest) := by
        rw [e3]
        by_cases hn : noContent x.1 (sentCode x.2)
        · rw [if_pos hn, he hn]; rfl
        · rw [if_neg hn]
      rw [List.map_cons, readAll, List.flatten_cons, List.append_assoc, this, Option.bind_some]
      simp only
      rw [i2]
      rfl

/-- Compression leaves a response without a body alone. -/
theorem c202_empty_sent (gzip deflate : Str → Option Str) (accept : Str) (r : Resp) (h : r.body = []) :
    sendResp gzip deflate accept r = encodeResp r := by
  unfold sendResp beforeSend
  rw [if_neg (by simp [h])]

/-- **C201 violated: the body of a response without content is taken for the next response.**  Whatever a handler answers to a HEAD
request, or with 204, 304 or a 1xx code: its body is written too, and a client takes it for the beginning of what comes next. -/
theorem c201_body_violated (gzip deflate : Str → Option Str) (accept method rest : Str) (r : Resp) (h : Fine (beforeSend gzip deflate accept r))
    (hn : noContent method (sentCode r)) (hb : r.body ≠ []) (hz : ∀ z, gzip r.body = some z ∨ deflate r.body = some z → z ≠ []) :
    ∃ bytes seen left, sendResp gzip deflate accept r = some bytes ∧ readResp method (bytes ++ rest) = some (seen, left) ∧
      seen.code = sentCode r ∧ left ≠ rest ∧ left = (beforeSend gzip deflate accept r).body ++ rest := by
  have hc : sentCode (beforeSend gzip deflate accept r) = sentCode r := by
    have : (beforeSend gzip deflate accept r).code = r.code := by
      unfold beforeSend
      (repeat' split) <;> rfl
    unfold sentCode
    rw [this]
  have hne : (beforeSend gzip deflate accept r).body ≠ [] := by
    unfold beforeSend
    split
    · split
      · split
        · rename_i z hz'
          exact hz z (.inl hz')
        · exact hb
      · split
        · split
          · rename_i z hz'
            exact hz z (.inr hz')
          · exact hb
        · exact hb
    · exact hb
  obtain ⟨b, line, e1, _, e3⟩ := read_resp h method rest
  rw [hc, if_pos hn] at e3
  refine ⟨b, _, _, e1, e3, rfl, ?_, rfl⟩
  intro e
  have := congrArg List.length e
  simp only [List.length_append] at this
  exact hne (List.length_eq_zero_iff.1 (by omega))

/-- **C201 violated: a client is made to read a response that was never given.**  If the body of a response to HEAD (or with 204, 304 or
1xx) is itself the text of a response `r2`, the next request of the client gets `r2` for an answer, whatever it asked for and
whatever was answered to it. -/
theorem c201_forged_violated (method method2 rest : Str) (r r2 : Resp) (h : Fine r) (h2 : Fine r2) (hn : noContent method (sentCode r))
    (hn2 : ¬ noContent method2 (sentCode r2)) (hb : encodeResp r2 = some r.body) :
    ∃ bytes a b, encodeResp r = some bytes ∧ readAll [method, method2] (bytes ++ rest) = some ([a, b], rest) ∧
      a.code = sentCode r ∧ b.code = sentCode r2 ∧ b.body = r2.body := by
  obtain ⟨b1, l1, e1, _, e3⟩ := read_resp h method rest
  obtain ⟨b2, l2, f1, _, f3⟩ := read_resp h2 method2 rest
  rw [if_pos hn] at e3
  rw [if_neg hn2] at f3
  rw [hb] at f1
  simp only [Option.some.injEq] at f1
  rw [← f1] at f3
  refine ⟨b1, ⟨l1, sentCode r, r.headers ++ added r.headers r.keepAlive false r.body, []⟩,
    ⟨l2, sentCode r2, r2.headers ++ added r2.headers r2.keepAlive false r2.body, r2.body⟩, e1, ?_, rfl, rfl, rfl⟩
  unfold readAll readAll readAll
  rw [e3, Option.bind_some]
  simp only
  rw [f3]
  rfl

/-- **C201 violated: a length is sent where there must be none.**  RFC 7230 (3.3.2) forbids Content-Length in 204 and 1xx responses; each
such response of the library has one. -/
theorem c201_length_violated (r : Resp) (rest : Str) (h : Fine r) (hn : sentCode r = 204 ∨ (100 ≤ sentCode r ∧ sentCode r < 200)) :
    ∃ bytes seen left, encodeResp r = some bytes ∧ readResp "GET".toList (bytes ++ rest) = some (seen, left) ∧ seen.code = sentCode r ∧
      contentLength seen.headers = some r.body.length := by
  obtain ⟨b, line, e1, _, e3⟩ := read_resp h "GET".toList rest
  have : noContent "GET".toList (sentCode r) := by
    unfold noContent
    rcases hn with hn | hn
    · exact .inr (.inr (.inl hn))
    · exact .inr (.inl hn)
  rw [if_pos this] at e3
  exact ⟨b, _, _, e1, e3, rfl, contentLength_ok _ _ _ _ h.length⟩

/-- **C202: who would have to be asked.**  The library's own function, were it called, would say of every code but 101 what RFC 7230 says. -/
theorem c202_expect (method : Str) (code : Nat) (h : code ≠ 101) : expectBody method code = true ↔ ¬ noContent method code := by
  unfold expectBody noContent
  by_cases hm : method = "HEAD".toList
  · simp [hm]
  · simp only [hm, ne_eq, not_false_eq_true, decide_true, Bool.true_and, h, decide_false, Bool.false_or, Bool.and_eq_true, decide_eq_true_eq, false_or]
    omega

/-! ### The client -/

open Ltio.Http.Conn

variable {τ : Type}

/-- What the application of a client has been handed after these pieces of input (`OnDataReceived`, one after the other); `none`: the
connection was closed. -/
def clientGets (t : Tok τ) (z : Unzip) (cs : List Str) : Option (List Got) :=
  (t.run cs).bind (fun x => (hsteps z false HSt.init x.2).map (·.2))

/-- No content encoding the library knows. -/
def Plain (m : HMsg) : Prop :=
  find (getHeader (m.headers.foldl (fun h p => insertHeader h p.1 p.2) []) "Content-Encoding".toList) "gzip".toList 0 = none ∧
  find (getHeader (m.headers.foldl (fun h p => insertHeader h p.1 p.2) []) "Content-Encoding".toList) "deflate".toList 0 = none

/-- What is handed on for a response of this kind. -/
def handedOn (m : HMsg) : Got :=
  ⟨[], [], m.start.code, m.minor, true, m.headers.foldl (fun h p => insertHeader h p.1 p.2) [], m.body⟩

/-- A response as a conforming server sends it to a HEAD request: all but the body. -/
def headText (m : HMsg) : Str :=
  m.start.line m.minor ++ crlf ++ (m.headers.flatMap (fun p => headerLine p.1 p.2) ++ crlf)

theorem text_eq (m : HMsg) : m.text = headText m ++ m.body := by
  unfold HMsg.text headText
  simp only [List.append_assoc]

/-- What a client makes of the first bytes of a stream of responses. -/
theorem read_plain {t : Tok τ} (ht : t.Meets false) (z : Unzip) {ms : List HMsg} (h : ∀ m ∈ ms, m.Sound false ∧ Plain m) {cs : List Str}
    (hc : cs.flatten <+: ms.flatMap HMsg.text) :
    ∃ got, clientGets t z cs = some got ∧ got <+: ms.map handedOn ∧ (cs.flatten = ms.flatMap HMsg.text → got = ms.map handedOn) := by
  obtain ⟨st, evs, fs, r1, r2, r3, r4⟩ := ht ms (fun m hm => (h m hm).1) cs hc
  have hgot : ∀ m ∈ ms, m.got z false = some (handedOn m) := by
    intro m hm
    obtain ⟨hs, hp1, hp2⟩ := h m hm
    have hst := hs.start
    obtain ⟨start, minor, headers, body⟩ := m
    cases start with
    | req a b => exact absurd hst.1 (by simp)
    | resp c d =>
      unfold HMsg.got commit decodeBody
      rw [hp1, hp2]
      rfl
  obtain ⟨p, hp⟩ := hsteps_all z false r2 (fun m hm q hq => ((h m hm).1.fields q hq).name.1)
    (fun m hm hu => by
      have := (h m hm).1.start
      cases hst : m.start with
      | req a b => rw [hst] at this; exact absurd this.1 (by simp)
      | resp a b => rw [hst] at hu; exact absurd rfl hu) handedOn hgot none false []
  have hinit : HSt.init = ⟨⟨none, false, [], [], []⟩, []⟩ := rfl
  rw [← hinit] at hp
  obtain ⟨p1, o1, q1, q2⟩ := hsteps_prefix z false r3 hp
  refine ⟨o1, ?_, q2, ?_⟩
  · unfold clientGets
    rw [r1, Option.bind_some, q1]
    rfl
  · intro he
    rw [r4 he, hp] at q1
    simp only [Option.some.injEq, Prod.mk.injEq] at q1
    exact q1.2.symm

/-- **C202: the client.**  Responses that carry as many bytes as their Content-Length says, answers to HEAD (with none, if it says 0)
among them, are handed on exactly, however the bytes are cut. -/
theorem c202_client {t : Tok τ} (ht : t.Meets false) (z : Unzip) (ms : List HMsg) (h : ∀ m ∈ ms, m.Sound false ∧ Plain m)
    (cs : List Str) (hc : cs.flatten = ms.flatMap (fun m => headText m ++ m.body)) :
    clientGets t z cs = some (ms.map handedOn) := by
  have e : ms.flatMap (fun m => headText m ++ m.body) = ms.flatMap HMsg.text := by
    congr 1
    funext m
    exact (text_eq m).symm
  rw [e] at hc
  obtain ⟨got, g1, _, g3⟩ := read_plain ht z h (cs := cs) (by rw [hc]; exact List.prefix_refl _)
  rw [g1, g3 hc]

/-- A response with another body of the same length. -/
theorem swap_sound {m : HMsg} (h : m.Sound false ∧ Plain m) {b : Str} (hne : m.body ≠ []) (hl : b.length = m.body.length)
    (hb : ∀ c ∈ b, c.toNat < 256) : ({ m with body := b } : HMsg).Sound false ∧ Plain { m with body := b } := by
  refine ⟨⟨?_, h.1.minor, h.1.fields, ?_, h.1.alive, h.1.alives, h.1.others, hb, ?_⟩, h.2⟩
  · have := h.1.start
    obtain ⟨start, minor, headers, body⟩ := m
    cases start with
    | req a b => exact absurd this.1 (by simp)
    | resp c d =>
      refine ⟨this.1, this.2.1, this.2.2.1, ?_, this.2.2.2.2⟩
      intro hc
      exact absurd (this.2.2.2.1 hc) hne
  · show ∃ n, m.headers.filter _ = [(n, dec b.length)]
    rw [hl]
    exact h.1.length
  · show b.length < 2 ^ 31
    rw [hl]
    exact h.1.body.2

/-- **C201 violated: the answer to HEAD never arrives.**  Whatever response a conforming server would give to GET, with a body that is
not empty: when it sends it, without the body, to a HEAD request of the library's client, the application is handed nothing. -/
theorem c201_head_waits_violated {t : Tok τ} (ht : t.Meets false) (z : Unzip) (m : HMsg) (h : m.Sound false ∧ Plain m) (hne : m.body ≠ [])
    (cs : List Str) (hc : cs.flatten = headText m) : clientGets t z cs = some [] := by
  -- two bodies that differ: whatever has been handed on would have both
  have fill : ∀ c : Char, c.toNat < 256 → ∃ got, clientGets t z cs = some got ∧
      got <+: [handedOn { m with body := List.replicate m.body.length c }] := by
    intro c hlt
    have hs := swap_sound h hne (b := List.replicate m.body.length c) (by simp) (by
      intro d hd
      rw [List.mem_replicate] at hd
      rw [hd.2]; exact hlt)
    obtain ⟨got, g1, g2, _⟩ := read_plain ht z (ms := [{ m with body := List.replicate m.body.length c }]) (by
      intro x hx
      rw [List.mem_singleton] at hx
      rw [hx]; exact hs) (cs := cs) (by
        rw [hc, List.flatMap_cons, List.flatMap_nil, List.append_nil, text_eq]
        exact List.prefix_append _ _)
    exact ⟨got, g1, g2⟩
  obtain ⟨g, a1, a2⟩ := fill 'a' (by decide)
  obtain ⟨g', b1, b2⟩ := fill 'b' (by decide)
  rw [a1] at b1
  simp only [Option.some.injEq] at b1
  subst b1
  rw [a1]
  congr 1
  cases g with
  | nil => rfl
  | cons x l =>
    exfalso
    obtain ⟨u, hu⟩ := a2
    obtain ⟨v, hv⟩ := b2
    simp only [List.cons_append, List.cons.injEq] at hu hv
    have e := hu.1.symm.trans hv.1
    have eb : List.replicate m.body.length 'a' = List.replicate m.body.length 'b' := congrArg Got.body e
    cases hb : m.body with
    | nil => exact hne hb
    | cons y ys =>
      rw [hb] at eb
      simp [List.replicate_succ] at eb

/-- **C201 violated: the answer to HEAD swallows the next response.**  The first bytes of the next response are handed on as the content
of the answer to HEAD, whatever these responses are. -/
theorem c201_head_swallows_violated {t : Tok τ} (ht : t.Meets false) (z : Unzip) (m m2 : HMsg) (h : m.Sound false ∧ Plain m)
    (h2 : m2.Sound false) (hne : m.body ≠ []) (hlen : m.body.length ≤ m2.text.length)
    (cs : List Str) (hc : cs.flatten = headText m ++ m2.text.take m.body.length) :
    clientGets t z cs = some [⟨[], [], m.start.code, m.minor, true, m.headers.foldl (fun h p => insertHeader h p.1 p.2) [], m2.text.take m.body.length⟩] := by
  have hs := swap_sound h hne (b := m2.text.take m.body.length) (by simp [hlen]) (by
    intro d hd
    exact text_latin h2 d (List.mem_of_mem_take hd))
  have := c202_client ht z [{ m with body := m2.text.take m.body.length }] (by
    intro x hx
    rw [List.mem_singleton] at hx
    rw [hx]; exact hs) cs (by
      rw [hc, List.flatMap_cons, List.flatMap_nil, List.append_nil]
      rfl)
  exact this

/-! ### Concrete -/

def demoGet : Resp := ⟨200, 1, [], true, "hello".toList⟩
def demoNone : Resp := ⟨204, 1, [("x-a".toList, "1".toList)], true, []⟩
def demoHead : Resp := ⟨200, 1, [], true, []⟩

theorem demo_fine : Fine demoGet ∧ Fine demoNone ∧ Fine demoHead := by
  refine ⟨⟨by decide, .inl (by decide), ?_, ?_⟩, ⟨by decide, .inl (by decide), ?_, ?_⟩, ⟨by decide, .inl (by decide), ?_, ?_⟩⟩ <;>
    first
    | (intro p hp; simp [demoGet, demoNone, demoHead] at hp; done)
    | (intro p hp
       simp [demoNone] at hp
       subst hp
       decide)

/-- The hypotheses of C202 on a connection with GET, HEAD and DELETE. -/
theorem w_c202 : ∀ x ∈ [("GET".toList, demoGet), ("HEAD".toList, demoHead), ("DELETE".toList, demoNone)],
    Fine x.2 ∧ (noContent x.1 (sentCode x.2) → x.2.body = []) := by
  intro x hx
  simp only [List.mem_cons, List.not_mem_nil, or_false] at hx
  rcases hx with rfl | rfl | rfl
  · exact ⟨demo_fine.1, fun h => absurd h (by decide)⟩
  · exact ⟨demo_fine.2.2, fun _ => rfl⟩
  · exact ⟨demo_fine.2.1, fun _ => rfl⟩

/-- … of the violations. -/
theorem w_c201 : Fine demoGet ∧ noContent "HEAD".toList (sentCode demoGet) ∧ demoGet.body ≠ [] ∧ noContent "GET".toList (sentCode demoNone) :=
  ⟨demo_fine.1, by decide, by decide, by decide⟩

/-- … of the forged response: any well-formed text as the content of an answer to HEAD. -/
theorem w_c201_forged : ∃ r : Resp, Fine r ∧ noContent "HEAD".toList (sentCode r) ∧ encodeResp demoGet = some r.body ∧
    ¬ noContent "GET".toList (sentCode demoGet) := by
  obtain ⟨b, _, e, _⟩ := read_resp demo_fine.1 "GET".toList []
  exact ⟨⟨200, 1, [], true, b⟩, ⟨by show 1 ≤ 1; omega, .inl ⟨by show (0:Int) ≤ 200; omega, by show known 200 = true; decide⟩,
    fun p hp => absurd hp (by simp), fun p hp => absurd hp (by simp)⟩, .inl rfl, e, by decide⟩

def demoMsg : HMsg := ⟨.resp 200 "OK".toList, 1, [("content-length".toList, "5".toList), ("connection".toList, "keep-alive".toList)], "hello".toList⟩

theorem demoMsg_sound : demoMsg.Sound false ∧ Plain demoMsg := by
  have hd : dec 5 = "5".toList := by decide +kernel
  refine ⟨⟨⟨rfl, by decide, by decide, by decide, by decide +kernel⟩, by decide, ?_, ?_, ?_, ?_, ?_, ?_, ?_⟩, ?_, ?_⟩
  · intro p hp
    simp only [demoMsg, List.mem_cons, List.not_mem_nil, or_false] at hp
    rcases hp with rfl | rfl <;> exact ⟨⟨by decide, by decide +kernel⟩, ⟨by decide +kernel, by decide +kernel, by decide +kernel⟩⟩
  · refine ⟨"content-length".toList, ?_⟩
    show _ = [("content-length".toList, dec 5)]
    rw [hd]
    decide +kernel
  · exact ⟨("connection".toList, "keep-alive".toList), by simp [demoMsg], by decide +kernel⟩
  · decide +kernel
  · decide +kernel
  · decide +kernel
  · decide
  · decide +kernel
  · decide +kernel

/-- A tokenizer that meets the contract, and a response. -/
theorem w_c201_client : (lazyTok false).Meets false ∧ (demoMsg.Sound false ∧ Plain demoMsg) ∧ demoMsg.body ≠ [] ∧
    demoMsg.body.length ≤ demoMsg.text.length :=
  ⟨lazyTok_meets false, demoMsg_sound, by decide, by rw [text_eq]; simp⟩

end Ltio.Http.NoContent
