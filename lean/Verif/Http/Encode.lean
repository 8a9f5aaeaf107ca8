import Verif.Http.Headers
import Verif.Http.Status
import Verif.Text.Itoa
/-
Model of the HTTP/1 encoder: `ResponseToBuffer`, `RequestToBuffer`, `BeforeSendResponse`
(net_io/codec/http/http_codec_service.cc:89-130, 185-222, 263-287).  Strings written to the buffer
are concatenated (`IOBuffer` is the subject of C01/C02).  The compressor is an arbitrary function.
-/
namespace Ltio.Http
open Ltio.Text

def crlf : Str := ['\r', '\n']

/-- `fmt::format("{:d}", n)`. -/
def dec (n : Nat) : Str := Ltio.Itoa.digitText 10 n 1

/-- `fmt::format("{}: {}\r\n", k, v)`. -/
def headerLine (k v : Str) : Str := k ++ ": ".toList ++ v ++ crlf

structure Resp where
  code : Int
  minor : Nat
  headers : Headers
  keepAlive : Bool
  body : Str

structure Req where
  method : Str
  url : Str
  minor : Nat
  headers : Headers
  keepAlive : Bool
  body : Str

/-- The connection header written when the user set none (lines 104-108, 203-207). -/
def connLine (h : Headers) (keepAlive : Bool) : Str :=
  if !hasHeader h "Connection".toList then
    (if keepAlive then "Connection: keep-alive\r\n".toList else "Connection: Close\r\n".toList)
  else []

/-- The length header written when the user set none (lines 114-118, 209-213). -/
def lengthLine (h : Headers) (body : Str) : Str :=
  if !hasHeader h "Content-Length".toList then headerLine "Content-Length".toList (dec body.length)
  else []

/-- The type header written when the user set none (lines 120-122, 215-217). -/
def typeLine (h : Headers) : Str :=
  if !hasHeader h "Content-Type".toList then "Content-Type: text/plain\r\n".toList else []

/-- The encoding header of requests (lines 110-112). -/
def acceptLine (h : Headers) : Str :=
  if !hasHeader h "Accept-Encoding".toList then "Accept-Encoding: deflate,gzip\r\n".toList else []

/-- `ResponseToBuffer` (http_codec_service.cc:185-222); `none` as in `headLine`. -/
def encodeResp (r : Resp) : Option Str :=
  match headLine r.code r.minor with
  | none => none
  | some l => some (l.toList ++ r.headers.flatMap (fun p => headerLine p.1 p.2) ++
      connLine r.headers r.keepAlive ++ lengthLine r.headers r.body ++ typeLine r.headers ++ crlf ++
      r.body)

/-- `RequestToBuffer` (http_codec_service.cc:89-130). -/
def encodeReq (r : Req) : Str :=
  r.method ++ [' '] ++ (if r.url = [] then ['/'] else r.url) ++ " HTTP/1.".toList ++ dec r.minor ++ crlf ++
    r.headers.flatMap (fun p => headerLine p.1 p.2) ++
    connLine r.headers r.keepAlive ++ acceptLine r.headers ++ lengthLine r.headers r.body ++
    typeLine r.headers ++ crlf ++ r.body

/-- `BeforeSendResponse` (http_codec_service.cc:263-287) with compressors `gzip`, `deflate`
(`none`: failed). -/
def beforeSend (gzip deflate : Str → Option Str) (accept : Str) (r : Resp) : Resp :=
  if r.body.length > 8096 ∧ hasHeader r.headers "Content-Encoding".toList = false then
    if (find accept "gzip".toList 0).isSome then
      match gzip r.body with
      | some z => { r with body := z, headers := insertHeader r.headers "Content-Encoding".toList "gzip".toList }
      | none => r
    else if (find accept "deflate".toList 0).isSome then
      match deflate r.body with
      | some z => { r with body := z, headers := insertHeader r.headers "Content-Encoding".toList "deflate".toList }
      | none => r
    else r
  else r

/-! ### Specification: a reader for HTTP/1 messages framed by Content-Length (RFC 7230) -/

/-- The text before the first CRLF and what follows it. -/
def takeLine : Str → Option (Str × Str)
  | [] => none
  | c :: t =>
    if c = '\r' ∧ t.head? = some '\n' then some ([], t.drop 1)
    else (takeLine t).map (fun p => (c :: p.1, p.2))

/-- `name ":" OWS value`. -/
def splitColon (l : Str) : Option (Str × Str) :=
  match l.dropWhile (· ≠ ':') with
  | [] => none
  | _ :: v => some (l.takeWhile (· ≠ ':'), if v.head? = some ' ' then v.drop 1 else v)

theorem takeLine_lt : ∀ (s : Str) (p : Str × Str), takeLine s = some p → p.2.length < s.length := by
  intro s
  induction s with
  | nil => intro p h; simp [takeLine] at h
  | cons c t ih =>
    intro p h
    unfold takeLine at h
    split at h
    · simp at h; rw [← h]; simp; omega
    · cases ht : takeLine t with
      | none => rw [ht] at h; simp at h
      | some q =>
        rw [ht] at h
        simp at h
        have := ih q ht
        rw [← h]; simp; omega

/-- Header lines up to the empty line. -/
def parseHeaders (s : Str) : Option (Headers × Str) :=
  match _h : takeLine s with
  | none => none
  | some p =>
    if p.1 = [] then some ([], p.2)
    else match splitColon p.1 with
      | none => none
      | some kv => (parseHeaders p.2).map (fun q => (kv :: q.1, q.2))
termination_by s.length
decreasing_by exact takeLine_lt _ _ _h

/-- A decimal number. -/
def readDec (s : Str) : Option Nat :=
  if s ≠ [] ∧ s.all Char.isDigit then some (Ltio.Itoa.readBack 10 s) else none

/-- The first Content-Length, whatever its capitalisation. -/
def contentLength (h : Headers) : Option Nat :=
  match h.find? (fun p => sameName p.1 "content-length".toList) with
  | none => none
  | some p => readDec p.2

/-- One message: start line, headers, body, and the rest of the stream. -/
def parseMsg (s : Str) : Option (Str × Headers × Str × Str) :=
  match takeLine s with
  | none => none
  | some l =>
    match parseHeaders l.2 with
    | none => none
    | some h =>
      match contentLength h.1 with
      | none => none
      | some n => if n ≤ h.2.length then some (l.1, h.1, h.2.take n, h.2.drop n) else none

/-- `n` messages in a row. -/
def parseMany : Nat → Str → Option (List (Str × Headers × Str) × Str)
  | 0, s => some ([], s)
  | n + 1, s =>
    match parseMsg s with
    | none => none
    | some m => (parseMany n m.2.2.2).map (fun q => ((m.1, m.2.1, m.2.2.1) :: q.1, q.2))

/-- Header names and values that can be written on one line. -/
def CleanHeaders (h : Headers) : Prop :=
  ∀ p ∈ h, p.1 ≠ [] ∧ ':' ∉ p.1 ∧ '\r' ∉ p.1 ∧ '\r' ∉ p.2

/-- If the user gave a length, it is the right one. -/
def LengthOk (h : Headers) (body : Str) : Prop :=
  ∀ p ∈ h, sameName p.1 "content-length".toList = true → p.2 = dec body.length

/-- The headers the encoder adds. -/
def added (h : Headers) (keepAlive accept : Bool) (body : Str) : Headers :=
  (if !hasHeader h "Connection".toList then
    [("Connection".toList, if keepAlive then "keep-alive".toList else "Close".toList)] else []) ++
  (if accept ∧ !hasHeader h "Accept-Encoding".toList then
    [("Accept-Encoding".toList, "deflate,gzip".toList)] else []) ++
  (if !hasHeader h "Content-Length".toList then [("Content-Length".toList, dec body.length)] else []) ++
  (if !hasHeader h "Content-Type".toList then [("Content-Type".toList, "text/plain".toList)] else [])

/-! ### Proofs -/

theorem takeLine_line : ∀ (a t : Str), '\r' ∉ a → takeLine (a ++ crlf ++ t) = some (a, t) := by
  intro a
  induction a with
  | nil => intro t _; simp [takeLine, crlf]
  | cons c a ih =>
    intro t h
    simp only [List.mem_cons, not_or] at h
    have := ih t h.2
    simp only [List.cons_append]
    unfold takeLine
    rw [if_neg (fun e => h.1 e.1.symm), this]
    rfl

theorem takeWhile_colon (n v : Str) (hn : ':' ∉ n) :
    (n ++ ':' :: v).takeWhile (· ≠ ':') = n ∧ (n ++ ':' :: v).dropWhile (· ≠ ':') = ':' :: v := by
  exact takeWhile_free ':' n v hn

theorem splitColon_line (n v : Str) (hn : ':' ∉ n) :
    splitColon (n ++ ": ".toList ++ v) = some (n, v) := by
  have e : n ++ ": ".toList ++ v = n ++ ':' :: (' ' :: v) := by simp
  have h := takeWhile_colon n (' ' :: v) hn
  unfold splitColon
  rw [e, h.1, h.2]
  simp

theorem parseHeaders_nil (t : Str) : parseHeaders (crlf ++ t) = some ([], t) := by
  have h := takeLine_line [] t (by simp)
  simp only [List.nil_append] at h
  rw [parseHeaders]
  split
  · rename_i e; rw [h] at e; simp at e
  · rename_i p e
    rw [h] at e
    simp only [Option.some.injEq] at e
    rw [← e]
    rfl

theorem parseHeaders_cons (n v t : Str) (h1 : n ≠ []) (h2 : ':' ∉ n) (h3 : '\r' ∉ n) (h4 : '\r' ∉ v) :
    parseHeaders (headerLine n v ++ t) =
      (parseHeaders t).map (fun q => ((n, v) :: q.1, q.2)) := by
  have hcr : '\r' ∉ n ++ ": ".toList ++ v := by simp [h3, h4]
  have h := takeLine_line (n ++ ": ".toList ++ v) t hcr
  conv => lhs; rw [parseHeaders]
  split
  · rename_i e
    unfold headerLine at e
    rw [h] at e; simp at e
  · rename_i p e
    unfold headerLine at e
    rw [h] at e
    simp only [Option.some.injEq] at e
    rw [← e]
    simp only
    rw [if_neg (by simp [h1]), splitColon_line n v h2]

theorem parseHeaders_clean : ∀ (h : Headers) (t : Str), CleanHeaders h →
    parseHeaders (h.flatMap (fun p => headerLine p.1 p.2) ++ (crlf ++ t)) = some (h, t) := by
  intro h
  induction h with
  | nil => intro t _; simpa using parseHeaders_nil t
  | cons p h ih =>
    intro t hc
    obtain ⟨c1, c2, c3, c4⟩ := hc p (by simp)
    rw [List.flatMap_cons, List.append_assoc, parseHeaders_cons _ _ _ c1 c2 c3 c4,
      ih t (fun q hq => hc q (by simp [hq]))]
    rfl

theorem dec_digits (n : Nat) : ∀ c ∈ dec n, c.isDigit = true ∧ c ≠ '\r' := by
  have hd : ∀ d < 10, (Ltio.Itoa.hexDigit d).isDigit = true ∧ Ltio.Itoa.hexDigit d ≠ '\r' := by decide
  intro c hc
  unfold dec Ltio.Itoa.digitText at hc
  rw [List.mem_map] at hc
  obtain ⟨d, hd1, rfl⟩ := hc
  apply hd
  rw [List.mem_append] at hd1
  rcases hd1 with h | h
  · rw [List.mem_replicate] at h; omega
  · rw [List.mem_reverse] at h
    exact Nat.digits_lt_base (by omega) h

theorem dec_ne (n : Nat) : dec n ≠ [] := by
  intro e
  have := congrArg List.length e
  unfold dec Ltio.Itoa.digitText at this
  simp only [List.length_map, List.length_append, List.length_replicate, List.length_reverse,
    List.length_nil] at this
  omega

theorem readDec_dec (n : Nat) : readDec (dec n) = some n := by
  unfold readDec
  rw [if_pos ⟨dec_ne n, by rw [List.all_eq_true]; exact fun c hc => (dec_digits n c hc).1⟩]
  unfold dec
  rw [Ltio.Itoa.c33_value 10 n 1 (by decide) (by decide)]

/-- The generated lines are lines of the added headers. -/
theorem added_resp (h : Headers) (k : Bool) (body : Str) :
    connLine h k ++ lengthLine h body ++ typeLine h =
      (added h k false body).flatMap (fun p => headerLine p.1 p.2) := by
  unfold connLine lengthLine typeLine added headerLine crlf
  cases hasHeader h "Connection".toList <;> cases hasHeader h "Content-Length".toList <;>
    cases hasHeader h "Content-Type".toList <;> cases k <;> simp

theorem added_req (h : Headers) (k : Bool) (body : Str) :
    connLine h k ++ acceptLine h ++ lengthLine h body ++ typeLine h =
      (added h k true body).flatMap (fun p => headerLine p.1 p.2) := by
  unfold connLine acceptLine lengthLine typeLine added headerLine crlf
  cases hasHeader h "Connection".toList <;> cases hasHeader h "Content-Length".toList <;>
    cases hasHeader h "Content-Type".toList <;> cases hasHeader h "Accept-Encoding".toList <;>
    cases k <;> simp

theorem added_clean (h : Headers) (k a : Bool) (body : Str) : CleanHeaders (added h k a body) := by
  intro p hp
  unfold added at hp
  simp only [List.mem_append] at hp
  have hfin : ∀ p, (p = ("Connection".toList, "keep-alive".toList) ∨
      p = ("Connection".toList, "Close".toList) ∨ p = ("Accept-Encoding".toList, "deflate,gzip".toList) ∨
      p = ("Content-Type".toList, "text/plain".toList)) →
      p.1 ≠ [] ∧ ':' ∉ p.1 ∧ '\r' ∉ p.1 ∧ '\r' ∉ p.2 := by
    rintro p (rfl | rfl | rfl | rfl) <;> decide
  rcases hp with ((hp | hp) | hp) | hp
  · split at hp
    · apply hfin p
      simp only [List.mem_singleton] at hp
      cases k
      · exact Or.inr (Or.inl hp)
      · exact Or.inl hp
    · simp at hp
  · split at hp
    · apply hfin p
      simp only [List.mem_singleton] at hp
      exact Or.inr (Or.inr (Or.inl hp))
    · simp at hp
  · split at hp
    · simp only [List.mem_singleton] at hp
      subst hp
      have h0 : "Content-Length".toList ≠ [] ∧ ':' ∉ "Content-Length".toList ∧
          '\r' ∉ "Content-Length".toList := by decide
      refine ⟨h0.1, h0.2.1, h0.2.2, ?_⟩
      intro hc
      exact (dec_digits _ _ hc).2 rfl
    · simp at hp
  · split at hp
    · apply hfin p
      simp only [List.mem_singleton] at hp
      exact Or.inr (Or.inr (Or.inr hp))
    · simp at hp

theorem contentLength_ok (h : Headers) (k a : Bool) (body : Str) (hl : LengthOk h body) :
    contentLength (h ++ added h k a body) = some body.length := by
  -- every header of that name has the right value, and there is one
  have hval : ∀ p ∈ h ++ added h k a body, sameName p.1 "content-length".toList = true →
      p.2 = dec body.length := by
    intro p hp hs
    rcases List.mem_append.1 hp with hp | hp
    · exact hl p hp hs
    · unfold added at hp
      simp only [List.mem_append] at hp
      rcases hp with ((hp | hp) | hp) | hp
      · split at hp
        · simp only [List.mem_singleton] at hp
          rw [hp] at hs; exact absurd hs (by simp [sameName])
        · simp at hp
      · split at hp
        · simp only [List.mem_singleton] at hp
          rw [hp] at hs; exact absurd hs (by simp [sameName])
        · simp at hp
      · split at hp
        · simp only [List.mem_singleton] at hp
          rw [hp]
        · simp at hp
      · split at hp
        · simp only [List.mem_singleton] at hp
          rw [hp] at hs; exact absurd hs (by simp [sameName])
        · simp at hp
  have hex : ∃ p ∈ h ++ added h k a body, sameName p.1 "content-length".toList = true := by
    by_cases hh : hasHeader h "Content-Length".toList = true
    · unfold hasHeader at hh
      rw [List.any_eq_true] at hh
      obtain ⟨p, hp, he⟩ := hh
      refine ⟨p, List.mem_append_left _ hp, ?_⟩
      have : p.1 = toLower "Content-Length".toList := by simpa using he
      rw [this]; decide
    · refine ⟨("Content-Length".toList, dec body.length), List.mem_append_right _ ?_, by
        simp [sameName]⟩
      unfold added
      have : hasHeader h "Content-Length".toList = false := by simpa using hh
      rw [this]
      simp only [Bool.not_false, if_true, List.mem_append, List.mem_singleton]
      exact Or.inl (Or.inr trivial)
  unfold contentLength
  obtain ⟨p, hp, hs⟩ := hex
  cases hf : (h ++ added h k a body).find? (fun p => sameName p.1 "content-length".toList) with
  | none =>
    rw [List.find?_eq_none] at hf
    exact absurd hs (hf p hp)
  | some q =>
    have h1 := List.mem_of_find?_eq_some hf
    have h2 := List.find?_some hf
    simp only
    rw [hval q h1 h2, readDec_dec]

/-- Framing: what the reader sees in a start line, header lines and a body. -/
theorem parseMsg_eq (line : Str) (h : Headers) (k a : Bool) (body rest : Str) (hline : '\r' ∉ line)
    (hc : CleanHeaders h) (hl : LengthOk h body) :
    parseMsg (line ++ crlf ++ ((h ++ added h k a body).flatMap (fun p => headerLine p.1 p.2) ++
      (crlf ++ (body ++ rest)))) = some (line, h ++ added h k a body, body, rest) := by
  unfold parseMsg
  rw [takeLine_line _ _ hline]
  simp only
  rw [parseHeaders_clean _ _ (by
    intro p hp
    rcases List.mem_append.1 hp with hp | hp
    · exact hc p hp
    · exact added_clean h k a body p hp)]
  simp only
  rw [contentLength_ok h k a body hl]
  simp

/-- **C43: responses are framed correctly.**  For every response with a status line (C31), header
lines without CR and no wrong Content-Length, followed by anything: a reader gets the status line,
all the user's headers, the body, and is positioned exactly after it. -/
theorem c43_response_partial (r : Resp) (rest : Str) (hm : r.minor ≤ 1)
    (hk : (0 ≤ r.code ∧ known r.code.toNat = true) ∨ r.code < 100 ∨ 511 < r.code)
    (hc : CleanHeaders r.headers) (hl : LengthOk r.headers r.body) :
    ∃ bytes line, encodeResp r = some bytes ∧ headLine r.code r.minor = some (line ++ "\r\n") ∧
      parseMsg (bytes ++ rest) =
        some (line.toList, r.headers ++ added r.headers r.keepAlive false r.body, r.body, rest) := by
  have hst := c31_status_line_partial r.code r.minor hm
  have hsl : ∃ code reason, headLine r.code r.minor = some (statusLine r.minor code reason) ∧
      '\r' ∉ ("HTTP/1." ++ toString r.minor ++ " " ++ toString code ++ " " ++ reason).toList := by
    have hall : ∀ e ∈ descTable, ∀ m ≤ 1, '\r' ∉ ("HTTP/1." ++ toString m ++ " " ++ toString e.1 ++ " " ++ entry descTable e.1).toList := by
      decide +kernel
    rcases hk with ⟨h0, hk⟩ | hk
    · refine ⟨r.code.toNat, desc r.code, hst.1 h0 hk, ?_⟩
      obtain ⟨v, hv⟩ := Option.isSome_iff_exists.1
        (show (lineTable.lookup r.code.toNat).isSome from hk)
      have hmem := lookup_mem hv
      obtain ⟨h1, -, -, -⟩ := tables_agree _ hmem
      obtain ⟨w, hw⟩ := Option.ne_none_iff_exists'.1 h1
      have := hall _ (lookup_mem hw) r.minor hm
      have hr : 100 ≤ r.code ∧ r.code ≤ 511 := by
        have hrange : ∀ e ∈ lineTable, 100 ≤ e.1 ∧ e.1 ≤ 511 := by decide
        have := hrange _ hmem
        simp only at this
        omega
      unfold desc
      rw [if_pos hr]
      exact this
    · exact ⟨500, "Internal Server Error", hst.2 hk, hall (500, "Internal Server Error") (by decide) r.minor hm⟩
  obtain ⟨code, reason, h1, h2⟩ := hsl
  refine ⟨(statusLine r.minor code reason).toList ++
      r.headers.flatMap (fun p => headerLine p.1 p.2) ++ connLine r.headers r.keepAlive ++
      lengthLine r.headers r.body ++ typeLine r.headers ++ crlf ++ r.body,
    "HTTP/1." ++ toString r.minor ++ " " ++ toString code ++ " " ++ reason, ?_, ?_, ?_⟩
  · unfold encodeResp
    rw [h1]
  · rw [h1]; rfl
  · have := parseMsg_eq _ r.headers r.keepAlive false r.body rest h2 hc hl
    have e : (statusLine r.minor code reason).toList =
        ("HTTP/1." ++ toString r.minor ++ " " ++ toString code ++ " " ++ reason).toList ++ crlf := by
      unfold statusLine
      rw [String.toList_append]
      rfl
    rw [List.flatMap_append, ← added_resp] at this
    rw [e]
    simp only [List.append_assoc] at this ⊢
    exact this

/-- **C43: requests are framed correctly.** -/
theorem c43_request_partial (r : Req) (rest : Str) (hmeth : '\r' ∉ r.method) (hurl : '\r' ∉ r.url)
    (hc : CleanHeaders r.headers) (hl : LengthOk r.headers r.body) :
    parseMsg (encodeReq r ++ rest) =
      some (r.method ++ [' '] ++ (if r.url = [] then ['/'] else r.url) ++ " HTTP/1.".toList ++ dec r.minor,
        r.headers ++ added r.headers r.keepAlive true r.body, r.body, rest) := by
  have hline : '\r' ∉ r.method ++ [' '] ++ (if r.url = [] then ['/'] else r.url) ++
      " HTTP/1.".toList ++ dec r.minor := by
    simp only [List.mem_append, not_or]
    refine ⟨⟨⟨⟨hmeth, by decide⟩, ?_⟩, by decide⟩, fun h => (dec_digits _ _ h).2 rfl⟩
    split
    · decide
    · exact hurl
  have := parseMsg_eq _ r.headers r.keepAlive true r.body rest hline hc hl
  rw [List.flatMap_append, ← added_req] at this
  unfold encodeReq
  simp only [List.append_assoc] at this ⊢
  exact this

/-- **C43 on a connection**: any number of pipelined requests is read back one by one. -/
theorem c43_stream_partial : ∀ (rs : List Req) (rest : Str),
    (∀ r ∈ rs, '\r' ∉ r.method ∧ '\r' ∉ r.url ∧ CleanHeaders r.headers ∧ LengthOk r.headers r.body) →
    ∃ ms, parseMany rs.length (rs.flatMap encodeReq ++ rest) = some (ms, rest) ∧
      ms.map (fun m => m.2.2) = rs.map Req.body ∧
      List.Forall₂ (fun m r => ∀ p ∈ r.headers, p ∈ m.2.1) ms rs := by
  intro rs
  induction rs with
  | nil => intro rest _; exact ⟨[], rfl, rfl, .nil⟩
  | cons r rs ih =>
    intro rest h
    obtain ⟨h1, h2, h3, h4⟩ := h r (by simp)
    obtain ⟨ms, g1, g2, g3⟩ := ih rest (fun x hx => h x (by simp [hx]))
    have hp := c43_request_partial r (rs.flatMap encodeReq ++ rest) h1 h2 h3 h4
    refine ⟨(r.method ++ [' '] ++ (if r.url = [] then ['/'] else r.url) ++ " HTTP/1.".toList ++
        dec r.minor, r.headers ++ added r.headers r.keepAlive true r.body, r.body) :: ms,
      ?_, ?_, .cons ?_ g3⟩
    · rw [List.flatMap_cons, List.append_assoc, List.length_cons, parseMany, hp]
      simp only
      rw [g1]
      rfl
    · simp [g2]
    · intro p hp
      exact List.mem_append_left _ hp

/-- **C43 violated by compression**: if the user set a (correct) Content-Length and the body is
compressed on the way out, the length written is that of the uncompressed body; a reader takes the
wrong number of bytes.  For every compressor that changes the size. -/
theorem c43_compressed_length_violated (gzip deflate : Str → Option Str) (r : Resp) (z : Str)
    (hbody : r.body.length > 8096)
    (hhdr : r.headers = insertHeader [] "Content-Length".toList (dec r.body.length))
    (hz : gzip r.body = some z) (hlen : z.length ≠ r.body.length) :
    let r' := beforeSend gzip deflate "gzip".toList r
    r'.body = z ∧ ¬ LengthOk r'.headers r'.body ∧
      contentLength (r'.headers ++ added r'.headers r'.keepAlive false r'.body) = some r.body.length := by
  have hh : r.headers = [("content-length".toList, dec r.body.length)] := by
    rw [hhdr]; rfl
  have hr' : beforeSend gzip deflate "gzip".toList r =
      { r with body := z, headers := [("content-length".toList, dec r.body.length),
        ("content-encoding".toList, "gzip".toList)] } := by
    unfold beforeSend
    have hn : hasHeader r.headers "Content-Encoding".toList = false := by
      rw [hh]; simp [hasHeader, toLower, nul]
    rw [if_pos ⟨hbody, hn⟩, if_pos (by decide), hz]
    simp only
    congr 1
    rw [hh]
    simp [insertHeader, insertKey, toLower, nul]
  have hinj : ∀ a b, dec a = dec b → a = b := by
    intro a b e
    have h1 := readDec_dec a
    rw [e, readDec_dec b] at h1
    simpa using h1.symm
  simp only
  rw [hr']
  refine ⟨rfl, ?_, ?_⟩
  · intro hok
    have := hok ("content-length".toList, dec r.body.length) (by simp) (by simp [sameName])
    exact hlen (hinj _ _ this).symm
  · simp only [contentLength, List.cons_append, List.find?_cons]
    have : sameName "content-length".toList "content-length".toList = true := by simp [sameName]
    rw [this]
    simp only
    exact readDec_dec _

/-- **C43 violated by CR LF in a value**: header injection; one header set by the user is read as
two. -/
theorem c43_header_injection_violated (n v n2 v2 t : Str) (h1 : n ≠ []) (h2 : ':' ∉ n) (h3 : '\r' ∉ n)
    (h4 : '\r' ∉ v) (h5 : n2 ≠ []) (h6 : ':' ∉ n2) (h7 : '\r' ∉ n2) (h8 : '\r' ∉ v2) :
    parseHeaders (headerLine n (v ++ crlf ++ n2 ++ ": ".toList ++ v2) ++ (crlf ++ t)) =
      some ([(n, v), (n2, v2)], t) := by
  have e : headerLine n (v ++ crlf ++ n2 ++ ": ".toList ++ v2) ++ (crlf ++ t) =
      headerLine n v ++ (headerLine n2 v2 ++ (crlf ++ t)) := by
    unfold headerLine; simp only [List.append_assoc]
  rw [e, parseHeaders_cons _ _ _ h1 h2 h3 h4, parseHeaders_cons _ _ _ h5 h6 h7 h8, parseHeaders_nil]
  rfl

/-! ### Concrete -/

example : CleanHeaders (run [.insert "X-A".toList "1: 2".toList, .insert "Host".toList "h".toList]) ∧
    LengthOk (run [.insert "X-A".toList "1: 2".toList]) "body".toList := by
  constructor
  · unfold CleanHeaders; decide
  · intro p hp
    simp [run, apply, insertHeader, insertKey, toLower, nul] at hp
    subst hp
    simp [sameName]

end Ltio.Http
