import Verif.Http.Headers
/-
Model of the llhttp callbacks of `HttpParser` (net_io/codec/http/parser_context.h:75-200), which
assemble headers and body from fragments.  The tokenizer llhttp itself is not modelled: its
callbacks are the events.  Content decoding (gzip/deflate) is not modelled: messages here carry no
`Content-Encoding`.
-/
namespace Ltio.Http
open Ltio.Text

/-- llhttp's callbacks. -/
inductive Cb where
  | messageBegin
  | headerField (s : Str)
  | headerValue (s : Str)
  | headersComplete
  | body (s : Str)
  | messageEnd
deriving DecidableEq, Repr

/-- Parser state: `current_` (headers and body), `hd_value_flag_`, `half_hdr_field_`,
`half_hdr_value_`, and the messages delivered. -/
structure PSt where
  cur : Option (Headers × Str)
  flag : Bool
  field : Str
  value : Str
  out : List (Headers × Str)
deriving Repr

def PSt.init : PSt := ⟨none, false, [], [], []⟩

/-- `current->InsertHeader(half_hdr_field_, half_hdr_value_)`; `none`: null `current_`. -/
def PSt.flush (s : PSt) : Option PSt :=
  match s.cur with
  | none => none
  | some (h, b) => some { s with cur := some (insertHeader h s.field s.value, b), field := [], value := [] }

/-- One callback; `none` is a null dereference. -/
def cb (s : PSt) : Cb → Option PSt
  | .messageBegin =>
    -- OnMessageBegin (parser_context.h:112-121): the field is cleared twice, the value is not
    some { s with cur := some ([], []), flag := false, field := [] }
  | .headerField x =>
    -- OnHeaderField (parser_context.h:156-167)
    match (if s.flag then s.flush else some s) with
    | none => none
    | some s' => some { s' with flag := false, field := s'.field ++ x }
  | .headerValue x =>
    -- OnHeaderValue (parser_context.h:169-174)
    some { s with flag := true, value := s.value ++ x }
  | .headersComplete =>
    -- OnHeaderFinish (parser_context.h:123-132)
    match (if s.field ≠ [] then s.flush else some s) with
    | none => none
    | some s' => some { s' with field := [], value := [] }
  | .body x =>
    -- OnMessageBody (parser_context.h:176-180)
    match s.cur with
    | none => none
    | some (h, b) => some { s with cur := some (h, b ++ x) }
  | .messageEnd =>
    -- OnMessageEnd / OnMessageParsed (parser_context.h:134-138, 202-273): commit and move away
    match s.cur with
    | none => none
    | some m => some { s with cur := none, out := s.out ++ [m] }

def cbs (s : PSt) : List Cb → Option PSt
  | [] => some s
  | e :: es => match cb s e with
    | none => none
    | some s' => cbs s' es

/-! ### Specification -/

/-- A header as received: its name and value in fragments (at least one each). -/
structure Frag where
  fs : List Str
  vs : List Str
  hf : fs ≠ []
  hv : vs ≠ []

def Frag.name (h : Frag) : Str := h.fs.flatten
def Frag.val (h : Frag) : Str := h.vs.flatten
def Frag.events (h : Frag) : List Cb := h.fs.map .headerField ++ h.vs.map .headerValue

/-- A message as received: headers, body fragments, trailer fields. -/
structure Msg where
  headers : List Frag
  body : List Str
  trailers : List Frag

def Msg.events (m : Msg) : List Cb :=
  .messageBegin :: (m.headers.flatMap Frag.events ++ .headersComplete :: (m.body.map .body ++
    (m.trailers.flatMap Frag.events ++ [.messageEnd])))

/-- What the user should see: all headers (the first of equal names), the whole body. -/
def Msg.expect (m : Msg) : Headers × Str :=
  (m.headers.foldl (fun h f => insertHeader h f.name f.val) [], m.body.flatten)

/-! ### Proofs -/

theorem cbs_append (s : PSt) (a b : List Cb) :
    cbs s (a ++ b) = match cbs s a with | none => none | some s' => cbs s' b := by
  induction a generalizing s with
  | nil => rfl
  | cons e a ih =>
    simp only [List.cons_append, cbs]
    cases cb s e with
    | none => rfl
    | some s' => exact ih s'

theorem cbs_values (s : PSt) : ∀ (vs : List Str), vs ≠ [] →
    cbs s (vs.map .headerValue) = some { s with flag := true, value := s.value ++ vs.flatten } := by
  intro vs
  induction vs generalizing s with
  | nil => intro h; exact absurd rfl h
  | cons v vs ih =>
    intro _
    simp only [List.map_cons, cbs, cb]
    cases vs with
    | nil => simp [cbs]
    | cons w vs =>
      rw [ih _ (by simp)]
      simp

theorem cbs_fields (s : PSt) (h0 : s.flag = false) : ∀ (fs : List Str),
    cbs s (fs.map .headerField) = some { s with field := s.field ++ fs.flatten } := by
  intro fs
  induction fs generalizing s with
  | nil => simp [cbs]
  | cons f fs ih =>
    simp only [List.map_cons, cbs, cb, h0, Bool.false_eq_true, if_false]
    rw [ih _ rfl]
    simp

theorem flatten_ne {l : List Str} (h : l.flatten ≠ []) : l ≠ [] := by
  intro e; subst e; simp at h

/-- One header, when nothing is pending. -/
theorem cbs_first (h : Headers) (b : Str) (out : List (Headers × Str)) (x : Frag) (v0 : Str) :
    cbs ⟨some (h, b), false, [], v0, out⟩ x.events =
      some ⟨some (h, b), true, x.name, v0 ++ x.val, out⟩ := by
  unfold Frag.events
  rw [cbs_append, cbs_fields _ rfl]
  simp only [List.nil_append]
  rw [cbs_values _ _ x.hv]
  rfl

/-- One header after another (pending) one. -/
theorem cbs_next (h : Headers) (b n v : Str) (out : List (Headers × Str)) (x : Frag) :
    cbs ⟨some (h, b), true, n, v, out⟩ x.events =
      some ⟨some (insertHeader h n v, b), true, x.name, x.val, out⟩ := by
  unfold Frag.events
  rw [cbs_append]
  obtain ⟨f, fs, hfs⟩ : ∃ f fs, x.fs = f :: fs := by
    cases h : x.fs with
    | nil => exact absurd h x.hf
    | cons f fs => exact ⟨f, fs, rfl⟩
  have : cbs ⟨some (h, b), true, n, v, out⟩ (x.fs.map .headerField) =
      some ⟨some (insertHeader h n v, b), false, x.name, [], out⟩ := by
    rw [hfs]
    simp only [List.map_cons, cbs, cb, if_true, PSt.flush, List.nil_append]
    rw [cbs_fields _ rfl]
    unfold Frag.name
    rw [hfs]
    simp
  rw [this]
  simp only
  rw [cbs_values _ _ x.hv]
  rfl

/-- All headers of a block after the first. -/
theorem cbs_rest (b : Str) (out : List (Headers × Str)) : ∀ (xs : List Frag) (h : Headers) (y : Frag)
    (v : Str),
    cbs ⟨some (h, b), true, y.name, v, out⟩ (xs.flatMap Frag.events) =
      some ⟨some ((((y.name, v) :: xs.map (fun x => (x.name, x.val))).dropLast).foldl
          (fun h p => insertHeader h p.1 p.2) h, b), true,
        ((xs.getLast?.map Frag.name).getD y.name), ((xs.getLast?.map Frag.val).getD v), out⟩ := by
  intro xs
  induction xs with
  | nil => intro h y v; simp [cbs]
  | cons x xs ih =>
    intro h y v
    rw [List.flatMap_cons, cbs_append, cbs_next]
    simp only
    rw [ih]
    simp only [List.map_cons, List.dropLast_cons_cons, List.foldl_cons]
    congr 2
    · cases hx : xs.getLast? with
      | none => rw [List.getLast?_eq_none_iff] at hx; simp [hx]
      | some z => simp [List.getLast?_cons, hx]
    · cases hx : xs.getLast? with
      | none => rw [List.getLast?_eq_none_iff] at hx; simp [hx]
      | some z => simp [List.getLast?_cons, hx]

/-- A whole header block up to `headersComplete`; `v0` is what was left in the value buffer. -/
theorem cbs_block (b : Str) (out : List (Headers × Str)) (xs : List Frag) (v0 : Str)
    (hn : ∀ x ∈ xs, x.name ≠ []) :
    ∃ fl, cbs ⟨some ([], b), false, [], v0, out⟩ (xs.flatMap Frag.events ++ [.headersComplete]) =
      some ⟨some ((match xs with
        | [] => []
        | x :: xs => ((x.name, v0 ++ x.val) :: xs.map (fun x => (x.name, x.val))).foldl
            (fun h p => insertHeader h p.1 p.2) []), b), fl, [], [], out⟩ := by
  cases xs with
  | nil => exact ⟨false, by simp [cbs, cb]⟩
  | cons x xs =>
    refine ⟨true, ?_⟩
    rw [List.flatMap_cons, List.append_assoc, cbs_append, cbs_first]
    simp only
    rw [cbs_append, cbs_rest]
    simp only
    have hlast : ((xs.getLast?.map Frag.name).getD x.name) ≠ [] := by
      cases hx : xs.getLast? with
      | none => simpa using hn x (by simp)
      | some z => simpa using hn z (List.mem_cons_of_mem _ (List.mem_of_getLast? hx))
    simp only [cbs, cb]
    rw [if_pos hlast]
    simp only [PSt.flush]
    have hl : ((x.name, v0 ++ x.val) :: xs.map (fun x => (x.name, x.val))) =
        ((x.name, v0 ++ x.val) :: xs.map (fun x => (x.name, x.val))).dropLast ++
          [((xs.getLast?.map Frag.name).getD x.name, (xs.getLast?.map Frag.val).getD (v0 ++ x.val))] := by
      have h1 := List.dropLast_concat_getLast
        (l := (x.name, v0 ++ x.val) :: xs.map (fun x => (x.name, x.val))) (by simp)
      have h2 : ((x.name, v0 ++ x.val) :: xs.map (fun x => (x.name, x.val))).getLast (by simp) =
          ((xs.getLast?.map Frag.name).getD x.name, (xs.getLast?.map Frag.val).getD (v0 ++ x.val)) := by
        rw [List.getLast_eq_iff_getLast?_eq_some, List.getLast?_cons, List.getLast?_map]
        cases xs.getLast? <;> rfl
      rw [h2] at h1
      exact h1.symm
    conv => rhs; rw [hl]
    rw [List.foldl_append]
    rfl

theorem cbs_body (h : Headers) (fl : Bool) (out : List (Headers × Str)) : ∀ (bs : List Str) (b : Str),
    cbs ⟨some (h, b), fl, [], [], out⟩ (bs.map .body) = some ⟨some (h, b ++ bs.flatten), fl, [], [], out⟩ := by
  intro bs
  induction bs with
  | nil => intro b; simp [cbs]
  | cons x bs ih =>
    intro b
    simp only [List.map_cons, cbs, cb]
    rw [ih]
    simp

/-- One message without trailers, whatever flag is left from before. -/
theorem cbs_msg (m : Msg) (ht : m.trailers = []) (hn : ∀ x ∈ m.headers, x.name ≠ [])
    (c : Option (Headers × Str)) (fl : Bool) (out : List (Headers × Str)) :
    ∃ fl', cbs ⟨c, fl, [], [], out⟩ m.events = some ⟨none, fl', [], [], out ++ [m.expect]⟩ := by
  obtain ⟨fl', hb⟩ := cbs_block [] out m.headers [] hn
  refine ⟨fl', ?_⟩
  unfold Msg.events
  rw [ht]
  simp only [cbs, cb, List.flatMap_nil, List.nil_append]
  have e : m.headers.flatMap Frag.events ++ .headersComplete :: (m.body.map .body ++ [.messageEnd]) =
      (m.headers.flatMap Frag.events ++ [.headersComplete]) ++ (m.body.map .body ++ [.messageEnd]) := by
    simp
  rw [e, cbs_append, hb]
  simp only
  rw [cbs_append, cbs_body]
  simp only [cbs, cb, List.nil_append]
  unfold Msg.expect
  congr 4
  have : ∀ (l : List Frag) (h : Headers), l.foldl (fun h f => insertHeader h f.name f.val) h =
      (l.map (fun x => (x.name, x.val))).foldl (fun h p => insertHeader h p.1 p.2) h := by
    intro l
    induction l with
    | nil => intro h; rfl
    | cons x l ih => intro h; simp only [List.foldl_cons, List.map_cons, ih]
  rw [this]
  cases m.headers with
  | nil => rfl
  | cons x xs => simp

/-- **C42: HTTP messages are assembled independently of fragmentation.**  For every sequence of
messages without trailers and every way the tokenizer cuts names, values and bodies into fragments,
exactly these messages are delivered, in order, with all headers and the whole body. -/
theorem c42_assembled_partial : ∀ (ms : List Msg), (∀ m ∈ ms, m.trailers = []) →
    (∀ m ∈ ms, ∀ x ∈ m.headers, x.name ≠ []) →
    ∃ s, cbs PSt.init (ms.flatMap Msg.events) = some s ∧ s.out = ms.map Msg.expect := by
  intro ms
  have key : ∀ (ms : List Msg) (c : Option (Headers × Str)) (fl : Bool) (out : List (Headers × Str)),
      (∀ m ∈ ms, m.trailers = []) → (∀ m ∈ ms, ∀ x ∈ m.headers, x.name ≠ []) →
      ∃ s, cbs ⟨c, fl, [], [], out⟩ (ms.flatMap Msg.events) = some s ∧
        s.out = out ++ ms.map Msg.expect := by
    intro ms
    induction ms with
    | nil => intro c fl out _ _; exact ⟨_, rfl, by simp⟩
    | cons m ms ih =>
      intro c fl out h1 h2
      obtain ⟨fl', hm⟩ := cbs_msg m (h1 m (by simp)) (h2 m (by simp)) c fl out
      obtain ⟨s, hs, ho⟩ := ih none fl' (out ++ [m.expect]) (fun x hx => h1 x (by simp [hx]))
        (fun x hx => h2 x (by simp [hx]))
      refine ⟨s, ?_, by rw [ho]; simp⟩
      rw [List.flatMap_cons, cbs_append, hm]
      exact hs
  intro h1 h2
  exact key ms none false [] h1 h2

/-- **C42 violated by trailers**: after a message with a trailer field `t`, the value of `t` is
prepended to the value of the first header of the next message on the connection, and the trailer
itself is lost.  For every trailer and every following message. -/
theorem c42_trailer_leak_violated (t x : Frag) (hx : x.name ≠ []) :
    ∃ s, cbs PSt.init ((Msg.mk [] [] [t]).events ++ (Msg.mk [x] [] []).events) = some s ∧
      s.out = [([], []), (insertHeader [] x.name (t.val ++ x.val), [])] := by
  have h1 : cbs PSt.init (Msg.mk [] [] [t]).events =
      some ⟨none, true, t.name, t.val, [([], [])]⟩ := by
    unfold Msg.events PSt.init
    simp only [cbs, cb, List.flatMap_nil, List.nil_append, List.map_nil, ne_eq, not_true_eq_false,
      if_false, List.flatMap_cons, List.append_nil]
    rw [cbs_append, cbs_first]
    simp [cbs, cb]
  obtain ⟨fl, hb⟩ := cbs_block [] [([], [])] [x] t.val (by simpa using hx)
  simp only [List.flatMap_cons, List.flatMap_nil, List.append_nil, List.map_nil, List.foldl_cons,
    List.foldl_nil] at hb
  refine ⟨⟨none, fl, [], [], [([], []), (insertHeader [] x.name (t.val ++ x.val), [])]⟩, ?_, rfl⟩
  rw [cbs_append, h1]
  simp only
  unfold Msg.events
  simp only [cbs, cb, List.flatMap_cons, List.flatMap_nil, List.append_nil, List.map_nil,
    List.nil_append]
  have e : x.events ++ [.headersComplete, .messageEnd] =
      (x.events ++ [.headersComplete]) ++ [.messageEnd] := by simp
  rw [e, cbs_append, hb]
  simp [cbs, cb]

/-- Concrete: a pipelined pair of requests, the first with header and body in fragments. -/
def demo : List Msg :=
  [⟨[⟨["Ho".toList, "st".toList], ["a".toList, ".b".toList], by decide, by decide⟩,
     ⟨["X".toList], [[]], by decide, by decide⟩], ["bo".toList, "dy".toList], []⟩,
   ⟨[], [], []⟩]

example : (∀ m ∈ demo, m.trailers = []) ∧ (∀ m ∈ demo, ∀ x ∈ m.headers, x.name ≠ []) := by
  simp [demo, Frag.name]
example : demo.map Msg.expect =
    [([("host".toList, "a.b".toList), ("x".toList, [])], "body".toList), ([], [])] := by decide

end Ltio.Http
