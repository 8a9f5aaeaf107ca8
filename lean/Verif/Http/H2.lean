import Verif.Http.H2Token
import Verif.Http.Headers
import Verif.Text.StrUtil
/-
Model of the server side of `H2CodecService` (net_io/codec/http/h2/h2_codec_service.cc): what its nghttp2
callbacks do with the streams, and how a response is handed to nghttp2.  nghttp2 itself is not modelled: its
callbacks are the input, and `readMax` stands for what it offers the data provider.
-/
namespace Ltio.H2
open Ltio.Text Ltio.Http

/-- A request being received: the fields of `HttpRequest` that the callbacks set. -/
structure Req where
  method : Str := []
  url : Str := []
  headers : Headers := []
  body : Str := []
deriving DecidableEq, Repr

/-- nghttp2's callbacks on the receiving side.  `isReq` is `frame->headers.cat == NGHTTP2_HCAT_REQUEST`,
`fin` the END_STREAM flag. -/
inductive Ev where
  | begin (isReq : Bool)                       -- on_begin_headers
  | header (isReq : Bool) (name value : Str)   -- on_header
  | chunk (data : Str)                         -- on_data_chunk
  | headersDone (isReq fin : Bool)             -- on_frame_recv, HEADERS
  | dataDone (fin : Bool)                      -- on_frame_recv, DATA
  | otherDone                                  -- on_frame_recv, any other frame
  | close                                      -- on_stream_close
deriving DecidableEq, Repr

/-- `stream_ctxs_` and the requests handed to `OnCodecMessage` so far, as they were then. -/
structure St where
  streams : Nat → Option Req
  out : List (Nat × Req)

def St.init : St := ⟨fun _ => none, []⟩

def put (f : Nat → Option Req) (i : Nat) (r : Option Req) : Nat → Option Req := fun j => if j = i then r else f j

/-- `on_header` on a request found (h2_codec_service.cc:82-113); the case `HD_HOST` falls through to the
default. -/
def onHeader (r : Req) (name value : Str) : Req :=
  match lookupToken name with
  | some .pMethod => { r with method := value }
  | some .pScheme => { r with headers := insertHeader r.headers "scheme".toList value }
  | some .pAuthority => { r with headers := insertHeader r.headers "authority".toList value }
  | some .pPath => { r with url := value }
  | some .host => { r with headers := insertHeader (insertHeader r.headers "host".toList value) name value }
  | _ => { r with headers := insertHeader r.headers name value }

/-- What the callbacks do to the request of one stream. -/
def stepReq : Option Req → Ev → Option Req
  | r, .begin isReq => if isReq then (match r with | none => some {} | some q => some q) else r
  | r, .header isReq name value => if isReq then r.map (fun q => onHeader q name value) else r
  | r, .chunk data => r.map (fun q => { q with body := q.body ++ data })
  | _, .close => none
  | r, _ => r

/-- Whether the frame makes `on_frame_recv` call `OnCodecMessage` (h2_codec_service.cc:234-270). -/
def delivers : Ev → Bool
  | .dataDone fin => fin
  | .headersDone isReq _ => isReq
  | _ => false

/-- One callback (h2_codec_service.cc:58-271). -/
def St.step (s : St) (e : Nat × Ev) : St :=
  ⟨put s.streams e.1 (stepReq (s.streams e.1) e.2),
   match s.streams e.1 with
   | some r => if delivers e.2 then s.out ++ [(e.1, r)] else s.out
   | none => s.out⟩

def run (es : List (Nat × Ev)) : St := es.foldl St.step St.init

/-- What the handler gets of a stream, in order. -/
def received (i : Nat) (es : List (Nat × Ev)) : List Req := ((run es).out.filter (fun p => p.1 = i)).map (·.2)

/-! ### Specification -/

/-- The callbacks about one stream. -/
def ofStream (i : Nat) (es : List (Nat × Ev)) : List Ev := (es.filter (fun p => p.1 = i)).map (·.2)

/-- Frames that say nothing about the request (window updates, priorities). -/
def relevant (es : List Ev) : List Ev := es.filter (fun e => e != .otherDone)

/-- The callbacks for the header block of a request. -/
def headBlock (fs : List (Str × Str)) (fin : Bool) : List Ev :=
  .begin true :: fs.map (fun f => .header true f.1 f.2) ++ [.headersDone true fin]

/-- The callbacks for a DATA frame, whose payload may come in pieces. -/
def dataFrame (pieces : List Str) (fin : Bool) : List Ev := pieces.map .chunk ++ [.dataDone fin]

/-- The callbacks for the DATA frames of a body, the last of which may end the stream. -/
def dataFrames : List (List Str) → Bool → List Ev
  | [], _ => []
  | [f], fin => dataFrame f fin
  | f :: g :: t, fin => dataFrame f false ++ dataFrames (g :: t) fin

/-- The callbacks for trailers. -/
def trailers (fs : List (Str × Str)) : List Ev :=
  .begin false :: fs.map (fun f => .header false f.1 f.2) ++ [.headersDone false true]

/-- Value of the first field of a name. -/
def firstValue (fs : List (Str × Str)) (n : Str) : Option Str := (fs.find? (fun f => f.1 = n)).map (·.2)

/-- Value of the last field of a name. -/
def lastValue (fs : List (Str × Str)) (n : Str) : Option Str := firstValue fs.reverse n

/-- Names as nghttp2 lets them through: not empty, no capital letters, no NUL. -/
abbrev ValidName (n : Str) : Prop := n ≠ [] ∧ nul ∉ n ∧ n.map Char.toLower = n

/-- A request says what its header fields say. -/
def Says (r : Req) (fs : List (Str × Str)) : Prop :=
  r.method = (lastValue fs ":method".toList).getD [] ∧
  r.url = (lastValue fs ":path".toList).getD [] ∧
  (∀ n, ValidName n → n ∉ [":method", ":path", ":scheme", ":authority", "scheme", "authority"].map String.toList →
    getHeader r.headers n = (firstValue fs n).getD []) ∧
  (firstValue fs "scheme".toList = none → getHeader r.headers "scheme".toList = (firstValue fs ":scheme".toList).getD []) ∧
  (firstValue fs "authority".toList = none →
    getHeader r.headers "authority".toList = (firstValue fs ":authority".toList).getD [])

/-! ### Proofs: streams do not interfere -/

/-- One stream by itself. -/
def stepOne (s : Option Req × List Req) (e : Ev) : Option Req × List Req :=
  (stepReq s.1 e, match s.1 with
    | some r => if delivers e then s.2 ++ [r] else s.2
    | none => s.2)

def runOne (es : List Ev) : Option Req × List Req := es.foldl stepOne (none, [])

theorem step_proj (i : Nat) (s : St) (e : Nat × Ev) :
    ((s.step e).streams i, ((s.step e).out.filter (fun p => p.1 = i)).map (·.2)) =
      if e.1 = i then stepOne (s.streams i, (s.out.filter (fun p => p.1 = i)).map (·.2)) e.2
      else (s.streams i, (s.out.filter (fun p => p.1 = i)).map (·.2)) := by
  obtain ⟨j, e⟩ := e
  by_cases h : j = i
  · subst h
    rw [if_pos rfl]
    simp only [St.step, stepOne, put]
    cases hs : s.streams j with
    | none => rfl
    | some r =>
      simp only
      cases delivers e <;> simp
  · rw [if_neg h]
    simp only [St.step, put]
    rw [if_neg (fun h' => h h'.symm)]
    cases hs : s.streams j with
    | none => rfl
    | some r =>
      simp only
      cases delivers e <;> simp [h]

theorem run_proj (i : Nat) : ∀ (es : List (Nat × Ev)) (s : St),
    ((es.foldl St.step s).streams i, ((es.foldl St.step s).out.filter (fun p => p.1 = i)).map (·.2)) =
      (ofStream i es).foldl stepOne (s.streams i, (s.out.filter (fun p => p.1 = i)).map (·.2)) := by
  intro es
  induction es with
  | nil => intro s; rfl
  | cons e es ih =>
    intro s
    rw [List.foldl_cons, ih, step_proj]
    by_cases h : e.1 = i
    · have : ofStream i (e :: es) = e.2 :: ofStream i es := by simp [ofStream, h]
      rw [if_pos h, this, List.foldl_cons]
    · have : ofStream i (e :: es) = ofStream i es := by simp [ofStream, h]
      rw [if_neg h, this]

/-- **C104.** What the handler gets of a stream depends on that stream's callbacks only, however the streams
are interleaved. -/
theorem c104_independent (i : Nat) (es : List (Nat × Ev)) : received i es = (runOne (ofStream i es)).2 := by
  have := run_proj i es St.init
  exact congrArg Prod.snd this

theorem stepOne_other (s : Option Req × List Req) : stepOne s .otherDone = s := by
  obtain ⟨r, o⟩ := s
  cases r <;> rfl

theorem runOne_relevant : ∀ (es : List Ev) (s : Option Req × List Req),
    (relevant es).foldl stepOne s = es.foldl stepOne s := by
  intro es
  induction es with
  | nil => intro s; rfl
  | cons e es ih =>
    intro s
    by_cases h : e = .otherDone
    · subst h
      have : relevant (Ev.otherDone :: es) = relevant es := by simp [relevant]
      rw [this, ih, List.foldl_cons, stepOne_other]
    · have : relevant (e :: es) = e :: relevant es := by simp [relevant, h]
      rw [this, List.foldl_cons, List.foldl_cons, ih]

/-! ### Header blocks -/

/-- The request after its header fields. -/
def ofFields (fs : List (Str × Str)) : Req := fs.foldl (fun r f => onHeader r f.1 f.2) {}

theorem fold_headers (fs : List (Str × Str)) : ∀ (r : Req) (o : List Req),
    (fs.map (fun f => Ev.header true f.1 f.2)).foldl stepOne (some r, o) =
      (some (fs.foldl (fun r f => onHeader r f.1 f.2) r), o) := by
  induction fs with
  | nil => intro r o; rfl
  | cons f fs ih =>
    intro r o
    rw [List.map_cons, List.foldl_cons, List.foldl_cons]
    have : stepOne (some r, o) (Ev.header true f.1 f.2) = (some (onHeader r f.1 f.2), o) := rfl
    rw [this, ih]

theorem fold_headBlock (fs : List (Str × Str)) (fin : Bool) :
    (headBlock fs fin).foldl stepOne (none, []) = (some (ofFields fs), [ofFields fs]) := by
  simp only [headBlock, List.cons_append, List.foldl_append, List.foldl_cons, List.foldl_nil]
  have : stepOne (none, []) (Ev.begin true) = (some {}, []) := rfl
  rw [this, fold_headers]
  rfl

theorem fold_chunks (ps : List Str) : ∀ (r : Req) (o : List Req),
    (ps.map Ev.chunk).foldl stepOne (some r, o) = (some { r with body := r.body ++ ps.flatten }, o) := by
  induction ps with
  | nil => intro r o; simp
  | cons p ps ih =>
    intro r o
    rw [List.map_cons, List.foldl_cons]
    have : stepOne (some r, o) (Ev.chunk p) = (some { r with body := r.body ++ p }, o) := rfl
    rw [this, ih]
    simp

theorem fold_dataFrame (ps : List Str) (fin : Bool) (r : Req) (o : List Req) :
    (dataFrame ps fin).foldl stepOne (some r, o) =
      (some { r with body := r.body ++ ps.flatten },
        if fin then o ++ [{ r with body := r.body ++ ps.flatten }] else o) := by
  rw [dataFrame, List.foldl_append, fold_chunks]
  rfl

theorem fold_dataFrames (fin : Bool) : ∀ (fss : List (List Str)) (r : Req) (o : List Req), fss ≠ [] →
    (dataFrames fss fin).foldl stepOne (some r, o) =
      (some { r with body := r.body ++ fss.flatten.flatten },
        if fin then o ++ [{ r with body := r.body ++ fss.flatten.flatten }] else o) := by
  intro fss
  induction fss with
  | nil => intro r o h; exact absurd rfl h
  | cons f t ih =>
    intro r o _
    cases t with
    | nil => rw [dataFrames, fold_dataFrame]; simp
    | cons g t =>
      rw [dataFrames, List.foldl_append, fold_dataFrame, if_neg (by decide), ih _ _ (by simp)]
      simp

theorem fold_trailers (fs : List (Str × Str)) (r : Req) (o : List Req) :
    (trailers fs).foldl stepOne (some r, o) = (some r, o) := by
  have h : ∀ fs : List (Str × Str), (fs.map (fun f => Ev.header false f.1 f.2)).foldl stepOne (some r, o) = (some r, o) := by
    intro fs
    induction fs with
    | nil => rfl
    | cons f fs ih => rw [List.map_cons, List.foldl_cons]; exact ih
  simp only [trailers, List.cons_append, List.foldl_append, List.foldl_cons, List.foldl_nil]
  have : stepOne (some r, o) (Ev.begin false) = (some r, o) := rfl
  rw [this, h]
  rfl

/-- The stream may be closed afterwards. -/
theorem fold_closed (closed : Bool) (s : Option Req × List Req) :
    ((if closed then [Ev.close] else []).foldl stepOne s).2 = s.2 := by
  obtain ⟨r, o⟩ := s
  cases closed <;> cases r <;> rfl

/-! ### Fields -/

theorem getHeader_lookup (h : Headers) (n : Str) : getHeader h n = (lookup h (toLower n)).getD [] := by
  unfold getHeader lookup
  cases List.find? (fun p => p.1 == toLower n) h <;> rfl

theorem toLower_valid {n : Str} (h : ValidName n) : toLower n = n := by rw [toLower_eq n h.2.1, h.2.2]

/-- The key a field is stored under. -/
def keyOf (name : Str) : Option Str :=
  if name = ":method".toList ∨ name = ":path".toList then none
  else if name = ":scheme".toList then some "scheme".toList
  else if name = ":authority".toList then some "authority".toList
  else some name

theorem lookup_insert {h : Headers} {k v n : Str} (hk : ValidName k) :
    lookup (insertHeader h k v) n = if k = n then (lookup h n).or (some v) else lookup h n := by
  rw [insertHeader, if_neg hk.1, toLower_valid hk, lookup_insertKey]
  split
  · cases lookup h n <;> rfl
  · rfl

theorem valid_scheme : ValidName "scheme".toList := by decide +kernel
theorem valid_authority : ValidName "authority".toList := by decide +kernel
theorem valid_host : ValidName "host".toList := by decide +kernel

theorem onHeader_cases (r : Req) (name v : Str) :
    (name = ":method".toList ∧ onHeader r name v = { r with method := v }) ∨
    (name = ":path".toList ∧ onHeader r name v = { r with url := v }) ∨
    (name = ":scheme".toList ∧ onHeader r name v = { r with headers := insertHeader r.headers "scheme".toList v }) ∨
    (name = ":authority".toList ∧ onHeader r name v = { r with headers := insertHeader r.headers "authority".toList v }) ∨
    (name = "host".toList ∧ onHeader r name v =
      { r with headers := insertHeader (insertHeader r.headers "host".toList v) name v }) ∨
    (name ≠ ":method".toList ∧ name ≠ ":path".toList ∧ name ≠ ":scheme".toList ∧ name ≠ ":authority".toList ∧
      onHeader r name v = { r with headers := insertHeader r.headers name v }) := by
  have key : ∀ t : Tok, lookupToken name = some t → name = t.text.toList := fun t h => (c105_lookup name t).1 h
  unfold onHeader
  split
  · rename_i h; exact Or.inl ⟨key _ h, rfl⟩
  · rename_i h; exact Or.inr (Or.inr (Or.inl ⟨key _ h, rfl⟩))
  · rename_i h; exact Or.inr (Or.inr (Or.inr (Or.inl ⟨key _ h, rfl⟩)))
  · rename_i h; exact Or.inr (Or.inl ⟨key _ h, rfl⟩)
  · rename_i h; exact Or.inr (Or.inr (Or.inr (Or.inr (Or.inl ⟨key _ h, rfl⟩))))
  · rename_i h1 h2 h3 h4 h5
    refine Or.inr (Or.inr (Or.inr (Or.inr (Or.inr ⟨?_, ?_, ?_, ?_, rfl⟩))))
    · exact fun e => h1 ((c105_lookup name .pMethod).2 e)
    · exact fun e => h4 ((c105_lookup name .pPath).2 e)
    · exact fun e => h2 ((c105_lookup name .pScheme).2 e)
    · exact fun e => h3 ((c105_lookup name .pAuthority).2 e)

theorem onHeader_lookup (r : Req) {name v n : Str} (hv : ValidName name) :
    lookup (onHeader r name v).headers n =
      if keyOf name = some n then (lookup r.headers n).or (some v) else lookup r.headers n := by
  rcases onHeader_cases r name v with ⟨e, h⟩ | ⟨e, h⟩ | ⟨e, h⟩ | ⟨e, h⟩ | ⟨e, h⟩ | ⟨e1, e2, e3, e4, h⟩
  · rw [h, if_neg (by rw [e]; simp [keyOf])]
  · rw [h, if_neg (by rw [e]; simp [keyOf])]
  · have : keyOf name = some "scheme".toList := by rw [e]; decide +kernel
    rw [h, this, lookup_insert valid_scheme]
    simp only [Option.some.injEq]
  · have : keyOf name = some "authority".toList := by rw [e]; decide +kernel
    rw [h, this, lookup_insert valid_authority]
    simp only [Option.some.injEq]
  · have : keyOf name = some "host".toList := by rw [e]; decide +kernel
    rw [h, this, e, lookup_insert valid_host, lookup_insert valid_host]
    simp only [Option.some.injEq]
    split
    · cases lookup r.headers n <;> rfl
    · rfl
  · have : keyOf name = some name := by simp only [keyOf]; rw [if_neg (by simp only [e1, e2, or_self, not_false_eq_true]), if_neg e3, if_neg e4]
    rw [h, this, lookup_insert hv]
    simp only [Option.some.injEq]

theorem fields_lookup (n : Str) : ∀ (fs : List (Str × Str)) (r : Req), (∀ f ∈ fs, ValidName f.1) →
    lookup (fs.foldl (fun r f => onHeader r f.1 f.2) r).headers n =
      (lookup r.headers n).or ((fs.find? (fun f => keyOf f.1 = some n)).map (·.2)) := by
  intro fs
  induction fs with
  | nil => intro r _; simp
  | cons f fs ih =>
    intro r h
    rw [List.foldl_cons, ih _ (fun g hg => h g (List.mem_cons_of_mem _ hg)), onHeader_lookup r (h f (by simp)),
      List.find?_cons]
    by_cases hk : keyOf f.1 = some n
    · simp only [hk, if_true, decide_true]
      cases lookup r.headers n <;> rfl
    · simp only [hk, if_false, decide_false]

/-- Last writes. -/
theorem fields_last (get : Req → Str) (n : Str) (hit : ∀ r v, get (onHeader r n v) = v)
    (miss : ∀ r m v, m ≠ n → get (onHeader r m v) = get r) : ∀ (fs : List (Str × Str)) (r : Req),
    get (fs.foldl (fun r f => onHeader r f.1 f.2) r) = (lastValue fs n).getD (get r) := by
  intro fs
  induction fs using List.reverseRecOn with
  | nil => intro r; rfl
  | append_singleton fs f ih =>
    intro r
    rw [List.foldl_append, List.foldl_cons, List.foldl_nil]
    obtain ⟨m, v⟩ := f
    have e : lastValue (fs ++ [(m, v)]) n = if m = n then some v else lastValue fs n := by
      simp only [lastValue, firstValue, List.reverse_append, List.reverse_cons, List.reverse_nil, List.nil_append,
        List.cons_append, List.find?_cons]
      by_cases h : m = n <;> simp [h]
    rw [e]
    by_cases h : m = n
    · subst h; rw [if_pos rfl, hit]; rfl
    · rw [if_neg h, miss _ _ _ h, ih]

theorem find_special (fs : List (Str × Str)) (p n : Str) (hno : firstValue fs n = none) (hp : keyOf p = some n)
    (hm : ∀ m, m ≠ p → m ≠ n → keyOf m ≠ some n) :
    (fs.find? (fun f => keyOf f.1 = some n)).map (·.2) = firstValue fs p := by
  induction fs with
  | nil => rfl
  | cons f fs ih =>
    simp only [firstValue, Option.map_eq_none_iff, List.find?_eq_none, List.mem_cons, decide_eq_true_eq] at hno
    have ih' := ih (by simp only [firstValue, Option.map_eq_none_iff, List.find?_eq_none, decide_eq_true_eq]
                       exact fun x hx => hno x (Or.inr hx))
    simp only [firstValue, List.find?_cons] at ih' ⊢
    by_cases h : f.1 = p
    · simp [h, hp]
    · simp only [h, hm _ h (hno f (Or.inl rfl)), decide_false]
      exact ih'

theorem ofFields_says (fs : List (Str × Str)) (hv : ∀ f ∈ fs, ValidName f.1) : Says (ofFields fs) fs := by
  refine ⟨?_, ?_, ?_, ?_, ?_⟩
  · refine fields_last (·.method) ":method".toList ?_ ?_ fs {}
    · intro r v; rw [onHeader, show lookupToken ":method".toList = some .pMethod from (c105_lookup _ .pMethod).2 rfl]
    · intro r m v h
      rcases onHeader_cases r m v with ⟨e, _⟩ | ⟨_, h⟩ | ⟨_, h⟩ | ⟨_, h⟩ | ⟨_, h⟩ | ⟨_, _, _, _, h⟩
      · exact absurd e h
      all_goals rw [h]
  · refine fields_last (·.url) ":path".toList ?_ ?_ fs {}
    · intro r v; rw [onHeader, show lookupToken ":path".toList = some .pPath from (c105_lookup _ .pPath).2 rfl]
    · intro r m v h
      rcases onHeader_cases r m v with ⟨_, h⟩ | ⟨e, _⟩ | ⟨_, h⟩ | ⟨_, h⟩ | ⟨_, h⟩ | ⟨_, _, _, _, h⟩
      · rw [h]
      · exact absurd e h
      all_goals rw [h]
  · intro n hn hs
    rw [getHeader_lookup, toLower_valid hn, ofFields, fields_lookup n fs {} hv]
    have : (fun f : Str × Str => decide (keyOf f.1 = some n)) = fun f => decide (f.1 = n) := by
      funext f
      simp only [List.map_cons, List.map_nil, List.mem_cons, List.not_mem_nil, or_false, not_or] at hs
      obtain ⟨h1, h2, h3, h4, h5, h6⟩ := hs
      congr 1
      apply propext
      unfold keyOf
      split
      · rename_i h
        constructor
        · intro h'; cases h'
        · intro h'; subst h'; rcases h with h | h
          · exact absurd h h1
          · exact absurd h h2
      · split
        · rename_i h
          constructor
          · intro h'; exact absurd (Option.some.inj h').symm h5
          · intro h'; exact absurd (h'.symm.trans h) h3
        · split
          · rename_i h
            constructor
            · intro h'; exact absurd (Option.some.inj h').symm h6
            · intro h'; exact absurd (h'.symm.trans h) h4
          · simp
    rw [this]
    rfl
  · intro hno
    rw [getHeader_lookup, toLower_valid valid_scheme, ofFields, fields_lookup _ fs {} hv]
    rw [find_special fs ":scheme".toList "scheme".toList hno (by decide +kernel) (by
      intro m h1 h2
      unfold keyOf
      split
      · simp
      · split
        · decide +kernel
        · simpa using h2)]
    rfl
  · intro hno
    rw [getHeader_lookup, toLower_valid valid_authority, ofFields, fields_lookup _ fs {} hv]
    rw [find_special fs ":authority".toList "authority".toList hno (by decide +kernel) (by
      intro m h1 h2
      unfold keyOf
      split
      · simp
      · split
        · decide +kernel
        · simpa using h2)]
    rfl

theorem body_says {r : Req} {fs : List (Str × Str)} (h : Says r fs) (b : Str) : Says { r with body := b } fs := h

theorem ofFields_body (fs : List (Str × Str)) : (ofFields fs).body = [] := by
  have : ∀ (fs : List (Str × Str)) (r : Req), (fs.foldl (fun r f => onHeader r f.1 f.2) r).body = r.body := by
    intro fs
    induction fs with
    | nil => intro r; rfl
    | cons f fs ih =>
      intro r
      rw [List.foldl_cons, ih]
      rcases onHeader_cases r f.1 f.2 with ⟨_, h⟩ | ⟨_, h⟩ | ⟨_, h⟩ | ⟨_, h⟩ | ⟨_, h⟩ | ⟨_, _, _, _, h⟩ <;> rw [h]
  exact this fs {}

theorem received_eq {i : Nat} {es : List (Nat × Ev)} {l : List Ev} (h : relevant (ofStream i es) = l) :
    received i es = (l.foldl stepOne (none, [])).2 := by
  rw [c104_independent, ← h, runOne_relevant]
  rfl

/-- **C104.** A request without body is delivered exactly once, and says what its header fields say: the
method, the path, the first value of each name. -/
theorem c104_no_body (i : Nat) (es : List (Nat × Ev)) (fs : List (Str × Str)) (closed : Bool)
    (hv : ∀ f ∈ fs, ValidName f.1)
    (h : relevant (ofStream i es) = headBlock fs true ++ (if closed then [.close] else [])) :
    ∃ r, received i es = [r] ∧ Says r fs ∧ r.body = [] := by
  refine ⟨ofFields fs, ?_, ofFields_says fs hv, ofFields_body fs⟩
  rw [received_eq h, List.foldl_append, fold_headBlock, fold_closed]

/-- **C104.** A request with a body (and no trailers): the last delivery has the header fields and the whole
body, however it was split into frames and pieces. -/
theorem c104_body (i : Nat) (es : List (Nat × Ev)) (fs : List (Str × Str)) (frames : List (List Str)) (closed : Bool)
    (hv : ∀ f ∈ fs, ValidName f.1) (hne : frames ≠ [])
    (h : relevant (ofStream i es) = headBlock fs false ++ dataFrames frames true ++ (if closed then [.close] else [])) :
    ∃ r, (received i es).getLast? = some r ∧ Says r fs ∧ r.body = frames.flatten.flatten := by
  refine ⟨{ ofFields fs with body := (ofFields fs).body ++ frames.flatten.flatten }, ?_, ofFields_says fs hv, ?_⟩
  · rw [received_eq h, List.foldl_append, List.foldl_append, fold_headBlock, fold_dataFrames _ _ _ _ hne, fold_closed]
    simp
  · simp [ofFields_body]

/-- The state of a stream is its own. -/
theorem stream_state (i : Nat) (es : List (Nat × Ev)) : (run es).streams i = (runOne (ofStream i es)).1 :=
  congrArg Prod.fst (run_proj i es St.init)

/-- **C104.** A stream that was closed is forgotten: nothing is kept for it, and frames that still come for it
deliver nothing. -/
theorem c104_closed (i : Nat) (es late : List (Nat × Ev)) (l : List Ev) (h : ofStream i es = l ++ [.close])
    (hl : ∀ e ∈ ofStream i late, e ≠ .begin true) :
    (run (es ++ late)).streams i = none ∧ received i (es ++ late) = received i es := by
  have ho : ofStream i (es ++ late) = ofStream i es ++ ofStream i late := by simp [ofStream]
  have hn : ∀ (m : List Ev) (o : List Req), (∀ e ∈ m, e ≠ .begin true) → m.foldl stepOne (none, o) = (none, o) := by
    intro m
    induction m with
    | nil => intro o _; rfl
    | cons e m ih =>
      intro o hm
      have : stepOne (none, o) e = (none, o) := by
        have := hm e (by simp)
        cases e <;> simp_all [stepOne, stepReq]
      rw [List.foldl_cons, this]
      exact ih o (fun x hx => hm x (List.mem_cons_of_mem _ hx))
  have hc : runOne (ofStream i es) = (none, (runOne (ofStream i es)).2) := by
    rw [runOne, h, List.foldl_append, List.foldl_cons, List.foldl_nil]
    rfl
  have hr : runOne (ofStream i (es ++ late)) = (none, (runOne (ofStream i es)).2) := by
    rw [ho, runOne, List.foldl_append]
    have := hn (ofStream i late) (runOne (ofStream i es)).2 hl
    rw [← hc] at this ⊢
    exact this
  rw [stream_state, c104_independent, c104_independent, hr]
  exact ⟨rfl, rfl⟩

/-- **C104, violation.** A request with a body is delivered twice: when its header fields are there, without
body, and once more at the end. -/
theorem c104_twice (i : Nat) (es : List (Nat × Ev)) (fs : List (Str × Str)) (frames : List (List Str)) (closed : Bool)
    (hne : frames ≠ [])
    (h : relevant (ofStream i es) = headBlock fs false ++ dataFrames frames true ++ (if closed then [.close] else [])) :
    ∃ r1 r2, received i es = [r1, r2] ∧ r1.body = [] ∧ r2.body = frames.flatten.flatten := by
  refine ⟨ofFields fs, { ofFields fs with body := (ofFields fs).body ++ frames.flatten.flatten }, ?_,
    ofFields_body fs, by simp [ofFields_body]⟩
  rw [received_eq h, List.foldl_append, List.foldl_append, fold_headBlock, fold_dataFrames _ _ _ _ hne, fold_closed]
  rfl

/-- **C104, violation.** The body of a request with trailers is never delivered: the handler gets the request
once, without body. -/
theorem c104_trailers (i : Nat) (es : List (Nat × Ev)) (fs ts : List (Str × Str)) (frames : List (List Str))
    (closed : Bool) (hne : frames ≠ [])
    (h : relevant (ofStream i es) = headBlock fs false ++ dataFrames frames false ++ trailers ts ++
      (if closed then [.close] else [])) :
    ∃ r, received i es = [r] ∧ r.body = [] := by
  refine ⟨ofFields fs, ?_, ofFields_body fs⟩
  rw [received_eq h, List.foldl_append, List.foldl_append, List.foldl_append, fold_headBlock,
    fold_dataFrames _ _ _ _ hne, fold_trailers, fold_closed]
  rfl

/-- **C104, violation.** Of several fields of a name all but the first are lost, such as the parts of a
cookie, which HTTP/2 clients may send as fields of their own. -/
theorem c104_cookie_lost (i : Nat) (m p c1 c2 : Str) :
    ∃ r, received i ((headBlock [(":method".toList, m), (":path".toList, p), ("cookie".toList, c1),
        ("cookie".toList, c2)] true).map (fun e => (i, e))) = [r] ∧
      getHeader r.headers "cookie".toList = c1 := by
  have hp : relevant (ofStream i ((headBlock [(":method".toList, m), (":path".toList, p), ("cookie".toList, c1),
        ("cookie".toList, c2)] true).map (fun e => (i, e)))) =
      headBlock [(":method".toList, m), (":path".toList, p), ("cookie".toList, c1), ("cookie".toList, c2)] true ++
        (if false then [.close] else []) := by
    simp [ofStream, headBlock, relevant]
  obtain ⟨r, h1, h2, _⟩ := c104_no_body i _ _ false (by
    intro f hf
    simp only [List.mem_cons, List.not_mem_nil, or_false] at hf
    rcases hf with rfl | rfl | rfl | rfl <;> simp only [] <;> decide +kernel) hp
  refine ⟨r, h1, ?_⟩
  rw [h2.2.2.1 "cookie".toList (by decide +kernel) (by decide +kernel)]
  have e1 : ":method".toList ≠ "cookie".toList := by decide
  have e2 : ":path".toList ≠ "cookie".toList := by decide
  simp only [firstValue, List.find?_cons, e1, e2, decide_false, decide_true]
  rfl

/-! ### Responses -/

/-- Frames written. -/
inductive Frame where
  | headers (fields : List (Str × Str)) (fin : Bool)
  | data (payload : Str) (fin : Bool)
deriving DecidableEq, Repr

/-- Header fields not sent (h2_codec_service.cc:498-506).  Where `IgnoreCaseEquals` would read behind the
literal, it finds its NUL, which is in no name. -/
def skipped (k : Str) : Bool :=
  ignoreCaseEquals k "connection".toList == some true || ignoreCaseEquals k "content-length".toList == some true

/-- The fields of a response (h2_codec_service.cc:494-508). -/
def responseFields (code : Nat) (hs : Headers) : List (Str × Str) :=
  (":status".toList, Nat.toDigits 10 code) :: hs.filter (fun p => !skipped p.1)

/-- `SendResponse` on an open stream (h2_codec_service.cc:490-549), the data provider (515-533) and
`send_data_callback` (163-199): result and frames.  `readMax` is the length nghttp2 offers: it fails if the
provider returns more. -/
def sendResponse (readMax code : Nat) (hs : Headers) (body : Str) : Bool × List Frame :=
  if body = [] then (true, [.headers (responseFields code hs) true])
  else if body.length ≤ readMax then (true, [.headers (responseFields code hs) false, .data body true])
  else (false, [.headers (responseFields code hs) false])

/-- `HttpRequestCtx::Response` (http_context.cc:75-104) for a request of HTTP/2, which is kept alive: the
frames written and whether the connection is closed then. -/
def respond (readMax code : Nat) (hs : Headers) (body : Str) : List Frame × Bool :=
  ((sendResponse readMax code hs body).2, !(sendResponse readMax code hs body).1)

/-- The body of frames. -/
def bodyOf : List Frame → Str
  | [] => []
  | .data p _ :: t => p ++ bodyOf t
  | .headers _ _ :: t => bodyOf t

/-- Exactly the last frame ends the stream. -/
def EndsOnce : List Frame → Prop
  | [] => False
  | [.data _ fin] => fin = true
  | [.headers _ fin] => fin = true
  | .data _ fin :: t => fin = false ∧ EndsOnce t
  | .headers _ fin :: t => fin = false ∧ EndsOnce t

/-- **C106.** A response whose body fits what nghttp2 offers is written whole, with its status and fields
first, ends the stream once, and the connection stays open. -/
theorem c106_fits (readMax code : Nat) (hs : Headers) (body : Str) (h : body.length ≤ readMax) :
    (respond readMax code hs body).2 = false ∧ bodyOf (respond readMax code hs body).1 = body ∧
    EndsOnce (respond readMax code hs body).1 ∧
    ∃ fin t, (respond readMax code hs body).1 = .headers (responseFields code hs) fin :: t := by
  unfold respond sendResponse
  split
  · rename_i hb; subst hb; exact ⟨rfl, rfl, rfl, true, [], rfl⟩
  · exact ⟨rfl, by simp [bodyOf], ⟨rfl, rfl⟩, false, [.data body true], rfl⟩

theorem equals_prefix : ∀ (a b : Str), ignoreCaseEquals a b = some true ↔ a.map Char.toUpper <+: b.map Char.toUpper := by
  intro a
  induction a with
  | nil => intro b; simp [ignoreCaseEquals]
  | cons x a ih =>
    intro b
    cases b with
    | nil => simp [ignoreCaseEquals]
    | cons y b =>
      simp only [ignoreCaseEquals, List.map_cons, List.cons_prefix_cons]
      by_cases h : x.toUpper = y.toUpper
      · simp [h, ih b]
      · simp [h]

/-- **C106.** Status and header fields are sent, in order, except those whose names are beginnings of
`connection` or `content-length`. -/
theorem c106_fields (code : Nat) (hs : Headers) :
    ∃ l, responseFields code hs = (":status".toList, Nat.toDigits 10 code) :: l ∧ l.Sublist hs ∧
      ∀ p, p ∈ l ↔ p ∈ hs ∧ ¬ (p.1.map Char.toUpper <+: "CONNECTION".toList) ∧
        ¬ (p.1.map Char.toUpper <+: "CONTENT-LENGTH".toList) := by
  refine ⟨_, rfl, List.filter_sublist, fun p => ?_⟩
  have e1 : "connection".toList.map Char.toUpper = "CONNECTION".toList := by decide +kernel
  have e2 : "content-length".toList.map Char.toUpper = "CONTENT-LENGTH".toList := by decide +kernel
  rw [List.mem_filter]
  simp only [skipped, Bool.not_eq_true', Bool.or_eq_false_iff, beq_eq_false_iff_ne, ne_eq, equals_prefix, e1, e2]

/-- **C106, violation.** A body of more than 16 KiB, which is more than nghttp2 ever offers, is not sent:
the header fields are, and the connection is closed with all its streams. -/
theorem c106_large (readMax code : Nat) (hs : Headers) (body : Str) (hr : readMax ≤ 16384) (h : 16384 < body.length) :
    respond readMax code hs body = ([.headers (responseFields code hs) false], true) := by
  unfold respond sendResponse
  rw [if_neg (by intro e; rw [e] at h; simp at h), if_neg (by omega)]
  rfl

/-- **C106, violation.** Fields whose names begin `connection` or `content-length` are lost, such as
`content`. -/
theorem c106_prefix_lost (code : Nat) (hs : Headers) (v : Str) :
    ("content".toList, v) ∉ responseFields code (("content".toList, v) :: hs) := by
  intro hm
  obtain ⟨l, e, _, hl⟩ := c106_fields code (("content".toList, v) :: hs)
  rw [e, List.mem_cons] at hm
  rcases hm with h | h
  · have := congrArg Prod.fst h
    revert this
    simp only
    decide
  · exact ((hl _).1 h).2.2 (show "content".toList.map Char.toUpper <+: "CONTENT-LENGTH".toList by decide +kernel)

/-- `H2Context::Push` and `PushPromise` (http_context.cc:118-134, h2_codec_service.cc:422-473): the values
the callback is called with. -/
def push (connected inLoop streamOpen : Bool) (promiseId : Int) (sent : Bool) : List Int :=
  if !connected then [] else if !inLoop then []
  else if !streamOpen then [-1] else if promiseId < 0 then [-2] else if sent then [0] else [-3]

/-- **C106.** The callback of a push on a live connection, from its loop, is called exactly once, with zero
iff the push was sent. -/
theorem c106_push (streamOpen sent : Bool) (promiseId : Int) :
    ∃ c, push true true streamOpen promiseId sent = [c] ∧ (c = 0 ↔ streamOpen = true ∧ 0 ≤ promiseId ∧ sent = true) := by
  by_cases hp : promiseId < 0
  · cases streamOpen <;> cases sent <;> simp [push, hp]
  · have : 0 ≤ promiseId := by omega
    cases streamOpen <;> cases sent <;> simp [push, hp, this]

/-- **C106, violation.** From another loop, or when the connection is gone, the callback of a push is never
called. -/
theorem c106_push_silent (connected inLoop streamOpen sent : Bool) (promiseId : Int)
    (h : connected = false ∨ inLoop = false) : push connected inLoop streamOpen promiseId sent = [] := by
  rcases h with rfl | rfl
  · rfl
  · cases connected <;> rfl

/-- Two interleaved streams: a GET and a POST of two frames. -/
theorem w_c104 :
    received 1 [(1, .begin true), (1, .header true ":method".toList "GET".toList), (3, .begin true),
      (1, .header true ":path".toList "/a".toList), (3, .header true ":method".toList "POST".toList),
      (1, .headersDone true true), (3, .headersDone true false), (3, .chunk "xy".toList), (3, .dataDone false),
      (3, .otherDone), (3, .chunk "z".toList), (3, .dataDone true), (1, .close)] =
      [⟨"GET".toList, "/a".toList, [], []⟩] ∧
    (received 3 [(1, .begin true), (1, .header true ":method".toList "GET".toList), (3, .begin true),
      (1, .header true ":path".toList "/a".toList), (3, .header true ":method".toList "POST".toList),
      (1, .headersDone true true), (3, .headersDone true false), (3, .chunk "xy".toList), (3, .dataDone false),
      (3, .otherDone), (3, .chunk "z".toList), (3, .dataDone true), (1, .close)]).getLast? =
      some ⟨"POST".toList, [], [], "xyz".toList⟩ := by decide +kernel

end Ltio.H2
