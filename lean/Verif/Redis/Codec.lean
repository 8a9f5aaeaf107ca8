import Verif.Redis.RespSpec
/-
Model of the redis client codec: `RespCodecService`
(net_io/codec/redis/resp_codec_service.{h,cc}).

`next_incoming_count_` is a `uint32_t`: decrementing 0 wraps.  `handler_` is set (it always is for a
client channel).  The receive buffer of the channel is part of the state; `OnDataReceived` is called
after a read appended a non-empty chunk to it.  A handler that submits its next request from inside
`OnCodecMessage` (as `QueuedChannel` does, queued_channel.cc:117-130) is the argument `next`.
-/
namespace Ltio.Redis

/-- Observable effects. -/
inductive Ev where
  | wire (k : Nat)              -- a request of `k` commands was written to the connection
  | deliver (vs : List Val)     -- `OnCodecMessage` with a response of these results
  | ready                       -- `NotifyCodecReady`
  | closeService
  | notifyClosed

structure Codec where
  dec : Dec
  count : Nat                   -- next_incoming_count_
  cur : Option (List Val)       -- current_response
  buf : List UInt8              -- the channel's receive buffer
  auth : Bool                   -- init_wait_res_flags_ & kWaitAuth
  select : Bool                 -- init_wait_res_flags_ & kWaitSelectDB
  out : List Ev

/-- `next_incoming_count_--`. -/
def dec32 (n : Nat) : Nat := if n = 0 then 2 ^ 32 - 1 else n - 1

/-- The do-while loop of `OnDataReceived` (resp_codec_service.cc:76-88).  `fuel` bounds the number
of iterations: every iteration but the last uses at least one byte.  `none`: crash. -/
def loop : Nat → Dec → Nat → List Val → List UInt8 → Option (Dec × Nat × List Val × List UInt8)
  | 0, _, _, _, _ => none
  | fuel + 1, d, count, acc, buf =>
    match decode d buf with
    | .crash => none
    | .inc d' k => some (d', count, acc, buf.drop k)
    | .err d' k => some (d', count, acc, buf.drop k)
    | .ok d' k v =>
      if dec32 count > 0 then loop fuel d' (dec32 count) (acc ++ [v]) (buf.drop k)
      else some (d', dec32 count, acc ++ [v], buf.drop k)

/-- `type == ty_string && strncmp("OK", data, 2) == 0`. -/
def isOK : Option Val → Bool
  | some (.str b) => b.take 2 == [79, 75]
  | _ => false

/-- `HandleInitResponse` (lines 105-128). -/
def initEvs (auth select : Bool) (vs : List Val) : List Ev :=
  if auth && !isOK vs[0]? then [.closeService]
  else if select && !isOK (if auth then vs[1]? else vs[0]?) then [.closeService]
  else [.ready]

/-- `SendRequest` (lines 141-150): `CHECK`, send, remember the number of commands.  `ok` is the
answer of the channel. -/
def sendRequest (c : Codec) (k : Nat) (ok : Bool) : Option Codec :=
  if c.count = 0 then
    if ok then some { c with count := k % 2 ^ 32, out := c.out ++ [.wire k] } else some c
  else none

/-- `OnDataReceived` (lines 68-103). -/
def onData (c : Codec) (chunk : List UInt8) (next : Option Nat) : Option Codec :=
  match loop ((c.buf ++ chunk).length + 1) c.dec c.count (c.cur.getD []) (c.buf ++ chunk) with
  | none => none
  | some (d, count, acc, rest) =>
    if count = 0 then
      if c.auth || c.select then
        some { c with
          dec := d, count := 0, cur := none, buf := rest, auth := false, select := false,
          out := c.out ++ initEvs c.auth c.select acc }
      else
        -- line 94: the handler runs, and may send; lines 99-101 then reset the count
        match next with
        | none =>
          some { c with
            dec := d, count := 0, cur := none, buf := rest, out := c.out ++ [.deliver acc] }
        | some k =>
          match sendRequest { c with
              dec := d, count := count, cur := none, buf := rest,
              out := c.out ++ [.deliver acc] } k true with
          | none => none
          | some c' => some { c' with count := 0 }
    else some { c with dec := d, count := count, cur := some acc, buf := rest }

/-- `StartProtocolService` (lines 35-66) with `auth`/`select` telling which commands the remote
info asks for, and `ok` the answer of the channel. -/
def start (auth select ok : Bool) : Codec :=
  if !auth && !select then ⟨Dec.init, 0, none, [], false, false, [.ready]⟩
  else if ok then
    ⟨Dec.init, (if auth then 1 else 0) + (if select then 1 else 0), none, [], auth, select,
      [.wire ((if auth then 1 else 0) + (if select then 1 else 0))]⟩
  else ⟨Dec.init, 0, none, [], false, false, [.closeService, .notifyClosed]⟩

/-- What happens on one connection. -/
inductive Op where
  | send (k : Nat) (ok : Bool)
  | data (chunk : List UInt8) (next : Option Nat)

def step (c : Codec) : Op → Option Codec
  | .send k ok => sendRequest c k ok
  | .data chunk next => onData c chunk next

def run (c : Codec) : List Op → Option Codec
  | [] => some c
  | o :: os => match step c o with
    | none => none
    | some c' => run c' os

theorem run_append (c : Codec) (a b : List Op) :
    run c (a ++ b) = (run c a).bind (fun c' => run c' b) := by
  induction a generalizing c with
  | nil => rfl
  | cons o os ih =>
    simp only [List.cons_append, run]
    cases step c o with
    | none => rfl
    | some c' => exact ih c'

/-! ### Parsing a stream of replies -/

/-- Decoding value after value from `d` on the stream `W` gives `vs`, ends in `dEnd` and leaves
`tail`. -/
inductive Parses : Dec → List UInt8 → List Val → List UInt8 → Dec → Prop where
  | nil (d : Dec) (tail : List UInt8) : Parses d tail [] tail d
  | cons {d d' dEnd : Dec} {W tail : List UInt8} {k : Nat} {v : Val} {vs : List Val} :
      decode d W = .ok d' k v → Parses d' (W.drop k) vs tail dEnd → Parses d W (v :: vs) tail dEnd

theorem parses_encs (vs : List Val) (h : Wfs vs) : ∀ (b tail : List UInt8),
    ∃ b', Parses ⟨⟨.start, b⟩, []⟩ (encs vs ++ tail) vs tail ⟨⟨.start, b'⟩, []⟩ := by
  induction vs with
  | nil => intro b tail; exact ⟨b, .nil _ _⟩
  | cons v vs ih =>
    intro b tail
    rw [Wfs] at h
    obtain ⟨b1, h1⟩ := decode_enc v h.1 b (encs vs ++ tail)
    obtain ⟨b2, h2⟩ := ih h.2 b1 tail
    refine ⟨b2, .cons (d' := ⟨⟨.start, b1⟩, []⟩) (k := (enc v).length) ?_ ?_⟩
    · rw [encs, List.append_assoc]; exact h1
    · rw [encs, List.append_assoc, List.drop_left]; exact h2

/-- One call on a chunk of the stream. -/
theorem decode_chunk_cases {d d' : Dec} (hd : d.Good) {c W' : List UInt8} {k : Nat} {v : Val}
    (h : decode d (c ++ W') = .ok d' k v) :
    (decode d c = .ok d' k v ∧ k ≤ c.length) ∨
    (∃ d1 j, decode d c = .inc d1 c.length ∧ d1.Good ∧ decode d1 W' = .ok d' j v ∧
      k = c.length + j) := by
  have ha := decode_append d hd c W'
  have hf := decode_facts d hd c
  rw [h] at ha
  cases hc : decode d c with
  | ok d1 k1 v1 =>
    rw [hc] at ha
    simp only [R.erase, R.glue] at ha
    left
    refine ⟨ha.symm, ?_⟩
    have := hf.ok _ _ _ (hc.trans ha.symm)
    omega
  | err d1 k1 => rw [hc] at ha; simp [R.erase, R.glue] at ha
  | crash => rw [hc] at ha; simp [R.erase, R.glue] at ha
  | inc d1 k1 =>
    right
    obtain ⟨hk, hg⟩ := hf.inc d1 k1 hc
    rw [hc] at ha
    simp only [R.glue] at ha
    cases hw : decode d1 W' with
    | ok d2 j v2 =>
      rw [hw] at ha
      simp only [R.erase, R.shift, R.ok.injEq] at ha
      obtain ⟨h1, h2, h3⟩ := ha
      subst h1 h3
      exact ⟨d1, j, by rw [hk], hg, hw, by omega⟩
    | err d2 j => rw [hw] at ha; simp [R.erase, R.shift] at ha
    | crash => rw [hw] at ha; simp [R.erase, R.shift] at ha
    | inc d2 j => rw [hw] at ha; simp [R.erase, R.shift] at ha

theorem good_of_ok {d d' : Dec} (hd : d.Good) {bs : List UInt8} {k : Nat} {v : Val}
    (h : decode d bs = .ok d' k v) : d'.Good ∧ 0 < k ∧ k ≤ bs.length := by
  have := (decode_facts d hd bs).ok _ _ _ h
  refine ⟨?_, this.1, this.2.1⟩
  intro f hf
  rw [this.2.2] at hf
  simp at hf

/-- The loop on a chunk `c` of a stream that goes on with `W'`. -/
theorem loop_parses (vs : List Val) : ∀ (d : Dec) (acc : List Val) (c W' tail : List UInt8)
    (dEnd : Dec) (fuel : Nat), d.Good → vs ≠ [] → vs.length < 2 ^ 32 → c.length < fuel →
    Parses d (c ++ W') vs tail dEnd →
    (∃ d1 vs1 vs2, vs = vs1 ++ vs2 ∧ vs2 ≠ [] ∧ d1.Good ∧ Parses d1 W' vs2 tail dEnd ∧
      loop fuel d vs.length acc c = some (d1, vs2.length, acc ++ vs1, [])) ∨
    (∃ r, r ++ W' = tail ∧ loop fuel d vs.length acc c = some (dEnd, 0, acc ++ vs, r)) := by
  induction vs with
  | nil => intro d acc c W' tail dEnd fuel _ h; exact absurd rfl h
  | cons v vs ih =>
    intro d acc c W' tail dEnd fuel hd _ hlen hfuel hp
    obtain ⟨f, rfl⟩ : ∃ f, fuel = f + 1 := ⟨fuel - 1, by omega⟩
    cases hp with
    | cons hdec hrest =>
      rename_i d' k
      rcases decode_chunk_cases hd hdec with ⟨h1, h2⟩ | ⟨d1, j, h1, hg, h3, h4⟩
      · obtain ⟨hg', hk0, hk1⟩ := good_of_ok hd h1
        have hdec32 : dec32 (v :: vs).length = vs.length := by simp [dec32]
        rw [List.drop_append_of_le_length h2] at hrest
        simp only [loop, h1, hdec32]
        cases hvs : vs with
        | nil =>
          right
          subst hvs
          cases hrest
          refine ⟨c.drop k, rfl, ?_⟩
          simp
        | cons w ws =>
          rw [← hvs]
          have hpos : vs.length > 0 := by rw [hvs]; simp
          simp only [hpos, if_true]
          have hl' : (c.drop k).length < f := by
            simp only [List.length_drop]
            omega
          simp only [List.length_cons] at hlen
          rcases ih d' (acc ++ [v]) (c.drop k) W' tail dEnd f hg' (by rw [hvs]; simp) (by omega)
              hl' hrest with ⟨d1, vs1, vs2, e1, e2, e3, e4, e5⟩ | ⟨r, e1, e2⟩
          · left
            refine ⟨d1, v :: vs1, vs2, by rw [e1]; rfl, e2, e3, e4, ?_⟩
            rw [e5]
            simp
          · right
            refine ⟨r, e1, ?_⟩
            rw [e2]
            simp
      · left
        refine ⟨d1, [], v :: vs, rfl, by simp, hg, .cons h3 ?_, ?_⟩
        · rw [h4, List.drop_append, List.drop_of_length_le (by omega), List.nil_append,
            show c.length + j - c.length = j by omega] at hrest
          exact hrest
        · simp only [loop, h1]
          simp

/-- The connection is idle: no request outstanding, nothing half decoded, nothing buffered. -/
structure Idle (c : Codec) : Prop where
  dec : ∃ b, c.dec = ⟨⟨.start, b⟩, []⟩
  count : c.count = 0
  cur : c.cur = none
  buf : c.buf = []
  auth : c.auth = false
  select : c.select = false

/-- Waiting for the replies `vs` of the stream, `acc` already decoded. -/
structure Waiting (fl : Bool × Bool) (c : Codec) (acc vs : List Val) (W tail : List UInt8) (dEnd : Dec) : Prop where
  good : c.dec.Good
  count : c.count = vs.length
  pos : vs ≠ []
  lt : vs.length < 2 ^ 32
  cur : c.cur.getD [] = acc
  buf : c.buf = []
  auth : c.auth = fl.1
  select : c.select = fl.2
  parses : Parses c.dec W vs tail dEnd

/-- What a complete set of replies is turned into. -/
def doneEvs (fl : Bool × Bool) (vs : List Val) : List Ev :=
  if fl.1 || fl.2 then initEvs fl.1 fl.2 vs else [.deliver vs]

theorem onData_waiting {fl : Bool × Bool} {c : Codec} {acc vs : List Val} {W' tail : List UInt8} {dEnd : Dec}
    (chunk : List UInt8) (h : Waiting fl c acc vs (chunk ++ W') tail dEnd) :
    (∃ c' vs1 vs2, vs = vs1 ++ vs2 ∧ onData c chunk none = some c' ∧ c'.out = c.out ∧
      Waiting fl c' (acc ++ vs1) vs2 W' tail dEnd) ∨
    (∃ c' r, r ++ W' = tail ∧ onData c chunk none = some c' ∧
      c'.out = c.out ++ doneEvs fl (acc ++ vs) ∧ c'.dec = dEnd ∧ c'.count = 0 ∧ c'.cur = none ∧
      c'.buf = r ∧ c'.auth = false ∧ c'.select = false) := by
  unfold onData
  rw [h.buf, List.nil_append, h.count, h.cur]
  rcases loop_parses vs c.dec acc chunk W' tail dEnd (chunk.length + 1) h.good h.pos h.lt
      (by omega) h.parses with ⟨d1, vs1, vs2, e1, e2, e3, e4, e5⟩ | ⟨r, e1, e2⟩
  · left
    rw [e5]
    have hne : ¬ vs2.length = 0 := by
      intro h0; exact e2 (List.length_eq_zero_iff.1 h0)
    simp only [hne, if_false]
    refine ⟨_, vs1, vs2, e1, rfl, rfl, ?_⟩
    have hlt := h.lt
    rw [e1, List.length_append] at hlt
    exact ⟨e3, rfl, e2, by omega, rfl, rfl, h.auth, h.select, e4⟩
  · right
    rw [e2]
    simp only [if_true, h.auth, h.select]
    cases hfl : (fl.1 || fl.2) with
    | true =>
      simp only [if_true, doneEvs, hfl]
      exact ⟨_, r, e1, rfl, rfl, rfl, rfl, rfl, rfl, rfl, rfl⟩
    | false =>
      simp only [Bool.false_eq_true, if_false, doneEvs, hfl]
      have hf := Bool.or_eq_false_iff.1 hfl
      exact ⟨_, r, e1, rfl, rfl, rfl, rfl, rfl, rfl, hf.1, hf.2⟩

theorem parses_nil_inv {d : Dec} {W tail : List UInt8} {dEnd : Dec}
    (h : Parses d W [] tail dEnd) : W = tail := by cases h; rfl

theorem decode_nil_inc (d : Dec) (hd : d.Good) : ∃ d', decode d [] = .inc d' 0 := by
  have hf := decode_facts d hd []
  obtain ⟨l, st⟩ := d
  induction st with
  | nil => exact ⟨_, decodeChunk_nil l⟩
  | cons f fs ih =>
    obtain ⟨n, vals⟩ := f
    have hn : 0 < n := hd (n, vals) List.mem_cons_self
    have hg : Dec.Good ⟨l, fs⟩ := fun f hf => hd f (List.mem_cons_of_mem _ hf)
    obtain ⟨d', hd'⟩ := ih hg (decode_facts _ hg [])
    have := decode_frame ⟨l, fs⟩ n vals hn []
    rw [hd'] at this
    simp only [wrap, R.erase] at this
    cases hr : decode ⟨l, (n, vals) :: fs⟩ [] with
    | inc d2 k => rw [hr] at this; simp only at this; injection this with a b; exact ⟨d2, by rw [b]⟩
    | ok _ _ _ => rw [hr] at this; simp at this
    | err _ _ => rw [hr] at this; simp at this
    | crash => rw [hr] at this; simp at this

/-- Chunks of the replies, without re-entrant sends. -/
def feeds (cs : List (List UInt8)) : List Op := cs.map (fun c => .data c none)

/-- Feeding the chunks of a stream that contains exactly the awaited replies. -/
theorem run_feeds (fl : Bool × Bool) (cs : List (List UInt8)) : ∀ (c : Codec) (acc vs : List Val) (dEnd : Dec),
    (∀ x ∈ cs, x ≠ []) → Waiting fl c acc vs cs.flatten [] dEnd →
    ∃ c', run c (feeds cs) = some c' ∧ c'.out = c.out ++ doneEvs fl (acc ++ vs) ∧ c'.dec = dEnd ∧
      c'.count = 0 ∧ c'.cur = none ∧ c'.buf = [] ∧ c'.auth = false ∧ c'.select = false := by
  induction cs with
  | nil =>
    intro c acc vs dEnd _ h
    exfalso
    obtain ⟨d', hd'⟩ := decode_nil_inc c.dec h.good
    have hp := h.parses
    cases vs with
    | nil => exact h.pos rfl
    | cons v vs =>
      cases hp with
      | cons h1 _ =>
        rw [List.flatten_nil] at h1
        rw [hd'] at h1
        simp at h1
  | cons x cs ih =>
    intro c acc vs dEnd hne h
    rw [List.flatten_cons] at h
    simp only [feeds, List.map_cons, run, step]
    rcases onData_waiting x h with ⟨c', vs1, vs2, e1, e2, e3, e4⟩ | ⟨c', r, e1, e2, e3, e4⟩
    · rw [e2]
      obtain ⟨c2, f1, f2, f3⟩ := ih c' (acc ++ vs1) vs2 dEnd
        (fun y hy => hne y (List.mem_cons_of_mem _ hy)) e4
      refine ⟨c2, f1, ?_, f3⟩
      rw [f2, e3, e1, List.append_assoc]
    · rw [e2]
      have hr : r = [] := (List.append_eq_nil_iff.1 e1).1
      have hcs : cs = [] := by
        have := (List.append_eq_nil_iff.1 e1).2
        cases cs with
        | nil => rfl
        | cons y ys =>
          rw [List.flatten_cons, List.append_eq_nil_iff] at this
          exact absurd this.1 (hne y (by simp))
      subst hcs
      refine ⟨c', rfl, e3, e4.1, e4.2.1, e4.2.2.1, ?_, e4.2.2.2.2⟩
      rw [e4.2.2.2.1, hr]

/-- One exchange: a request of as many commands as there are replies, then the replies cut into
chunks in any way. -/
structure Exchange where
  replies : List Val
  chunks : List (List UInt8)

/-- The exchange is between this client and a correct server. -/
structure Exchange.Valid (e : Exchange) : Prop where
  wf : Wfs e.replies
  pos : e.replies ≠ []
  lt : e.replies.length < 2 ^ 32
  split : e.chunks.flatten = encs e.replies
  chunks : ∀ x ∈ e.chunks, x ≠ []

def Exchange.ops (e : Exchange) : List Op := .send e.replies.length true :: feeds e.chunks

theorem exchange_step (e : Exchange) (he : e.Valid) (c : Codec) (hi : Idle c) :
    ∃ c', run c e.ops = some c' ∧ Idle c' ∧
      c'.out = c.out ++ [.wire e.replies.length, .deliver e.replies] := by
  obtain ⟨b, hb⟩ := hi.dec
  obtain ⟨b', hp⟩ := parses_encs e.replies he.wf b []
  rw [List.append_nil, ← he.split] at hp
  simp only [Exchange.ops, run, step, sendRequest, hi.count, if_true]
  have hw : Waiting (false, false) { c with count := e.replies.length % 2 ^ 32, out := c.out ++ [.wire e.replies.length] }
      [] e.replies e.chunks.flatten [] ⟨⟨.start, b'⟩, []⟩ := by
    refine ⟨?_, Nat.mod_eq_of_lt he.lt, he.pos, he.lt, ?_, hi.buf, hi.auth, hi.select, ?_⟩
    · simp only [hb]; intro f hf; simp at hf
    · simp only [hi.cur, Option.getD_none]
    · simp only [hb]; exact hp
  obtain ⟨c', h1, h2, h3, h4, h5, h6, h7, h8⟩ := run_feeds (false, false) e.chunks _ [] e.replies _ he.chunks hw
  refine ⟨c', ?_, ⟨⟨b', h3⟩, h4, h5, h6, h7, h8⟩, ?_⟩
  · exact h1
  · rw [h2]; simp [doneEvs]

/-- **C35 (partial).**  On a ready connection whose handler does not send from inside the response
callback, every request of `k ≥ 1` commands is completed by exactly one response carrying exactly
the `k` replies the server sent for it, in order, for every sequence of requests and every way the
replies are cut into chunks; nothing is left over for the next request. -/
theorem c35_pairing_partial (es : List Exchange) (hes : ∀ e ∈ es, e.Valid) :
    ∃ c', run (start false false true) (es.flatMap Exchange.ops) = some c' ∧ Idle c' ∧
      c'.out = .ready ::
        es.flatMap (fun e => [.wire e.replies.length, .deliver e.replies]) := by
  have key : ∀ (es : List Exchange) (c : Codec), (∀ e ∈ es, e.Valid) → Idle c →
      ∃ c', run c (es.flatMap Exchange.ops) = some c' ∧ Idle c' ∧
        c'.out = c.out ++ es.flatMap (fun e => [.wire e.replies.length, .deliver e.replies]) := by
    intro es
    induction es with
    | nil => intro c _ hi; exact ⟨c, rfl, hi, by simp⟩
    | cons e es ih =>
      intro c hv hi
      obtain ⟨c1, h1, h2, h3⟩ := exchange_step e (hv e List.mem_cons_self) c hi
      obtain ⟨c2, g1, g2, g3⟩ := ih c1 (fun x hx => hv x (List.mem_cons_of_mem _ hx)) h2
      refine ⟨c2, ?_, g2, ?_⟩
      · rw [List.flatMap_cons, run_append, h1]; exact g1
      · rw [g3, h3, List.flatMap_cons, List.append_assoc]
  obtain ⟨c', h1, h2, h3⟩ := key es (start false false true) hes
    ⟨⟨[], rfl⟩, rfl, rfl, rfl, rfl, rfl⟩
  exact ⟨c', h1, h2, by rw [h3]; rfl⟩

/-- **C35 (partial), nothing more is consumed.**  If bytes of a later reply arrive together with the
last awaited one, the response is still exactly the awaited replies and those bytes stay in the
receive buffer. -/
theorem c35_leftover_partial (vs : List Val) (hw : Wfs vs) (hpos : vs ≠ [])
    (hlt : vs.length < 2 ^ 32) (tail : List UInt8) (c : Codec) (hi : Idle c) :
    ∃ c', run c [.send vs.length true, .data (encs vs ++ tail) none] = some c' ∧
      c'.out = c.out ++ [.wire vs.length, .deliver vs] ∧ c'.buf = tail ∧ c'.count = 0 := by
  obtain ⟨b, hb⟩ := hi.dec
  obtain ⟨b', hp⟩ := parses_encs vs hw b tail
  have hW : Waiting (false, false) { c with count := vs.length % 2 ^ 32, out := c.out ++ [.wire vs.length] }
      [] vs ((encs vs ++ tail) ++ []) tail ⟨⟨.start, b'⟩, []⟩ := by
    refine ⟨?_, Nat.mod_eq_of_lt hlt, hpos, hlt, ?_, hi.buf, hi.auth, hi.select, ?_⟩
    · simp only [hb]; intro f hf; simp at hf
    · simp only [hi.cur, Option.getD_none]
    · simp only [hb, List.append_nil]; exact hp
  simp only [run, step, sendRequest, hi.count, if_true]
  rcases onData_waiting _ hW with ⟨c', vs1, vs2, e1, e2, e3, e4⟩ | ⟨c', r, e1, e2, e3, e4⟩
  · exfalso
    obtain ⟨d', hd'⟩ := decode_nil_inc c'.dec e4.good
    have hp' := e4.parses
    cases vs2 with
    | nil => exact e4.pos rfl
    | cons v vs =>
      cases hp' with
      | cons h1 _ => rw [hd'] at h1; simp at h1
  · rw [e2]
    refine ⟨c', rfl, ?_, ?_, e4.2.1⟩
    · rw [e3]; simp [doneEvs]
    · rw [e4.2.2.2.1]; simpa using e1

/-- **C35, start-up.**  With a password and/or a database configured, one request with those
commands is sent first; after the replies have arrived, in any chunking, the connection reports
ready exactly once if every reply is the status `OK…`, and is closed without ever reporting ready
otherwise; the user never sees these replies. -/
theorem c35_startup (auth select : Bool) (hany : (auth || select) = true) (vs : List Val)
    (hw : Wfs vs) (hlen : vs.length = (if auth then 1 else 0) + (if select then 1 else 0))
    (chunks : List (List UInt8)) (hsplit : chunks.flatten = encs vs) (hne : ∀ x ∈ chunks, x ≠ []) :
    ∃ c', run (start auth select true) (feeds chunks) = some c' ∧ Idle c' ∧
      ((∀ v ∈ vs, ∃ t, v = .str ([79, 75] ++ t)) → c'.out = [.wire vs.length, .ready]) ∧
      (¬ (∀ v ∈ vs, ∃ t, v = .str ([79, 75] ++ t)) →
        c'.out = [.wire vs.length, .closeService]) := by
  obtain ⟨b', hp⟩ := parses_encs vs hw [] []
  rw [List.append_nil, ← hsplit] at hp
  have hstart : start auth select true = ⟨Dec.init, vs.length, none, [], auth, select, [.wire vs.length]⟩ := by
    unfold start
    cases auth <;> cases select <;> simp at hany <;> simp [hlen]
  have hW : Waiting (auth, select) (start auth select true) [] vs chunks.flatten []
      ⟨⟨.start, b'⟩, []⟩ := by
    rw [hstart]
    refine ⟨?_, rfl, ?_, ?_, rfl, rfl, rfl, rfl, hp⟩
    · intro f hf; simp [Dec.init] at hf
    · intro h0
      rw [h0] at hlen
      cases auth <;> cases select <;> simp at hany hlen
    · cases auth <;> cases select <;> simp at hany hlen <;> omega
  obtain ⟨c', h1, h2, h3, h4, h5, h6, h7, h8⟩ := run_feeds (auth, select) chunks _ [] vs _ hne hW
  refine ⟨c', h1, ⟨⟨b', h3⟩, h4, h5, h6, h7, h8⟩, ?_⟩
  have hok : ∀ v, (∃ t, v = .str ([79, 75] ++ t)) ↔ isOK (some v) = true := by
    intro v
    cases v with
    | str b =>
      simp only [isOK, beq_iff_eq]
      constructor
      · rintro ⟨t, ht⟩
        injection ht with ht
        rw [ht]; rfl
      · intro h
        refine ⟨b.drop 2, ?_⟩
        rw [← h, List.take_append_drop]
    | _ => simp [isOK]
  have hev : doneEvs (auth, select) vs =
      [if vs.all (fun v => isOK (some v)) then .ready else .closeService] := by
    simp only [doneEvs, hany, if_true]
    match vs, hlen with
    | [], h => cases auth <;> cases select <;> simp at hany h
    | [v], h =>
      cases auth <;> cases select <;> simp at hany h <;> simp [initEvs] <;>
        cases isOK (some v) <;> simp
    | [v, w], h =>
      cases auth <;> cases select <;> simp at hany h <;> simp [initEvs] <;>
        cases isOK (some v) <;> cases isOK (some w) <;> simp
    | _ :: _ :: _ :: _, h => cases auth <;> cases select <;> simp at h
  have hout : c'.out = [.wire vs.length, if vs.all (fun v => isOK (some v)) then .ready else .closeService] := by
    rw [h2, List.nil_append, hev, hstart]
    rfl
  constructor
  · intro h
    have : vs.all (fun v => isOK (some v)) = true :=
      List.all_eq_true.2 (fun v hv => (hok v).1 (h v hv))
    rw [hout, this]; rfl
  · intro h
    have : vs.all (fun v => isOK (some v)) = false := by
      rw [← Bool.not_eq_true]
      intro ht
      exact h (fun v hv => (hok v).2 (List.all_eq_true.1 ht v hv))
    rw [hout, this]; rfl

end Ltio.Redis
