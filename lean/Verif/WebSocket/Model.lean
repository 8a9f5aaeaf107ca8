/-
Model of the WebSocket frame parser / builder (net_io/codec/websocket/websocket_parser.c),
of the frame helpers (ws_util.h, ws_util.cc) and of the frame callbacks of `WSCodecService`
(ws_codec_service.cc).

`none` is the distinct outcome "undefined behaviour".
Simplifications:
* `parser->offset` and the local `frame_offset` are not modelled: they are written but never read
  by this repository.
* callbacks always return 0, as the three callbacks installed by ltio do
  (ws_codec_service.cc:81,93,101), so `NOTIFY_CB`/`EMIT_DATA_CB` never return early and
  `GET_NPARSED()` is always `len`.
* sizes are `Nat`; the only place where `size_t` could wrap (`length <<= 8`) is reduced mod 2^64.
-/
namespace Ltio.WebSocket

abbrev Byte := UInt8

/-- websocket_parser.c:34-40. -/
inductive PState | start | head | length | mask | body
deriving Repr, DecidableEq

/-- websocket_parser.h:50-62. -/
structure Parser where
  state      : PState
  flags      : Byte
  mask       : List Byte
  maskOffset : Nat
  length     : Nat
  require    : Nat
deriving Repr, DecidableEq

/-- websocket_parser.c:42-47 `websocket_parser_init`. -/
def Parser.init : Parser := ⟨.start, 0, [0,0,0,0], 0, 0, 0⟩

/-- websocket_parser.h:32-45. -/
def WS_OP_CONTINUE : Byte := 0x0
def WS_OP_TEXT : Byte := 0x1
def WS_OP_BINARY : Byte := 0x2
def WS_OP_CLOSE : Byte := 0x8
def WS_OP_PING : Byte := 0x9
def WS_OP_PONG : Byte := 0xA
def WS_FIN : Byte := 0x10
def WS_HAS_MASK : Byte := 0x20
def WS_OP_MASK : Byte := 0xF

/-- websocket_parser.c:182-189 `websocket_decode` (and 173-180 `websocket_parser_decode`, the same
loop on `parser->mask`, `parser->mask_offset`): (decoded bytes, new mask offset). -/
def decode (mask : List Byte) (off : Nat) (src : List Byte) : List Byte × Nat :=
  (src.mapIdx (fun i b => b ^^^ mask.getD ((i + off) % 4) 0), (src.length + off) % 4)

/-- What the parser reports through its callbacks. `header`/`frameEnd` carry the parser fields the
callbacks read; `body` carries the bytes after the in-place unmasking done by
`WSCodecService::OnFrameBody` (ws_codec_service.cc:88-90). -/
inductive Event where
  | header (flags : Byte) (length : Nat)
  | body (bytes : List Byte)
  | frameEnd (flags : Byte)
deriving Repr, DecidableEq

/-- The common tail of s_head / s_length / s_mask once length and mask are known
(websocket_parser.c:88-96, 113-121, 132-140). -/
def enterBody (p : Parser) : Parser × List Event :=
  if p.length ≠ 0 then
    ({ p with state := .body, require := p.length }, [.header p.flags p.length])
  else
    ({ p with state := .start }, [.header p.flags p.length, .frameEnd p.flags])

/-- websocket_parser.c:85-96, 110-121. -/
def afterLength (p : Parser) : Parser × List Event :=
  if p.flags &&& WS_HAS_MASK ≠ 0 then ({ p with state := .mask, require := 4 }, [])
  else enterBody p

/-- websocket_parser.c:102-104. -/
def pushLen (p : Parser) (c : Byte) : Parser :=
  { p with length := (p.length * 256 % 2^64) ||| c.toNat, require := p.require - 1 }

/-- websocket_parser.c:126. -/
def pushMask (p : Parser) (c : Byte) : Parser :=
  { p with mask := p.mask.set (4 - p.require) c, require := p.require - 1 }

/-- websocket_parser.c:101-107, the `while` loop of s_length. -/
def lenLoop (p : Parser) : List Byte → Parser × List Byte
  | [] => (p, [])
  | c :: cs =>
    if p.require = 0 then (p, c :: cs)
    else lenLoop (pushLen p c) cs

/-- websocket_parser.c:125-129, the `while` loop of s_mask. -/
def maskLoop (p : Parser) : List Byte → Parser × List Byte
  | [] => (p, [])
  | c :: cs =>
    if p.require = 0 then (p, c :: cs)
    else maskLoop (pushMask p c) cs

/-- ws_codec_service.cc:88-90: unmask a body chunk if the frame is masked. -/
def unmaskBody (p : Parser) (bs : List Byte) : Parser × List Byte :=
  if p.flags &&& WS_HAS_MASK ≠ 0 then
    let r := decode p.mask p.maskOffset bs
    ({ p with maskOffset := r.2 }, r.1)
  else (p, bs)

/-- One iteration of the `for` loop (websocket_parser.c:58-168) with `c :: rest` the unread bytes.
Returns the parser, the bytes unread after the loop's `p++`, and the callbacks made.
`none`: line 145 computes `p + parser->require` with an offset above PTRDIFF_MAX. -/
def iter (p : Parser) (c : Byte) (rest : List Byte) : Option (Parser × List Byte × List Event) :=
  match p.state with
  | .start =>
    some ({ p with
      length := 0, maskOffset := 0,
      flags := (c &&& WS_OP_MASK) ||| (if c &&& 0x80 ≠ 0 then WS_FIN else 0),
      state := .head }, rest, [])
  | .head =>
    let len := (c &&& 0x7F).toNat
    let p1 : Parser := { p with
      length := len, flags := p.flags ||| (if c &&& 0x80 ≠ 0 then WS_HAS_MASK else 0) }
    if len ≥ 126 then
      some ({ p1 with require := if len = 127 then 8 else 2, length := 0, state := .length }, rest, [])
    else
      let r := afterLength p1
      some (r.1, rest, r.2)
  | .length =>
    let r := lenLoop p (c :: rest)
    if r.1.require = 0 then
      let t := afterLength r.1
      some (t.1, r.2, t.2)
    else some (r.1, r.2, [])
  | .mask =>
    let r := maskLoop p (c :: rest)
    if r.1.require = 0 then
      let t := enterBody r.1
      some (t.1, r.2, t.2)
    else some (r.1, r.2, [])
  | .body =>
    if p.require = 0 then
      -- lines 160-163 with `require == 0` on entry: the byte at `p` is skipped
      some ({ p with state := .start }, rest, [.frameEnd p.flags])
    else if 2^63 ≤ p.require then none
    else if p.require ≤ (c :: rest).length then
      let u := unmaskBody p ((c :: rest).take p.require)
      some ({ u.1 with require := 0, state := .start }, (c :: rest).drop p.require,
        [.body u.2, .frameEnd p.flags])
    else
      let u := unmaskBody p (c :: rest)
      some ({ u.1 with require := p.require - (c :: rest).length }, [], [.body u.2])

/-- Rank used only to show that the `for` loop terminates. -/
def PState.rank : PState → Nat
  | .length => 2
  | .mask => 1
  | _ => 0

theorem lenLoop_len (p : Parser) (l : List Byte) :
    (lenLoop p l).2.length ≤ l.length ∧ (lenLoop p l).1.state = p.state ∧
    (p.require ≠ 0 → l ≠ [] → (lenLoop p l).2.length < l.length) := by
  induction l generalizing p with
  | nil => simp [lenLoop]
  | cons c cs ih =>
    unfold lenLoop
    split
    · simp_all
    · have := ih (pushLen p c)
      refine ⟨by simp; omega, this.2.1, fun _ _ => by simp; omega⟩

theorem maskLoop_len (p : Parser) (l : List Byte) :
    (maskLoop p l).2.length ≤ l.length ∧ (maskLoop p l).1.state = p.state ∧
    (p.require ≠ 0 → l ≠ [] → (maskLoop p l).2.length < l.length) := by
  induction l generalizing p with
  | nil => simp [maskLoop]
  | cons c cs ih =>
    unfold maskLoop
    split
    · simp_all
    · have := ih (pushMask p c)
      refine ⟨by simp; omega, this.2.1, fun _ _ => by simp; omega⟩

theorem enterBody_rank (p : Parser) : (enterBody p).1.state.rank = 0 := by
  unfold enterBody; split <;> rfl

theorem afterLength_rank (p : Parser) : (afterLength p).1.state.rank ≤ 1 := by
  unfold afterLength; split
  · exact Nat.le_refl _
  · rw [enterBody_rank]; omega

/-- Every iteration makes progress. -/
theorem iter_decreases {p : Parser} {c : Byte} {rest : List Byte} {p' : Parser} {l' : List Byte}
    {ev : List Event} (h : iter p c rest = some (p', l', ev)) :
    3 * l'.length + p'.state.rank < 3 * (c :: rest).length + p.state.rank := by
  unfold iter at h
  cases hs : p.state <;> simp only [hs] at h
  · simp at h; obtain ⟨rfl, rfl, rfl⟩ := h; simp [PState.rank]
  · split at h
    · simp at h; obtain ⟨rfl, rfl, rfl⟩ := h; simp [PState.rank]; omega
    · simp only [Option.some.injEq, Prod.mk.injEq] at h
      obtain ⟨h1, h2, h3⟩ := h
      have := afterLength_rank { p with
        length := (c &&& 0x7F).toNat,
        flags := p.flags ||| (if c &&& 0x80 ≠ 0 then WS_HAS_MASK else 0) }
      simp only [hs] at this; rw [h1] at this; subst h2; have h9 : PState.head.rank = 0 := rfl; simp only [List.length_cons]; omega
  · have hl := lenLoop_len p (c :: rest)
    split at h
    · simp only [Option.some.injEq, Prod.mk.injEq] at h
      obtain ⟨h1, h2, h3⟩ := h
      have := afterLength_rank (lenLoop p (c :: rest)).1
      rw [h1] at this; rw [h2] at hl; have h9 : PState.length.rank = 2 := rfl; omega
    · rename_i hr
      simp only [Option.some.injEq, Prod.mk.injEq] at h
      obtain ⟨h1, h2, h3⟩ := h
      have hne : p.require ≠ 0 := by
        intro h0; apply hr; unfold lenLoop; simp [h0]
      have h4 := hl.2.2 hne (by simp)
      have h5 := hl.2.1
      rw [h1, hs] at h5; rw [h2] at h4; rw [h5]; omega
  · have hl := maskLoop_len p (c :: rest)
    split at h
    · simp only [Option.some.injEq, Prod.mk.injEq] at h
      obtain ⟨h1, h2, h3⟩ := h
      have := enterBody_rank (maskLoop p (c :: rest)).1
      rw [h1] at this; rw [h2] at hl; have h9 : PState.mask.rank = 1 := rfl; omega
    · rename_i hr
      simp only [Option.some.injEq, Prod.mk.injEq] at h
      obtain ⟨h1, h2, h3⟩ := h
      have hne : p.require ≠ 0 := by
        intro h0; apply hr; unfold maskLoop; simp [h0]
      have h4 := hl.2.2 hne (by simp)
      have h5 := hl.2.1
      rw [h1, hs] at h5; rw [h2] at h4; rw [h5]; omega
  · split at h
    · simp at h; obtain ⟨rfl, rfl, rfl⟩ := h; simp [PState.rank]
    · split at h
      · simp at h
      · split at h
        · simp only [Option.some.injEq, Prod.mk.injEq] at h
          obtain ⟨h1, h2, h3⟩ := h
          subst h1 h2; simp only [PState.rank, List.length_drop]
          simp only [List.length_cons] at *; omega
        · simp only [Option.some.injEq, Prod.mk.injEq] at h
          obtain ⟨h1, h2, h3⟩ := h
          subst h2
          have : p'.state.rank ≤ 2 := by cases p'.state <;> simp [PState.rank]
          simp; omega

/-- websocket_parser.c:53-171 `websocket_parser_execute` on one chunk of input. -/
def exec (p : Parser) (l : List Byte) : Option (Parser × List Event) :=
  match l with
  | [] => some (p, [])
  | c :: rest =>
    match h : iter p c rest with
    | none => none
    | some (p', l', ev) =>
      match exec p' l' with
      | none => none
      | some (q, evs) => some (q, ev ++ evs)
termination_by 3 * l.length + p.state.rank
decreasing_by exact iter_decreases h

/-- Successive reads: `websocket_parser_execute` is called once per chunk
(ws_codec_service.cc:302-310). -/
def execChunks (p : Parser) : List (List Byte) → Option (Parser × List Event)
  | [] => some (p, [])
  | ch :: chs =>
    match exec p ch with
    | none => none
    | some (p', ev) =>
      match execChunks p' chs with
      | none => none
      | some (q, evs) => some (q, ev ++ evs)

/-- websocket_parser.c:191-205 `websocket_calc_frame_size`. -/
def calcFrameSize (flags : Byte) (dataLen : Nat) : Nat :=
  let size := dataLen + 2
  let size := if dataLen ≥ 126 then (if dataLen > 0xFFFF then size + 8 else size + 2) else size
  if flags &&& WS_HAS_MASK ≠ 0 then size + 4 else size

/-- Bytes 1.. of the length field: websocket_parser.c:218-237 (without the mask bit). -/
def lengthBytes (n : Nat) : List Byte :=
  if n < 126 then [UInt8.ofNat n]
  else if n ≤ 0xFFFF then [126, UInt8.ofNat (n >>> 8), UInt8.ofNat (n &&& 0xFF)]
  else [127, UInt8.ofNat ((n >>> 56) &&& 0xFF), UInt8.ofNat ((n >>> 48) &&& 0xFF),
        UInt8.ofNat ((n >>> 40) &&& 0xFF), UInt8.ofNat ((n >>> 32) &&& 0xFF),
        UInt8.ofNat ((n >>> 24) &&& 0xFF), UInt8.ofNat ((n >>> 16) &&& 0xFF),
        UInt8.ofNat ((n >>> 8) &&& 0xFF), UInt8.ofNat (n &&& 0xFF)]

/-- `frame[1] |= ...`: or the mask bit into the first byte of the length field. -/
def orHead (b : Byte) : List Byte → List Byte
  | [] => []
  | x :: xs => (b ||| x) :: xs

/-- websocket_parser.c:207-249 `websocket_build_frame`: the bytes written to `frame`.
The mask pointer is non-NULL, as at every call in this repository (ws_util.h:62,73). -/
def buildFrame (flags : Byte) (mask : List Byte) (data : List Byte) : List Byte :=
  let b0 : Byte := (if flags &&& WS_FIN ≠ 0 then 0x80 else 0) ||| (flags &&& WS_OP_MASK)
  let b1 : Byte := if flags &&& WS_HAS_MASK ≠ 0 then 0x80 else 0
  let hd := b0 :: orHead b1 (lengthBytes data.length)
  if flags &&& WS_HAS_MASK ≠ 0 then hd ++ mask ++ (decode mask 0 data).1
  else hd ++ data

/-- websocket_parser.c:208,220,225,236,243,248: the value `websocket_build_frame` returns. -/
def buildFrameRet (flags : Byte) (dataLen : Nat) : Nat :=
  let off := if dataLen < 126 then 2 else if dataLen ≤ 0xFFFF then 4 else 10
  (if flags &&& WS_HAS_MASK ≠ 0 then off + 4 else off) + dataLen

/-- ws_util.cc:23-29 `WebsocketUtil::CalculateFrameSize`, on C `int`s (mathematical value; `none`
when an intermediate value overflows `int`). -/
def utilCalcFrameSize (dataLen : Int) (hasMask : Bool) : Option Int :=
  let size := dataLen + 2
  let size := if dataLen ≥ 126 then size + (if dataLen > 0xFFFF then 8 else 2) else size
  let size := if hasMask then size + 4 else size
  if size < 2^31 then some size else none

/-- `size_t` → `int` conversion of `Payload().size()` at ws_codec_service.cc:170,177,187,195. -/
def toCInt (n : Nat) : Int := (BitVec.ofNat 32 n).toInt

/-- ws_util.cc:31-48: the flags word assembled by `BuildFrame`. -/
def mkFlags (opcode : Byte) (hasMask fin : Bool) : Byte :=
  opcode ||| (if fin then WS_FIN else 0) ||| (if hasMask then WS_HAS_MASK else 0)

/-! ### Frame callbacks of WSCodecService -/

/-- ws_message.h:42-85 `WebsocketFrame`. -/
structure Message where
  opcode  : Byte
  payload : List Byte
deriving Repr, DecidableEq

/-- Externally visible effects of the frame callbacks. -/
inductive Out where
  | deliver (m : Message)          -- handler_->OnCodecMessage
  | sendPong                       -- SendResponse(kpong_msg)
  | sendClose                      -- SendResponse(kclose_msg)
  | closeService                   -- CloseService(true); OnCodecClosed
deriving Repr, DecidableEq

/-- ws_codec_service.h:127 `current_`. -/
abbrev Cur := Option Message

/-- ws_codec_service.cc:65-120: `OnFrameBegin`, `OnFrameBody`, `OnFrameFinish` and
`CommitFrameMessage`. `none`: dereference of a null `current_`. -/
def onEvent (cur : Cur) : Event → Option (Cur × List Out)
  | .header flags _ =>
    let m := cur.getD ⟨WS_OP_TEXT, []⟩           -- ws_message.cc:19 default opcode TEXT
    let op := flags &&& WS_OP_MASK
    some (some (if op ≠ WS_OP_CONTINUE then { m with opcode := op } else m), [])
  | .body bs => match cur with
    | none => none
    | some m => some (some { m with payload := m.payload ++ bs }, [])
  | .frameEnd flags =>
    if flags &&& WS_FIN ≠ 0 then
      match cur with
      | none => none
      | some m =>
        if m.opcode = WS_OP_CLOSE then some (some m, [.sendClose, .closeService])
        else if m.opcode = WS_OP_PING then some (none, [.sendPong, .deliver m])
        else some (none, [.deliver m])
    else some (cur, [])

def onEvents (cur : Cur) : List Event → Option (Cur × List Out)
  | [] => some (cur, [])
  | e :: es => match onEvent cur e with
    | none => none
    | some (c', o) => match onEvents c' es with
      | none => none
      | some (c'', os) => some (c'', o ++ os)

/-- ws_codec_service.cc:295-311 `OnDataReceived` after a successful handshake, for a sequence of
reads. -/
def receive (p : Parser) (cur : Cur) (chunks : List (List Byte)) :
    Option (Parser × Cur × List Out) :=
  match execChunks p chunks with
  | none => none
  | some (p', evs) => match onEvents cur evs with
    | none => none
    | some (c', os) => some (p', c', os)

end Ltio.WebSocket
