import Verif.Common.LE
import Verif.Common.Stream
/-
Model of the raw (binary RPC) protocol: net_io/codec/raw/raw_message.{h,cc} and
raw_codec_service.h.

Platform: LP64 little-endian, natural alignment, so `LtRawHeader` (raw_message.h:29-49) is
`code@0, method@1, 6 padding bytes, content_size_@8, sequence_id_@16`, `sizeof == 24`.
The receive buffer is the byte list proved to be its abstraction in `Verif.IOBuffer` (C01).
-/
namespace Ltio.Raw

abbrev Byte := UInt8

/-- raw_message.h:29-49 `LtRawHeader` + raw_message.h:115-116 (`header_`, `content_`).
`pad` = the six indeterminate padding bytes of the struct. -/
structure Msg where
  code : Byte
  method : Byte
  contentSize : UInt64
  seq : UInt64
  pad : List Byte
  content : List Byte
deriving Repr, DecidableEq

/-- raw_message.cc:26 `kHeaderSize = sizeof(LtRawHeader)`. -/
abbrev kHeaderSize : Nat := 24

/-- raw_message.cc:25 `kHeartbeatMethodId`. -/
def kHeartbeatMethodId : Byte := 0xFF

/-- raw_message.cc:50-52 `Create` with the default member initialisers (raw_message.h:43-48). -/
def Msg.create (pad : List Byte) : Msg := ⟨0, 0, 0, 0, pad, []⟩

/-- raw_message.cc:107-120 `SetContent`. -/
def Msg.setContent (m : Msg) (c : List Byte) : Msg :=
  { m with content := c, contentSize := UInt64.ofNat c.length }

/-- raw_message.cc:117-120 `AppendContent`. -/
def Msg.appendContent (m : Msg) (c : List Byte) : Msg :=
  { m with content := m.content ++ c, contentSize := UInt64.ofNat (m.content ++ c).length }

/-- raw_message.cc:97-101 `AsHeartbeat`. -/
def Msg.asHeartbeat (m : Msg) : Msg := { m with code := 0, method := kHeartbeatMethodId }

/-- raw_message.cc:103-105 `IsHeartbeat`. -/
def Msg.isHeartbeat (m : Msg) : Bool := m.code == 0 && m.method == kHeartbeatMethodId

/-- raw_message.cc:54-62 `CreateResponse`. -/
def Msg.createResponse (pad : List Byte) (request : Msg) : Msg :=
  { Msg.create pad with code := 0, contentSize := 0, method := request.method, seq := request.seq }

/-- Memory image of `header_`. -/
def Msg.headerBytes (m : Msg) : List Byte :=
  [m.code, m.method] ++ m.pad ++ leBytes 8 m.contentSize.toNat ++ leBytes 8 m.seq.toNat

/-- `TcpChannel::Send(const char*, const int32_t len)` seen from the stream (net_io/tcp_channel.cc:
115-155, verified separately for C24): appends `len` bytes. The `size_t` argument is converted to
`int32_t` at the call; a negative length is undefined behaviour (`none`). -/
def send (data : List Byte) : Option (List Byte) :=
  let l := data.length % 2^32
  if l < 2^31 then some (data.take l) else none

/-- raw_message.cc:89-95 `EncodeTo`: `none` = CHECK failure or undefined behaviour.
Simplification: socket errors (`Send < 0`) are not modelled here. -/
def Msg.encodeTo (m : Msg) : Option (List Byte) :=
  if m.content.length ≠ m.contentSize.toNat then none else
  match send m.headerBytes with
  | none => none
  | some h => match send m.content with
    | none => none
    | some c => some (h ++ c)

/-- `std::string::max_size()` on LP64 (libstdc++): `append` of more bytes throws
`std::length_error`, which nothing in the call chain catches. -/
def stringMax : Nat := 2^63 - 1

/-- The header cast of raw_message.cc:69 and `memcpy` of :76. -/
def readHeader (b : List Byte) : Msg :=
  { code := b.getD 0 0
    method := b.getD 1 0
    pad := (b.drop 2).take 6
    contentSize := UInt64.ofNat (leVal ((b.drop 8).take 8))
    seq := UInt64.ofNat (leVal ((b.drop 16).take 8))
    content := [] }

/-- raw_message.cc:79-84, after the header has been copied and consumed. Appending `body_size`
bytes is a crash if it exceeds `max_size()` or the bytes available in the buffer (over-read). -/
def decodeBody (h : Msg) (b : List Byte) : Stream.Res Byte Msg :=
  if h.contentSize.toNat > 0 then
    if h.contentSize.toNat > stringMax ∨ h.contentSize.toNat > b.length then .crash
    else .out (h.appendContent (b.take h.contentSize.toNat)) (b.drop h.contentSize.toNat)
  else .out h b

/-- raw_message.cc:64-85 `Decode`. `frame_size()` is the wrapping 64-bit addition of
raw_message.h:40. -/
def decode (b : List Byte) : Stream.Res Byte Msg :=
  if b.length < kHeaderSize then .more
  else if b.length < ((readHeader b).contentSize + UInt64.ofNat kHeaderSize).toNat then .more
  else decodeBody (readHeader b) (b.drop kHeaderSize)

theorem decode_shrinks {b e r} (h : decode b = .out e r) : r.length < b.length := by
  have hk : kHeaderSize = 24 := rfl
  unfold decode decodeBody at h
  split at h
  · simp at h
  · split at h
    · simp at h
    · split at h
      · split at h
        · simp at h
        · simp only [Stream.Res.out.injEq] at h
          rw [← h.2]; simp; omega
      · simp only [Stream.Res.out.injEq] at h
        rw [← h.2]; simp; omega

def decoder : Stream.Decoder Byte Msg := ⟨decode, decode_shrinks⟩

/-- What the service does with one decoded message. -/
inductive Action where
  | deliver (m : Msg)        -- handler_->OnCodecMessage
  | reply (bytes : Option (List Byte))  -- bytes handed to the channel (`none` = CHECK/UB)
  | drop                     -- no handler installed
deriving Repr, DecidableEq

/-- raw_codec_service.h:54-62 (body of the loop after `Decode`). `NewHeartbeat` (70-76) builds a
fresh message, `SendResponse` (88-95) CHECKs equal ids. -/
def onMessage (server hasHandler : Bool) (pad : List Byte) (m : Msg) : Action :=
  if server ∧ m.isHeartbeat then
    let response := { (Msg.create pad).asHeartbeat with seq := m.seq }
    if m.seq = response.seq then .reply response.encodeTo else .reply none
  else if hasHandler then .deliver m else .drop

/-- raw_codec_service.h:43-64 `OnDataReceived`, over a history of read events. -/
def serve (server hasHandler : Bool) (pad : List Byte) (chunks : List (List Byte)) :
    List Action × Option (List Byte) :=
  let o := decoder.feed [] chunks
  (o.items.map (onMessage server hasHandler pad), o.rest)

/-- raw_codec_service.h:82-86 `SendRequest`: `sequence_id_` is a process-wide atomic counter. -/
def sendRequest (counter : UInt64) (m : Msg) : UInt64 × Msg × Option (List Byte) :=
  let m := { m with seq := counter }
  (counter + 1, m, m.encodeTo)

end Ltio.Raw
