import Verif.IOBuffer.Model
/-
Model of net_io/codec/line/line_codec_service.cc over the receive-buffer abstraction of
`Verif.IOBuffer` (C01), driven by `CodecService::HandleEvent` (net_io/codec/codec_service.cc:129-143).
-/
namespace Ltio.Line
open Ltio.IOBuffer (Byte searchCRLF)

/-- line_codec_service.cc:34-58 `OnDataReceived`: (delivered message, bytes left in the buffer). -/
def onDataReceived (buf : List Byte) : List (List Byte) × List Byte :=
  match searchCRLF buf with
  | none => ([], buf)
  | some len => ([buf.take len], buf.drop (len + 2))

/-- codec_service.cc:129-136 `HandleEvent`: one poll event appends what was read (`[]` for a pure
write event) and calls `OnDataReceived` once if the buffer is not empty. -/
def onEvent (kept chunk : List Byte) : List (List Byte) × List Byte :=
  if (kept ++ chunk).length > 0 then onDataReceived (kept ++ chunk) else ([], kept ++ chunk)

/-- A history of poll events: all messages delivered, bytes left. -/
def run (kept : List Byte) : List (List Byte) → List (List Byte) × List Byte
  | [] => ([], kept)
  | c :: cs => ((onEvent kept c).1 ++ (run (onEvent kept c).2 cs).1, (run (onEvent kept c).2 cs).2)

/-- line_codec_service.cc:60-69 `SendMessage`: bytes appended to the stream. (Simplification:
bodies below 2^31 bytes and no socket error.) -/
def sendMessage (body : List Byte) : List Byte := body ++ [13, 10]

end Ltio.Line
