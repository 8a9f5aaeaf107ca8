import Verif.Raw.Model
/- Specification of the raw protocol, independent of the decoder. -/
namespace Ltio.Raw

/-- The bytes of one message on the wire: status, method, padding, 64-bit payload length, 64-bit
sequence id, payload. -/
def wire (m : Msg) : List Byte :=
  m.code :: m.method :: m.pad ++ leBytes 8 m.content.length ++ leBytes 8 m.seq.toNat ++ m.content

/-- Messages an application can construct: any sequence of public setters on a fresh message. -/
inductive Built : Msg → Prop
  | create (pad) : pad.length = 6 → Built (Msg.create pad)
  | response (pad req) : pad.length = 6 → Built (Msg.createResponse pad req)
  | setCode {m} (c) : Built m → Built { m with code := c }
  | setMethod {m} (c) : Built m → Built { m with method := c }
  | setAsyncId {m} (i) : Built m → Built { m with seq := i }
  | setContent {m} (c) : Built m → Built (m.setContent c)
  | appendContent {m} (c) : Built m → Built (m.appendContent c)
  | asHeartbeat {m} : Built m → Built m.asHeartbeat

/-- The payload length announced by the first 24 bytes of a stream. -/
def announced (b : List Byte) : Nat := leVal ((b.drop 8).take 8)

end Ltio.Raw
