import Verif.WebSocket.Model
/-
Small specification layer for the WebSocket properties: chunk-independent observation of parser
callbacks, and what a peer puts on the wire for a (fragmented) message.
-/
namespace Ltio.WebSocket

/-! ### Observation of the events with the payload bytes made explicit -/

/-- An event with body chunks broken into bytes, so that observations do not depend on how the
payload was split over body callbacks. -/
inductive FEvent where
  | header (flags : Byte) (length : Nat)
  | byte (b : Byte)
  | frameEnd (flags : Byte)
deriving Repr, DecidableEq

def flatten1 : Event → List FEvent
  | .header f n => [.header f n]
  | .body bs => bs.map .byte
  | .frameEnd f => [.frameEnd f]

def flatten (es : List Event) : List FEvent := es.flatMap flatten1


/-- One frame's payload and its optional 4-byte mask, as chosen by the sender. -/
structure Frag where
  payload : List Byte
  mask    : Option (List Byte)
deriving Repr

/-- Physically possible fragments: 4-byte mask, payload below 2^63 bytes. -/
def Frag.Ok (f : Frag) : Prop := (∀ m ∈ f.mask, m.length = 4) ∧ f.payload.length < 2^63

/-- Bytes of one frame on the wire. -/
def wireFrame (op : Byte) (fin : Bool) (f : Frag) : List Byte :=
  buildFrame (mkFlags op f.mask.isSome fin) (f.mask.getD [0,0,0,0]) f.payload

/-- Bytes of the continuation fragments: opcode CONTINUE, FIN only on the last. -/
def wireConts : List Frag → List Byte
  | [] => []
  | f :: fs => wireFrame WS_OP_CONTINUE fs.isEmpty f ++ wireConts fs

/-- A message as sent: opcode, first fragment, further fragments. -/
structure Sent where
  op    : Byte
  first : Frag
  rest  : List Frag

def Sent.wire (m : Sent) : List Byte := wireFrame m.op m.rest.isEmpty m.first ++ wireConts m.rest

/-- The payload of the message is the concatenation of its fragments. -/
def Sent.payload (m : Sent) : List Byte := m.first.payload ++ m.rest.flatMap (·.payload)

/-- An opcode that starts a message and is not CLOSE. -/
def Sent.Ok (m : Sent) : Prop :=
  m.op.toNat < 16 ∧ m.op ≠ WS_OP_CONTINUE ∧ m.op ≠ WS_OP_CLOSE ∧ m.first.Ok ∧ ∀ f ∈ m.rest, f.Ok

end Ltio.WebSocket
