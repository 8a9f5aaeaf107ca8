import Verif.IOBuffer.Lemmas
/-
Model of `TcpChannel` (net_io/tcp_channel.cc) over the `IOBuffer` model.

The kernel is a script of results, one per `write(2)` / `read(2)` call, chosen by the environment;
an exhausted script answers EAGAIN (so every finite execution of the C++ loops is a script).
`sock` is everything the kernel has accepted from us, `peer` what the peer has sent and we have
not read yet, `taken` (ghost) what the codec has consumed from the input buffer.
`none` = undefined behaviour / CHECK failure.
-/
namespace Ltio.Net
open Ltio.IOBuffer

/-- The errno values the code distinguishes; `other` is any other value (including 0). -/
inductive Errno where
  | again | intr | other
deriving DecidableEq, Repr

/-- Answer of one `write(2)`: `ok n` accepts `min (n+1) len` bytes (at least one byte of a
non-empty request, none of an empty one), `err e` fails. -/
inductive WRes where
  | ok (n : Nat)
  | err (e : Errno)
deriving DecidableEq, Repr

/-- Answer of one `read(2)`: `data n` gives up to `n+1` of the bytes that have arrived. -/
inductive RRes where
  | data (n : Nat)
  | eof
  | err (e : Errno)
deriving DecidableEq, Repr

/-- channel.h:147-155 (`in_`, `out_`, the write interest of `fdev_`), the thread's errno, and the
socket's two byte streams. -/
structure Chan where
  inb : Buf
  out : Buf
  writing : Bool
  errno : Errno
  sock : List Byte
  peer : List Byte
  taken : List Byte
deriving DecidableEq, Repr

/-- After `SocketChannel::StartChannel` (channel.cc:42-47): write interest on, buffers empty. -/
def Chan.init : Chan := ⟨IOBuffer.init, IOBuffer.init, true, .other, [], [], []⟩

/-- Conversion of a non-negative 64-bit count to `int`/`int32_t` (two's complement wrap), as in
`return total_write` (tcp_channel.cc:112), `return n_write` (145), `return in_.CanReadSize()` (80). -/
def toI32 (n : Nat) : Int := (((n + 2^31) % 2^32 : Nat) : Int) - 2^31

/-- One `write(2)` of `bs`: the new state and the return value.  A successful write of an empty
buffer returns 0 and leaves errno alone. -/
def Chan.kwrite (c : Chan) (bs : List Byte) : WRes → Chan × Int
  | .ok n => ({ c with sock := c.sock ++ bs.take (min (n + 1) bs.length) },
              ((min (n + 1) bs.length : Nat) : Int))
  | .err e => ({ c with errno := e }, -1)

/-- The `while (out_.CanReadSize())` loop of `HandleWrite` (tcp_channel.cc:92-109).
`none` in the second component is `return -1`. -/
def writeLoop : List WRes → Chan → Nat → Chan × Option Nat
  | [], c, total =>
    if c.out.canRead = 0 then (c, some total) else ({ c with errno := .again }, some total)
  | r :: rs, c, total =>
    if c.out.canRead = 0 then (c, some total)
    else if (c.kwrite c.out.asString r).2 > 0 then
      writeLoop rs
        { (c.kwrite c.out.asString r).1 with
            out := c.out.consume (c.kwrite c.out.asString r).2.toNat }
        (total + (c.kwrite c.out.asString r).2.toNat)
    else if (c.kwrite c.out.asString r).1.errno = .again then
      ((c.kwrite c.out.asString r).1, some total)
    else if (c.kwrite c.out.asString r).1.errno = .intr then
      writeLoop rs (c.kwrite c.out.asString r).1 total
    else ((c.kwrite c.out.asString r).1, none)

/-- `TcpChannel::HandleWrite` (tcp_channel.cc:83-113). -/
def Chan.handleWrite (c : Chan) (script : List WRes) : Chan × Int :=
  if c.out.canRead = 0 then (c, 0)
  else match writeLoop script c 0 with
    | (c', none) => (c', -1)
    | (c', some t) => ({ c' with writing := decide (c'.out.canRead ≠ 0) }, toI32 t)

/-- The EAGAIN exit of `Send` (tcp_channel.cc:132-136): buffer the rest and wait for writability. -/
def Chan.park (c : Chan) (rest : List Byte) (n : Nat) : Option (Chan × Int) :=
  match c.out.write rest with
  | none => none
  | some o => some ({ c with out := o, writing := true }, toI32 n)

/-- The `do … while (n_remain != 0)` loop of `Send` (tcp_channel.cc:123-145); `rest` is
`[data + n_write, data + len)`, `n` is `n_write`. -/
def sendLoop : List WRes → Chan → List Byte → Nat → Option (Chan × Int)
  | [], c, rest, n => { c with errno := .again }.park rest n
  | r :: rs, c, rest, n =>
    if (c.kwrite rest r).2 > 0 then
      if rest.length - (c.kwrite rest r).2.toNat = 0 then
        some ((c.kwrite rest r).1, toI32 (n + (c.kwrite rest r).2.toNat))
      else
        sendLoop rs (c.kwrite rest r).1 (rest.drop (c.kwrite rest r).2.toNat)
          (n + (c.kwrite rest r).2.toNat)
    else if (c.kwrite rest r).1.errno = .again then (c.kwrite rest r).1.park rest n
    else if (c.kwrite rest r).1.errno = .intr then
      if rest.length = 0 then some ((c.kwrite rest r).1, toI32 n)
      else sendLoop rs (c.kwrite rest r).1 rest n
    else some ((c.kwrite rest r).1, -1)

/-- `TcpChannel::Send(data, len)` (tcp_channel.cc:115-146) with `len = data.length`. -/
def Chan.send (c : Chan) (data : List Byte) (script : List WRes) : Option (Chan × Int) :=
  if c.out.canRead > 0 then
    match c.out.write data with
    | none => none
    | some o => some ({ c with out := o }.handleWrite script)
  else sendLoop script c data 0

/-- `SocketChannel::Send(const std::string&)` (channel.h:110-112): the size is converted to
`int32_t`.  A negative length is converted back to a huge `size_t` (tcp_channel.cc:122), so the
kernel or memcpy is asked to read far outside the string: undefined. -/
def Chan.sendString (c : Chan) (data : List Byte) (script : List WRes) : Option (Chan × Int) :=
  if toI32 data.length < 0 then none
  else c.send (data.take (toI32 data.length).toNat) script

/-- tcp_channel.cc:30 `kBlockSize`. -/
def kBlockSize : Nat := 2048

/-- The loop of `HandleRead` (tcp_channel.cc:55-78); `false` in the second component is
`return -1`.  A `data` answer when nothing has arrived, or an exhausted script, is EAGAIN. -/
def readLoop : List RRes → Chan → Option (Chan × Bool)
  | [], c =>
    match c.inb.ensure kBlockSize with
    | none => none
    | some b => some ({ c with inb := b, errno := .again }, true)
  | r :: rs, c =>
    match c.inb.ensure kBlockSize with
    | none => none
    | some b =>
      match r with
      | .data n =>
        if min (n + 1) (min b.canWrite c.peer.length) = 0 then
          some ({ c with inb := b, errno := .again }, true)
        else
          match b.rawProduce (c.peer.take (min (n + 1) (min b.canWrite c.peer.length))) with
          | none => none
          | some b' =>
            readLoop rs { c with inb := b',
                                 peer := c.peer.drop (min (n + 1) (min b.canWrite c.peer.length)) }
      | .eof => some ({ c with inb := b }, false)
      | .err .again => some ({ c with inb := b, errno := .again }, true)
      | .err .intr => readLoop rs { c with inb := b, errno := .intr }
      | .err .other => some ({ c with inb := b, errno := .other }, false)

/-- `TcpChannel::HandleRead` (tcp_channel.cc:52-81). -/
def Chan.handleRead (c : Chan) (script : List RRes) : Option (Chan × Int) :=
  match readLoop script c with
  | none => none
  | some (c', true) => some (c', toI32 c'.inb.canRead)
  | some (c', false) => some (c', -1)

/-- Everything that can happen to a channel. -/
inductive Op where
  | send (data : List Byte) (script : List WRes)  -- Send by the codec
  | writable (script : List WRes)                 -- HandleWrite on a write event / TryFlushChannel
  | readable (script : List RRes)                 -- HandleRead on a read event
  | arrive (bs : List Byte)                       -- the peer's bytes reach our kernel
  | appConsume (n : Nat)                          -- the codec consumes from ReaderBuffer()
  | clobber (e : Errno)                           -- other code on the thread changes errno
deriving DecidableEq, Repr

/-- One operation: new state and the result the caller sees (0 where there is none). -/
def step (c : Chan) : Op → Option (Chan × Int)
  | .send data script => c.sendString data script
  | .writable script => some (c.handleWrite script)
  | .readable script => c.handleRead script
  | .arrive bs => some ({ c with peer := c.peer ++ bs }, 0)
  | .appConsume n =>
    some ({ c with inb := c.inb.consume n, taken := c.taken ++ c.inb.asString.take n }, 0)
  | .clobber e => some ({ c with errno := e }, 0)

end Ltio.Net
