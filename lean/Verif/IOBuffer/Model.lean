/-
Model of `lt::net::IOBuffer` (net_io/io_buffer.h, net_io/io_buffer.cc).

`none` is the distinct outcome "undefined behaviour / CHECK failure": a write outside the
storage, a violated CHECK, or an iterator range outside the vector.
Simplification: indices are unbounded `Nat` (the code uses uint64_t; they are bounded by the
allocation size, which is below 2^63 on every platform).
-/
namespace Ltio.IOBuffer

abbrev Byte := UInt8

/-- io_buffer.h:81-83 (`read_index_`, `write_index_`, `data_`). -/
structure Buf where
  data : List Byte
  rd   : Nat
  wr   : Nat
deriving Repr, DecidableEq

/-- io_buffer.cc:33 `kDefaultInitialSize`. -/
def kDefaultInitialSize : Nat := 512

/-- io_buffer.cc:39-42 default constructor. -/
def init : Buf := ⟨List.replicate kDefaultInitialSize 0, 0, 0⟩

/-- io_buffer.h:52 `CanReadSize`. -/
def Buf.canRead (b : Buf) : Nat := b.wr - b.rd
/-- io_buffer.h:53 `CanWriteSize`. -/
def Buf.canWrite (b : Buf) : Nat := b.data.length - b.wr

/-- memcpy of `bs` to `&data_[pos]` (io_buffer.cc:108,114, io_buffer.h:67); writing outside the
vector is undefined behaviour. -/
def writeAt (data : List Byte) (pos : Nat) (bs : List Byte) : Option (List Byte) :=
  if pos + bs.length ≤ data.length then
    some (data.take pos ++ bs ++ data.drop (pos + bs.length))
  else none

/-- `std::vector::resize` (io_buffer.cc:77): grow with zeros or truncate. -/
def resize (data : List Byte) (n : Nat) : List Byte :=
  data.take n ++ List.replicate (n - data.length) 0

/-- io_buffer.cc:59-80 `EnsureWritableSize`. The argument is a (signed) int64_t. -/
def Buf.ensure (b : Buf) (len : Int) : Option Buf :=
  if ((b.data.length - b.wr : Nat) : Int) ≥ len then some b
  else if ((b.canWrite + b.rd : Nat) : Int) ≥ len then
    let dataSize := b.canRead
    -- std::copy(begin+read, begin+write, begin)
    match writeAt b.data 0 ((b.data.drop b.rd).take dataSize) with
    | none => none
    | some d =>
      let b' : Buf := ⟨d, 0, dataSize⟩
      -- CHECK(int64_t(CanWriteSize()) >= len)
      if (b'.canWrite : Int) ≥ len then some b' else none
  else some { b with data := resize b.data (b.wr + len.toNat) }

/-- io_buffer.h:75 `Produce` together with the caller's store of `bs` through `GetWrite()`
(e.g. tcp_channel.cc HandleRead: `::read(fd, GetWrite(), CanWriteSize())` then `Produce(n)`). -/
def Buf.rawProduce (b : Buf) (bs : List Byte) : Option Buf :=
  match writeAt b.data b.wr bs with
  | none => none
  | some d => some { b with data := d, wr := b.wr + bs.length }

/-- io_buffer.cc:106-116 `WriteString` / `WriteRawData` and io_buffer.h:60-69 `Append`
(the three bodies are the same). -/
def Buf.write (b : Buf) (bs : List Byte) : Option Buf :=
  match b.ensure bs.length with
  | none => none
  | some b' => b'.rawProduce bs

/-- io_buffer.cc:126-131 `Consume`. -/
def Buf.consume (b : Buf) (len : Nat) : Buf :=
  let r := b.rd + min len b.canRead
  if r = b.wr then { b with rd := 0, wr := 0 } else { b with rd := r }

/-- io_buffer.cc:118-120 `AsString` (and `StringView`, 122-124): bytes in `[read, write)`. -/
def Buf.asString (b : Buf) : List Byte := (b.data.drop b.rd).take (b.wr - b.rd)

/-- `memchr(p, c, n) != NULL`. io_buffer.cc:133-135 `HasALine`. -/
def Buf.hasALine (b : Buf) : Bool := b.asString.any (· == 10)

/-- `std::search` for "\r\n": offset of the first occurrence. -/
def searchCRLF : List Byte → Option Nat
  | a :: b :: rest =>
    if a = 13 ∧ b = 10 then some 0 else (searchCRLF (b :: rest)).map (· + 1)
  | _ => none

/-- io_buffer.cc:137-144 `FindCRLF`, as an offset from `GetRead()`. -/
def Buf.findCRLF (b : Buf) : Option Nat :=
  if b.canRead = 0 then none else searchCRLF b.asString

/-- io_buffer.cc:44-51 move constructor: (new object, moved-from source). -/
def Buf.moveFrom (r : Buf) : Buf × Buf := (r, ⟨[], 0, 0⟩)

/-- Public operations. -/
inductive Op where
  | write (bs : List Byte)      -- WriteString / WriteRawData / Append
  | ensure (len : Int)          -- EnsureWritableSize
  | rawProduce (bs : List Byte) -- store through GetWrite(), then Produce
  | consume (len : Nat)
deriving Repr

def step (b : Buf) : Op → Option Buf
  | .write bs => b.write bs
  | .ensure n => b.ensure n
  | .rawProduce bs => b.rawProduce bs
  | .consume n => some (b.consume n)

def run (b : Buf) : List Op → Option Buf
  | [] => some b
  | op :: ops => match step b op with
    | none => none
    | some b' => run b' ops

end Ltio.IOBuffer
