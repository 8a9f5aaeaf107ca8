/-
`resp::buffer` (thirdparty/resp/resp/buffer.hpp): a string of bytes that refers to memory of somebody else, keeps up to 64 bytes in
itself, or owns a block of the heap.  Several buffers over one heap; undefined behaviour (use of freed memory, reading or writing past
the end of a block, writing into referenced data, freeing what was not allocated) is `none`.

`E k` are pieces of memory of the caller, alive and unchanged all along.  What memory holds before it is written is `J`, arbitrary.
`realloc` always moves.  Sizes are far below 2^64 and memory does not run out.  A `memcpy` of nothing is harmless, whatever the
pointers.  `operator==`, `data`, `size` and `empty` only read.
-/
namespace Ltio.Redis.Buffer

abbrev Bytes := List UInt8

/-- What a `char*` points to. -/
inductive Ptr where
  | null
  /-- the `small_` of buffer `i` -/
  | small (i : Nat)
  | heap (h : Nat)
  | ext (k off : Nat)
deriving DecidableEq, Repr

/-- A `buffer` (buffer.hpp:355-358). -/
structure Buf where
  cap : Nat
  small : Bytes
  data : Ptr
  size : Nat
deriving DecidableEq, Repr

/-- Buffers that exist and blocks that are allocated. -/
structure S where
  bufs : Nat → Option Buf
  heap : Nat → Option Bytes
  next : Nat

section
variable (E : Nat → Bytes) (J : Nat → Nat → UInt8)

/-- `n` bytes of memory never written. -/
def junk (h n : Nat) : Bytes := (List.range n).map (J h)

def S.set (s : S) (i : Nat) (b : Buf) : S := { s with bufs := fun k => if k = i then some b else s.bufs k }

/-- The `n` bytes from a pointer on. -/
def S.read (s : S) (p : Ptr) (n : Nat) : Option Bytes :=
  match p with
  | .null => if n = 0 then some [] else none
  | .small i => (s.bufs i).bind (fun b => if n ≤ b.small.length then some (b.small.take n) else none)
  | .heap h => (s.heap h).bind (fun x => if n ≤ x.length then some (x.take n) else none)
  | .ext k off => if off + n ≤ (E k).length then some (((E k).drop off).take n) else none

def splice (l : Bytes) (off : Nat) (x : Bytes) : Bytes := l.take off ++ x ++ l.drop (off + x.length)

/-- Bytes written `off` behind a pointer. -/
def S.write (s : S) (p : Ptr) (off : Nat) (x : Bytes) : Option S :=
  if x = [] then some s else
  match p with
  | .null => none
  | .small i => (s.bufs i).bind (fun b => if off + x.length ≤ b.small.length then some (s.set i { b with small := splice b.small off x }) else none)
  | .heap h => (s.heap h).bind (fun y =>
      if off + x.length ≤ y.length then some { s with heap := fun k => if k = h then some (splice y off x) else s.heap k } else none)
  | .ext _ _ => none

/-- `memcpy(p + off, q, n)`. -/
def S.memcpy (s : S) (p : Ptr) (off : Nat) (q : Ptr) (n : Nat) : Option S := (s.read E q n).bind (fun x => s.write p off x)

/-- `malloc`: the block is `s.next`. -/
def S.malloc (s : S) (x : Bytes) : S := { s with heap := fun k => if k = s.next then some x else s.heap k, next := s.next + 1 }

def S.free (s : S) (p : Ptr) : Option S :=
  match p with
  | .heap h => (s.heap h).bind (fun _ => some { s with heap := fun k => if k = h then none else s.heap k })
  | _ => none

/-- `realloc`: the new block is `s.next`. -/
def S.realloc (s : S) (p : Ptr) (c : Nat) : Option S :=
  match p with
  | .null => some (s.malloc (junk J s.next c))
  | .heap h => (s.heap h).bind (fun x => (s.free p).bind (fun s' => some (s'.malloc (x.take c ++ (junk J s.next c).drop x.length))))
  | _ => none

/-- `dealloc` (buffer.hpp:345-352). -/
def S.dealloc (s : S) (i : Nat) (b : Buf) : Option S :=
  if b.cap > 64 ∧ b.data ≠ .null then (s.free b.data).bind (fun s' => some (s'.set i { b with data := .null })) else some s

/-- The default constructor (buffer.hpp:19-25). -/
def S.new (s : S) (i : Nat) : Option S := some (s.set i ⟨0, junk J i 64, .null, 0⟩)

/-- The constructors that refer to memory of somebody else (buffer.hpp:27-59). -/
def S.refer (s : S) (i : Nat) (p : Ptr) (n : Nat) : Option S := some (s.set i ⟨0, junk J i 64, p, n⟩)

/-- The copy constructor (buffer.hpp:61-89). -/
def S.copy (s : S) (i j : Nat) : Option S :=
  (s.bufs j).bind (fun o =>
    if o.cap = 0 then some (s.set i ⟨0, junk J i 64, o.data, o.size⟩)
    else if o.cap ≤ 64 then (s.set i ⟨o.cap, junk J i 64, .small i, o.size⟩).memcpy E (.small i) 0 o.data o.size
    else ((s.malloc (junk J s.next o.cap)).set i ⟨o.cap, junk J i 64, .heap s.next, o.size⟩).memcpy E (.heap s.next) 0 o.data o.size)

/-- `reset` (buffer.hpp:249-256). -/
def S.reset (s : S) (i : Nat) : Option S :=
  (s.bufs i).bind (fun b => (s.dealloc i b).bind (fun s' => some (s'.set i { b with cap := 0, size := 0, data := .null })))

/-- `buffer::move(des, src)` (buffer.hpp:91-122). -/
def S.move (s : S) (i j : Nat) : Option S :=
  (s.reset i).bind (fun s1 => (s1.bufs i).bind (fun d => (s1.bufs j).bind (fun o =>
    (if o.cap = 0 then some (s1.set i { d with data := o.data, size := o.size })
     else if o.cap ≤ 64 then (s1.set i { d with cap := 64, data := .small i, size := o.size }).memcpy E (.small i) 0 o.data o.size
     else some (s1.set i { d with cap := o.cap, data := o.data, size := o.size })).bind
    (fun s2 => (s2.bufs j).bind (fun o2 => some (s2.set j { o2 with cap := 0, data := .null, size := 0 }))))))

/-- `operator=` (buffer.hpp:129-171). -/
def S.assign (s : S) (i j : Nat) : Option S :=
  if i = j then some s else
  (s.bufs i).bind (fun b => (s.bufs j).bind (fun o =>
    if o.cap = 0 then (s.dealloc i b).bind (fun s1 => some (s1.set i { b with cap := 0, data := o.data, size := o.size }))
    else if o.cap ≤ 64 then (s.dealloc i b).bind (fun s1 =>
      (s1.set i { b with cap := 64, data := .small i, size := o.size }).memcpy E (.small i) 0 o.data o.size)
    else if o.cap > b.cap then (s.realloc J (if b.cap ≤ 64 then .null else b.data) o.cap).bind (fun s1 =>
      (s1.set i { b with cap := o.cap, data := .heap s.next, size := o.size }).memcpy E (.heap s.next) 0 o.data o.size)
    else (s.set i { b with size := o.size }).memcpy E b.data 0 o.data o.size))

/-- Rounded up to a multiple of 64 (buffer.hpp:263-266). -/
def round (n : Nat) : Nat := if n % 64 = 0 then n else 64 * (n / 64 + 1)

/-- `reserve` (buffer.hpp:258-299). -/
def S.reserve (s : S) (i n : Nat) : Option S :=
  (s.bufs i).bind (fun b =>
    if n > b.cap then
      if b.cap ≤ 64 then
        if round n > 64 then
          ((s.malloc (junk J s.next (round n))).set i { b with cap := round n, data := .heap s.next }).memcpy E (.heap s.next) 0 b.data b.size
        else if b.cap = 0 then (s.set i { b with cap := 64, data := .small i }).memcpy E (.small i) 0 b.data b.size
        else some (s.set i { b with cap := 64, data := .small i })
      else (s.realloc J b.data (round n)).bind (fun s1 => some (s1.set i { b with cap := round n, data := .heap s.next }))
    else some s)

/-- `resize` (buffer.hpp:301-306). -/
def S.resize (s : S) (i n : Nat) : Option S :=
  (s.reserve E J i n).bind (fun s1 => (s1.bufs i).bind (fun b => some (s1.set i { b with size := n })))

/-- `append(char const*, size_t)`, and of strings (buffer.hpp:323-342): the source is looked at after the room was made. -/
def S.append (s : S) (i : Nat) (p : Ptr) (n : Nat) : Option S :=
  (s.bufs i).bind (fun b => (s.reserve E J i (b.size + n)).bind (fun s1 => (s1.bufs i).bind (fun b1 =>
    (s1.memcpy E b1.data b1.size p n).bind (fun s2 => (s2.bufs i).bind (fun b2 => some (s2.set i { b2 with size := b2.size + n }))))))

/-- `append(buffer const&)` (buffer.hpp:308-314): the other's pointer is looked at after the room was made. -/
def S.appendBuf (s : S) (i j : Nat) : Option S :=
  (s.bufs i).bind (fun b => (s.bufs j).bind (fun o => (s.reserve E J i (b.size + o.size)).bind (fun s1 =>
    (s1.bufs i).bind (fun b1 => (s1.bufs j).bind (fun o1 =>
    (s1.memcpy E b1.data b1.size o1.data o1.size).bind (fun s2 => (s2.bufs i).bind (fun b2 => (s2.bufs j).bind (fun o2 =>
      some (s2.set i { b2 with size := b2.size + o2.size })))))))))

/-- `append(char)` (buffer.hpp:316-321). -/
def S.appendChar (s : S) (i : Nat) (c : UInt8) : Option S :=
  (s.bufs i).bind (fun b => (s.reserve E J i (b.size + 1)).bind (fun s1 => (s1.bufs i).bind (fun b1 =>
    (s1.write b1.data b1.size [c]).bind (fun s2 => (s2.bufs i).bind (fun b2 => some (s2.set i { b2 with size := b2.size + 1 }))))))

/-- `clear` (buffer.hpp:243-247). -/
def S.clear (s : S) (i : Nat) : Option S := (s.bufs i).bind (fun b => some (s.set i { b with size := 0 }))

/-- The destructor (buffer.hpp:124-127). -/
def S.destroy (s : S) (i : Nat) : Option S :=
  (s.bufs i).bind (fun b => (s.dealloc i b).bind (fun s1 => some { s1 with bufs := fun k => if k = i then none else s1.bufs k }))

/-- What can be done with buffers. -/
inductive Op where
  | new (i : Nat)
  /-- refer to `n` bytes of the caller's memory -/
  | refer (i k off n : Nat)
  | copy (i j : Nat)
  | assign (i j : Nat)
  | move (i j : Nat)
  /-- append `n` bytes of the caller's memory -/
  | append (i k off n : Nat)
  /-- append the first `n` bytes of `j.data()` -/
  | appendData (i j n : Nat)
  | appendBuf (i j : Nat)
  | appendChar (i : Nat) (c : UInt8)
  | reserve (i n : Nat)
  | resize (i n : Nat)
  | clear (i : Nat)
  | reset (i : Nat)
  | destroy (i : Nat)
deriving DecidableEq, Repr

def S.step (s : S) : Op → Option S
  | .new i => s.new J i
  | .refer i k off n => s.refer J i (.ext k off) n
  | .copy i j => s.copy E J i j
  | .assign i j => s.assign E J i j
  | .move i j => s.move E i j
  | .append i k off n => s.append E J i (.ext k off) n
  | .appendData i j n => (s.bufs j).bind (fun o => s.append E J i o.data n)
  | .appendBuf i j => s.appendBuf E J i j
  | .appendChar i c => s.appendChar E J i c
  | .reserve i n => s.reserve E J i n
  | .resize i n => s.resize E J i n
  | .clear i => s.clear i
  | .reset i => s.reset i
  | .destroy i => s.destroy i

def S.run (s : S) : List Op → Option S
  | [] => some s
  | o :: t => (s.step E J o).bind (fun s' => s'.run t)

def S.empty : S := ⟨fun _ => none, fun _ => none, 0⟩

/-- What a user sees: the bytes of a buffer that exists. -/
def S.content (s : S) (i : Nat) : Option Bytes := (s.bufs i).bind (fun b => s.read E b.data b.size)

/-! ### Specification: buffers are strings of bytes -/

def upd (f : Nat → Option Bytes) (i : Nat) (x : Option Bytes) : Nat → Option Bytes := fun k => if k = i then x else f k

/-- What an operation may do to the contents `f` (`none`: no such buffer). -/
def Spec (f : Nat → Option Bytes) : Op → (Nat → Option Bytes) → Prop
  | .new i, g => g = upd f i (some [])
  | .refer i k off n, g => g = upd f i (some (((E k).drop off).take n))
  | .copy i j, g => g = upd f i (f j)
  | .assign i j, g => g = upd f i (f j)
  | .move i j, g => g = upd (upd f i (f j)) j (some [])
  | .append i k off n, g => g = upd f i ((f i).map (· ++ ((E k).drop off).take n))
  | .appendData i j n, g => ∃ y, f j = some y ∧ g = upd f i ((f i).map (· ++ y.take n))
  | .appendBuf i j, g => ∃ y, f j = some y ∧ g = upd f i ((f i).map (· ++ y))
  | .appendChar i c, g => g = upd f i ((f i).map (· ++ [c]))
  | .reserve _ _, g => g = f
  | .resize i n, g => ∃ x y, f i = some x ∧ y.length = n ∧ y.take x.length = x.take n ∧ g = upd f i (some y)
  | .clear i, g => g = upd f i (some [])
  | .reset i, g => g = upd f i (some [])
  | .destroy i, g => g = upd f i none

/-- What the caller must see to: buffers exist (or not yet); a source of bytes is not in the buffer itself; a buffer is not moved
onto itself; no room is asked for that is smaller than referenced data. -/
def Pre (s : S) : Op → Prop
  | .new i => s.bufs i = none
  | .refer i k off n => s.bufs i = none ∧ off + n ≤ (E k).length
  | .copy i j => s.bufs i = none ∧ s.bufs j ≠ none
  | .assign i j => s.bufs i ≠ none ∧ s.bufs j ≠ none
  | .move i j => s.bufs i ≠ none ∧ s.bufs j ≠ none ∧ i ≠ j
  | .append i k off n => s.bufs i ≠ none ∧ off + n ≤ (E k).length
  | .appendData i j n => s.bufs i ≠ none ∧ i ≠ j ∧ ∃ o, s.bufs j = some o ∧ n ≤ o.size
  | .appendBuf i j => s.bufs i ≠ none ∧ s.bufs j ≠ none
  | .appendChar i _ => s.bufs i ≠ none
  | .reserve i n => ∃ b, s.bufs i = some b ∧ (b.cap = 0 → n = 0 ∨ b.size ≤ n)
  | .resize i n => ∃ b, s.bufs i = some b ∧ (b.cap = 0 → n = 0 ∨ b.size ≤ n)
  | .clear i => s.bufs i ≠ none
  | .reset i => s.bufs i ≠ none
  | .destroy i => s.bufs i ≠ none
end

end Ltio.Redis.Buffer
