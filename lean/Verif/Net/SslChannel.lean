import Verif.Net.TcpProps
/-
Model of `TCPSSLChannel` (net_io/tcp_channel_ssl.cc) over the `IOBuffer` model, output side and
input side, for C24.

OpenSSL is a script of results, one per `SSL_write`/`SSL_read`, under its documented contract
(assumed, not verified):
* without SSL_MODE_ENABLE_PARTIAL_WRITE a successful `SSL_write` writes the whole batch;
* `SSL_write` of zero bytes returns 0 and `SSL_get_error` then says SSL_ERROR_SYSCALL with errno
  untouched;
* after SSL_ERROR_WANT_WRITE the record is pending, and unless SSL_MODE_ACCEPT_MOVING_WRITE_BUFFER
  is set the retry must pass the same buffer address (SSL_R_BAD_WRITE_RETRY otherwise).
`moving` says whether that mode is set; base/crypto/lt_ssl.cc:64-130 never sets it, so the program
is `moving = false`.  Addresses are "the caller's data" or a place in a memory block of the output
buffer: `blk` counts the blocks its vector has had, `cap` is the vector's capacity (libstdc++ grows
it to the old size plus the greater of old size and what is added).
An exhausted script answers WANT_WRITE.  Bytes of a batch reach the peer only when the whole batch
is accepted (a batch that was enlarged before its retry may in fact be delivered in two records).
-/
namespace Ltio.Net.Ssl
open Ltio.IOBuffer Ltio.Net

/-- Answer of one SSL call, as `SSL_get_error` classifies it. -/
inductive SRes where
  | ok (n : Nat)          -- SSL_write: the whole batch; SSL_read: up to n+1 bytes
  | wantRead | wantWrite
  | syscall (e : Errno)   -- SSL_ERROR_SYSCALL with this errno
  | zeroReturn            -- SSL_ERROR_ZERO_RETURN
  | fatal                 -- anything else
deriving DecidableEq, Repr

/-- tcp_channel_ssl.cc:13-17 `SSLAction`. -/
inductive Action where
  | close | waitIO | fastRetry
deriving DecidableEq, Repr

/-- Where the bytes given to `SSL_write` live. -/
inductive Addr where
  | user
  | outbuf (blk pos : Nat)
deriving DecidableEq, Repr

/-- `Chan` plus the SSL session's pending-write record and configuration. -/
structure SChan where
  ch : Chan
  moving : Bool
  wpend : Option Addr
  cap : Nat
  blk : Nat
deriving DecidableEq, Repr

/-- tcp_channel_ssl.cc:11 `kBlockSize`. -/
def kBlockSize : Nat := 8 * 1024

/-- `out_.GetRead()` (io_buffer.cc:96-98). -/
def SChan.outAddr (c : SChan) : Addr := .outbuf c.blk c.ch.out.rd

/-- The output buffer after more was written to it: a vector that outgrows its capacity gets a new
block (io_buffer.cc:77 `data_.resize`). -/
def SChan.setOut (c : SChan) (o : Buf) : SChan :=
  { c with
    ch := { c.ch with out := o }
    cap := if o.data.length ≤ c.cap then c.cap else c.ch.out.data.length + max c.ch.out.data.length (o.data.length - c.ch.out.data.length)
    blk := if o.data.length ≤ c.cap then c.blk else c.blk + 1 }

/-- Result of one `SSL_write` of `bs` from address `a`: `.inl n` = positive return value,
`.inr r` = failure classified by `SSL_get_error`; and the session state. -/
def SChan.sslWrite (c : SChan) (a : Addr) (bs : List Byte) (r : SRes) : SChan × (Nat ⊕ SRes) :=
  if c.wpend.isSome && !c.moving && c.wpend != some a then (c, .inr .fatal)
  else match r with
    | .ok _ =>
      if bs = [] then (c, .inr (.syscall c.ch.errno))
      else ({ c with ch := { c.ch with sock := c.ch.sock ++ bs }, wpend := none }, .inl bs.length)
    | .wantWrite => ({ c with wpend := if bs = [] then c.wpend else some a }, .inr .wantWrite)
    | .syscall e => ({ c with ch := { c.ch with errno := e } }, .inr (.syscall e))
    | r => (c, .inr r)

/-- `handle_openssl_err` (tcp_channel_ssl.cc:42-83): the action, and the write interest. -/
def SChan.onErr (c : SChan) : SRes → SChan × Action
  | .wantRead => (c, .waitIO)
  | .wantWrite => ({ c with ch := { c.ch with writing := true } }, .waitIO)
  | .syscall .again => (c, .waitIO)
  | .syscall .intr => (c, .fastRetry)
  | _ => (c, .close)

/-- tcp_channel_ssl.cc:169 / 207-211: `out_.CanReadSize() ? EnableWriting() : DisableWriting()`. -/
def SChan.rearm (c : SChan) : SChan :=
  { c with ch := { c.ch with writing := decide (c.ch.out.canRead ≠ 0) } }

/-- What one iteration of a write loop decides. -/
inductive Iter where
  | wrote (c : SChan) (n : Nat)
  | stop (c : SChan)        -- WaitIO: leave the loop
  | retry (c : SChan)       -- FastRetry
  | fail (c : SChan)        -- return -1

/-- One iteration: `SSL_write`, then `handle_openssl_err` on failure
(tcp_channel_ssl.cc:140-165 and 183-204). -/
def SChan.iter (c : SChan) (a : Addr) (bs : List Byte) (r : SRes) : Iter :=
  match c.sslWrite a bs r with
  | (c1, .inl n) => .wrote c1 n
  | (c1, .inr e) =>
    match c1.onErr e with
    | (c2, .waitIO) => .stop c2
    | (c2, .fastRetry) => .retry c2
    | (c2, .close) => .fail c2

/-- The `do … while (out_.CanReadSize())` loop of `HandleWrite` (tcp_channel_ssl.cc:182-205). -/
def writeLoop : List SRes → SChan → Nat → SChan × Option Nat
  | [], c, total =>
    match c.iter c.outAddr (c.ch.out.asString.take kBlockSize) .wantWrite with
    | .fail c' => (c', none)
    | .stop c' => (c', some total)
    | .retry c' => (c', some total)
    | .wrote c' _ => (c', some total)
  | r :: rs, c, total =>
    match c.iter c.outAddr (c.ch.out.asString.take kBlockSize) r with
    | .wrote c' n =>
      if (c.ch.out.consume n).canRead = 0 then
        ({ c' with ch := { c'.ch with out := c.ch.out.consume n } }, some (total + n))
      else writeLoop rs { c' with ch := { c'.ch with out := c.ch.out.consume n } } (total + n)
    | .stop c' => (c', some total)
    | .retry c' =>
      if c.ch.out.canRead = 0 then (c', some total) else writeLoop rs c' total
    | .fail c' => (c', none)

/-- `TCPSSLChannel::HandleWrite` (tcp_channel_ssl.cc:175-213). -/
def SChan.handleWrite (c : SChan) (script : List SRes) : SChan × Int :=
  match writeLoop script c 0 with
  | (c', none) => (c', -1)
  | (c', some t) => (c'.rearm, toI32 t)

/-- Lines 153-156 then 169-172: buffer the rest and leave. -/
def SChan.park (c : SChan) (rest : List Byte) (n : Nat) : Option (SChan × Int) :=
  match c.ch.out.write rest with
  | none => none
  | some o => some ((c.setOut o).rearm, toI32 n)

/-- The `do … while (n_remain > 0)` loop of `Send` (tcp_channel_ssl.cc:137-172). -/
def sendLoop : List SRes → SChan → List Byte → Nat → Option (SChan × Int)
  | [], c, rest, n =>
    match c.iter .user (rest.take kBlockSize) .wantWrite with
    | .fail c' => some (c', -1)
    | .stop c' => c'.park rest n
    | .retry c' => c'.park rest n
    | .wrote c' _ => c'.park rest n
  | r :: rs, c, rest, n =>
    match c.iter .user (rest.take kBlockSize) r with
    | .wrote c' k =>
      if rest.length - k = 0 then some (c'.rearm, toI32 (n + k))
      else sendLoop rs c' (rest.drop k) (n + k)
    | .stop c' => c'.park rest n
    | .retry c' => if rest.length = 0 then some (c'.rearm, toI32 n) else sendLoop rs c' rest n
    | .fail c' => some (c', -1)

/-- `TCPSSLChannel::Send(data, len)` (tcp_channel_ssl.cc:126-173), `len = data.length`. -/
def SChan.send (c : SChan) (data : List Byte) (script : List SRes) : Option (SChan × Int) :=
  if c.ch.out.canRead > 0 then
    match c.ch.out.write data with
    | none => none
    | some o => some ((c.setOut o).handleWrite script)
  else sendLoop script c data 0

/-- The loop of `HandleRead` (tcp_channel_ssl.cc:237-262); `false` = `return -1`.  An `ok` answer
with nothing decrypted, or an exhausted script, is WANT_READ. -/
def readLoop : List SRes → SChan → Option (SChan × Bool)
  | [], c =>
    match c.ch.inb.ensure 2048 with
    | none => none
    | some b => some ({ c with ch := { c.ch with inb := b } }, true)
  | r :: rs, c =>
    match c.ch.inb.ensure 2048 with
    | none => none
    | some b =>
      match r with
      | .ok n =>
        if min (n + 1) (min b.canWrite c.ch.peer.length) = 0 then
          some ({ c with ch := { c.ch with inb := b } }, true)
        else
          match b.rawProduce (c.ch.peer.take (min (n + 1) (min b.canWrite c.ch.peer.length))) with
          | none => none
          | some b' =>
            readLoop rs
              { c with ch := { c.ch with inb := b', peer := c.ch.peer.drop (min (n + 1) (min b.canWrite c.ch.peer.length)) } }
      | .wantRead => some ({ c with ch := { c.ch with inb := b } }, true)
      | .wantWrite => some ({ c with ch := { c.ch with inb := b, writing := true } }, true)
      | .syscall .again => some ({ c with ch := { c.ch with inb := b, errno := .again } }, true)
      | .syscall .intr => readLoop rs { c with ch := { c.ch with inb := b, errno := .intr } }
      | _ => some ({ c with ch := { c.ch with inb := b } }, false)

/-- `TCPSSLChannel::HandleRead` (tcp_channel_ssl.cc:233-265). -/
def SChan.handleRead (c : SChan) (script : List SRes) : Option (SChan × Int) :=
  match readLoop script c with
  | none => none
  | some (c', true) => some (c', toI32 c'.ch.inb.canRead)
  | some (c', false) => some (c', -1)

inductive Op where
  | send (data : List Byte) (script : List SRes)
  | writable (script : List SRes)
  | readable (script : List SRes)
  | arrive (bs : List Byte)
  | appConsume (n : Nat)
  | clobber (e : Errno)
deriving DecidableEq, Repr

def step (c : SChan) : Op → Option (SChan × Int)
  | .send data script => c.send data script
  | .writable script => some (c.handleWrite script)
  | .readable script => c.handleRead script
  | .arrive bs => some ({ c with ch := { c.ch with peer := c.ch.peer ++ bs } }, 0)
  | .appConsume n =>
    some ({ c with ch := { c.ch with inb := c.ch.inb.consume n, taken := c.ch.taken ++ c.ch.inb.asString.take n } }, 0)
  | .clobber e => some ({ c with ch := { c.ch with errno := e } }, 0)

/-- A fresh session. -/
def SChan.init (moving : Bool) : SChan := ⟨Chan.init, moving, none, kDefaultInitialSize, 0⟩

/-! ### Specification -/

def sentOf : List Op → List Byte
  | [] => []
  | .send d _ :: ops => d ++ sentOf ops
  | _ :: ops => sentOf ops

def arrivedOf : List Op → List Byte
  | [] => []
  | .arrive d :: ops => d ++ arrivedOf ops
  | _ :: ops => arrivedOf ops

/-- Error-free histories. -/
inductive Reach (moving : Bool) : List Op → SChan → Prop
  | init : Reach moving [] (SChan.init moving)
  | step {ops c op c' rv} : Reach moving ops c → Ssl.step c op = some (c', rv) → 0 ≤ rv →
      Reach moving (ops ++ [op]) c'

/-! ### Lemmas -/

theorem sentOf_append (a b : List Op) : sentOf (a ++ b) = sentOf a ++ sentOf b := by
  induction a with
  | nil => rfl
  | cons x xs ih => cases x <;> simp [sentOf, ih]

theorem arrivedOf_append (a b : List Op) : arrivedOf (a ++ b) = arrivedOf a ++ arrivedOf b := by
  induction a with
  | nil => rfl
  | cons x xs ih => cases x <;> simp [arrivedOf, ih]

/-- Everything except `errno`, `writing`, `sock` and the session record is unchanged. -/
def Same (c c' : SChan) : Prop :=
  c'.ch.out = c.ch.out ∧ c'.ch.inb = c.ch.inb ∧ c'.ch.peer = c.ch.peer ∧ c'.ch.taken = c.ch.taken ∧
  c'.moving = c.moving

theorem Same.trans {a b c : SChan} (h1 : Same a b) (h2 : Same b c) : Same a c :=
  ⟨h2.1.trans h1.1, h2.2.1.trans h1.2.1, h2.2.2.1.trans h1.2.2.1, h2.2.2.2.1.trans h1.2.2.2.1,
    h2.2.2.2.2.trans h1.2.2.2.2⟩

theorem onErr_same (c : SChan) (r : SRes) :
    Same c (c.onErr r).1 ∧ (c.onErr r).1.ch.sock = c.ch.sock := by
  unfold SChan.onErr Same
  split <;> simp

theorem sslWrite_spec (c : SChan) (a : Addr) (bs : List Byte) (r : SRes) :
    Same c (c.sslWrite a bs r).1 ∧
    (∀ n, (c.sslWrite a bs r).2 = .inl n → n = bs.length ∧ 0 < n ∧
      (c.sslWrite a bs r).1.ch.sock = c.ch.sock ++ bs) ∧
    (∀ e, (c.sslWrite a bs r).2 = .inr e → (c.sslWrite a bs r).1.ch.sock = c.ch.sock) := by
  unfold SChan.sslWrite Same
  split
  · simp
  · cases r with
    | ok k =>
      simp only
      split
      · simp
      · rename_i hne
        have := List.length_pos_iff.2 hne
        refine ⟨by simp, ?_, by simp⟩
        intro n hn
        simp only [Sum.inl.injEq] at hn
        exact ⟨hn.symm, by omega, rfl⟩
    | _ => simp

theorem iter_spec (c : SChan) (a : Addr) (bs : List Byte) (r : SRes) :
    match c.iter a bs r with
    | .wrote c' n => Same c c' ∧ n = bs.length ∧ 0 < n ∧ c'.ch.sock = c.ch.sock ++ bs
    | .stop c' => Same c c' ∧ c'.ch.sock = c.ch.sock
    | .retry c' => Same c c' ∧ c'.ch.sock = c.ch.sock
    | .fail c' => Same c c' ∧ c'.ch.sock = c.ch.sock := by
  unfold SChan.iter
  obtain ⟨h1, h2, h3⟩ := sslWrite_spec c a bs r
  rcases hs : c.sslWrite a bs r with ⟨c1, n | e⟩
  · rw [hs] at h1 h2
    obtain ⟨k1, k2, k3⟩ := h2 n rfl
    exact ⟨h1, k1, k2, k3⟩
  · rw [hs] at h1 h3
    have h3 := h3 e rfl
    obtain ⟨g1, g2⟩ := onErr_same c1 e
    simp only
    rcases ho : c1.onErr e with ⟨c2, act⟩
    rw [ho] at g1 g2
    cases act <;> exact ⟨h1.trans g1, g2.trans h3⟩

theorem writeLoop_spec (script : List SRes) : ∀ (c : SChan) (total : Nat), c.ch.out.Inv →
    ∃ c' o, writeLoop script c total = (c', o) ∧ c'.ch.out.Inv ∧
      c'.ch.inb = c.ch.inb ∧ c'.ch.peer = c.ch.peer ∧ c'.ch.taken = c.ch.taken ∧
      c'.moving = c.moving ∧
      (∃ x, c'.ch.sock = c.ch.sock ++ x ∧ x ++ c'.ch.out.asString = c.ch.out.asString ∧
        (∀ t, o = some t → t = total + x.length)) := by
  induction script with
  | nil =>
    intro c total h
    have hi := iter_spec c c.outAddr (c.ch.out.asString.take kBlockSize) .wantWrite
    simp only [writeLoop]
    have hw : ∀ c' n, c.iter c.outAddr (c.ch.out.asString.take kBlockSize) .wantWrite ≠ .wrote c' n := by
      intro c' n
      unfold SChan.iter SChan.sslWrite
      split
      · rename_i h2
        split at h2 <;> simp at h2
      · split <;> simp
    rcases hit : c.iter c.outAddr (c.ch.out.asString.take kBlockSize) .wantWrite with ⟨c', n⟩ | c' | c' | c'
    · exact absurd hit (hw c' n)
    all_goals
      rw [hit] at hi
      obtain ⟨⟨e1, e2, e3, e4, e5⟩, e6⟩ := hi
      exact ⟨_, _, rfl, by rw [e1]; exact h, e2, e3, e4, e5,
        ⟨[], by simp [e6], by simp [e1], by simp +contextual⟩⟩
  | cons r rs ih =>
    intro c total h
    have hi := iter_spec c c.outAddr (c.ch.out.asString.take kBlockSize) r
    simp only [writeLoop]
    rcases hit : c.iter c.outAddr (c.ch.out.asString.take kBlockSize) r with ⟨c', n⟩ | c' | c' | c'
    · rw [hit] at hi
      obtain ⟨⟨e1, e2, e3, e4, e5⟩, e6, e7, e8⟩ := hi
      have hdrop : (c.ch.out.consume n).asString = c.ch.out.asString.drop n := consume_asString _ h n
      have htk : c.ch.out.asString.take kBlockSize = c.ch.out.asString.take n := by
        rw [e6, List.length_take]
        by_cases hk : kBlockSize ≤ c.ch.out.asString.length
        · rw [Nat.min_eq_left hk]
        · rw [Nat.min_eq_right (by omega), List.take_of_length_le (by omega),
            List.take_of_length_le (by omega)]
      simp only
      split
      · refine ⟨_, _, rfl, consume_inv _ h _, e2, e3, e4, e5, ⟨c.ch.out.asString.take kBlockSize, e8, ?_, ?_⟩⟩
        · simp only; rw [hdrop, htk, List.take_append_drop]
        · intro t ht; cases ht; rw [e6]
      · obtain ⟨d, o, j0, j1, j2, j3, j4, j5, ⟨x, x1, x2, x3⟩⟩ :=
          ih { c' with ch := { c'.ch with out := c.ch.out.consume n } } (total + n) (consume_inv _ h _)
        refine ⟨d, o, j0, j1, j2.trans e2, j3.trans e3, j4.trans e4, j5.trans e5,
          ⟨c.ch.out.asString.take kBlockSize ++ x, ?_, ?_, ?_⟩⟩
        · rw [x1]; simp only; rw [e8]; simp
        · rw [List.append_assoc, x2]; simp only; rw [hdrop, htk, List.take_append_drop]
        · intro t ht; rw [x3 t ht, List.length_append, ← e6]; omega
    · rw [hit] at hi
      obtain ⟨⟨e1, e2, e3, e4, e5⟩, e6⟩ := hi
      exact ⟨_, _, rfl, by rw [e1]; exact h, e2, e3, e4, e5,
        ⟨[], by simp [e6], by simp [e1], by simp +contextual⟩⟩
    · rw [hit] at hi
      obtain ⟨⟨e1, e2, e3, e4, e5⟩, e6⟩ := hi
      simp only
      split
      · exact ⟨_, _, rfl, by rw [e1]; exact h, e2, e3, e4, e5,
          ⟨[], by simp [e6], by simp [e1], by simp +contextual⟩⟩
      · obtain ⟨d, o, j0, j1, j2, j3, j4, j5, ⟨x, x1, x2, x3⟩⟩ := ih c' total (by rw [e1]; exact h)
        exact ⟨d, o, j0, j1, j2.trans e2, j3.trans e3, j4.trans e4, j5.trans e5,
          ⟨x, by rw [x1, e6], by rw [x2, e1], x3⟩⟩
    · rw [hit] at hi
      obtain ⟨⟨e1, e2, e3, e4, e5⟩, e6⟩ := hi
      exact ⟨_, _, rfl, by rw [e1]; exact h, e2, e3, e4, e5,
        ⟨[], by simp [e6], by simp [e1], by simp⟩⟩

theorem handleWrite_spec (script : List SRes) (c : SChan) (h : c.ch.out.Inv) :
    ∃ c' rv, c.handleWrite script = (c', rv) ∧ c'.ch.out.Inv ∧
      c'.ch.inb = c.ch.inb ∧ c'.ch.peer = c.ch.peer ∧ c'.ch.taken = c.ch.taken ∧
      c'.moving = c.moving ∧
      (∃ x, c'.ch.sock = c.ch.sock ++ x ∧ x ++ c'.ch.out.asString = c.ch.out.asString ∧
        (0 ≤ rv → rv = toI32 x.length)) ∧
      (0 ≤ rv → (c'.ch.out.canRead > 0 ↔ c'.ch.writing = true)) := by
  obtain ⟨c', o, j0, j1, j2, j3, j4, j5, ⟨x, x1, x2, x3⟩⟩ := writeLoop_spec script c 0 h
  unfold SChan.handleWrite
  rw [j0]
  cases o with
  | none => exact ⟨_, _, rfl, j1, j2, j3, j4, j5, ⟨x, x1, x2, by simp⟩, by simp⟩
  | some t =>
    refine ⟨_, _, rfl, j1, j2, j3, j4, j5, ⟨x, x1, x2, ?_⟩, ?_⟩
    · intro _; rw [x3 t rfl]; simp
    · intro _; simp [SChan.rearm]; omega

theorem park_spec (c : SChan) (h : c.ch.out.Inv) (rest : List Byte) (n : Nat) :
    ∃ c', c.park rest n = some (c', toI32 n) ∧ c'.ch.out.Inv ∧
      c'.ch.out.asString = c.ch.out.asString ++ rest ∧ c'.ch.sock = c.ch.sock ∧
      c'.ch.inb = c.ch.inb ∧ c'.ch.peer = c.ch.peer ∧ c'.ch.taken = c.ch.taken ∧
      c'.moving = c.moving ∧ (c'.ch.out.canRead > 0 ↔ c'.ch.writing = true) := by
  obtain ⟨o, e, i, a⟩ := write_spec c.ch.out h rest
  exact ⟨(c.setOut o).rearm, by simp only [SChan.park, e], i, a, rfl, rfl, rfl, rfl, rfl, by simp [SChan.rearm]; omega⟩

theorem sendLoop_spec (script : List SRes) : ∀ (c : SChan) (rest : List Byte) (n : Nat),
    c.ch.out.Inv → c.ch.out.canRead = 0 →
    ∃ c' rv, sendLoop script c rest n = some (c', rv) ∧ c'.ch.out.Inv ∧
      c'.ch.inb = c.ch.inb ∧ c'.ch.peer = c.ch.peer ∧ c'.ch.taken = c.ch.taken ∧
      c'.moving = c.moving ∧
      (∃ x, c'.ch.sock = c.ch.sock ++ x ∧ (x <+: rest) ∧
        (0 ≤ rv → x ++ c'.ch.out.asString = rest ∧ rv = toI32 (n + x.length))) ∧
      (0 ≤ rv → (c'.ch.out.canRead > 0 ↔ c'.ch.writing = true)) := by
  have key : ∀ (c c1 : SChan) (rest : List Byte) (n : Nat), c.ch.out.Inv → c.ch.out.canRead = 0 →
      Same c c1 → c1.ch.sock = c.ch.sock →
      ∃ c' rv, c1.park rest n = some (c', rv) ∧ c'.ch.out.Inv ∧
        c'.ch.inb = c.ch.inb ∧ c'.ch.peer = c.ch.peer ∧ c'.ch.taken = c.ch.taken ∧
        c'.moving = c.moving ∧
        (∃ x, c'.ch.sock = c.ch.sock ++ x ∧ (x <+: rest) ∧
          (0 ≤ rv → x ++ c'.ch.out.asString = rest ∧ rv = toI32 (n + x.length))) ∧
        (0 ≤ rv → (c'.ch.out.canRead > 0 ↔ c'.ch.writing = true)) := by
    intro c c1 rest n h h0 ⟨e1, e2, e3, e4, e5⟩ e6
    have hemp : c.ch.out.asString = [] :=
      List.eq_nil_of_length_eq_zero (by rw [asString_length _ h, h0])
    obtain ⟨c', p0, p1, p2, p3, p4, p5, p6, p7, p8⟩ := park_spec c1 (by rw [e1]; exact h) rest n
    exact ⟨c', _, p0, p1, p4.trans e2, p5.trans e3, p6.trans e4, p7.trans e5,
      ⟨[], by simp [p3, e6], by simp, fun _ => by simp [p2, e1, hemp]⟩, fun _ => p8⟩
  induction script with
  | nil =>
    intro c rest n h h0
    have hi := iter_spec c .user (rest.take kBlockSize) .wantWrite
    simp only [sendLoop]
    rcases hit : c.iter .user (rest.take kBlockSize) .wantWrite with ⟨c', k⟩ | c' | c' | c'
    · exfalso
      revert hit
      unfold SChan.iter SChan.sslWrite
      split
      · rename_i h2
        split at h2 <;> simp at h2
      · split <;> simp
    · rw [hit] at hi; exact key c c' rest n h h0 hi.1 hi.2
    · rw [hit] at hi; exact key c c' rest n h h0 hi.1 hi.2
    · rw [hit] at hi
      obtain ⟨⟨e1, e2, e3, e4, e5⟩, e6⟩ := hi
      exact ⟨_, _, rfl, by rw [e1]; exact h, e2, e3, e4, e5, ⟨[], by simp [e6], by simp, by simp⟩, by simp⟩
  | cons r rs ih =>
    intro c rest n h h0
    have hemp : c.ch.out.asString = [] :=
      List.eq_nil_of_length_eq_zero (by rw [asString_length _ h, h0])
    have hi := iter_spec c .user (rest.take kBlockSize) r
    simp only [sendLoop]
    rcases hit : c.iter .user (rest.take kBlockSize) r with ⟨c', k⟩ | c' | c' | c'
    · rw [hit] at hi
      obtain ⟨⟨e1, e2, e3, e4, e5⟩, e6, e7, e8⟩ := hi
      have htk : rest.take kBlockSize = rest.take k := by
        rw [e6, List.length_take]
        by_cases hk : kBlockSize ≤ rest.length
        · rw [Nat.min_eq_left hk]
        · rw [Nat.min_eq_right (by omega), List.take_of_length_le (by omega),
            List.take_of_length_le (by omega)]
      have hkle : k ≤ rest.length := by rw [e6, List.length_take]; omega
      simp only
      split
      · have hk : k = rest.length := by omega
        refine ⟨_, _, rfl, by simp only [SChan.rearm]; rw [e1]; exact h, e2, e3, e4, e5,
          ⟨rest, ?_, by simp, ?_⟩, ?_⟩
        · simp only [SChan.rearm]; rw [e8, htk, hk]; simp
        · intro _; simp only [SChan.rearm]; rw [e1, hemp, hk]; simp
        · intro _; simp [SChan.rearm]; omega
      · obtain ⟨d, rv, j0, j1, j2, j3, j4, j5, ⟨x, x1, ⟨y, hy⟩, x3⟩, j7⟩ :=
          ih c' (rest.drop k) (n + k) (by rw [e1]; exact h) (by rw [e1]; exact h0)
        refine ⟨d, rv, j0, j1, j2.trans e2, j3.trans e3, j4.trans e4, j5.trans e5,
          ⟨rest.take k ++ x, ?_, ⟨y, ?_⟩, ?_⟩, j7⟩
        · rw [x1, e8, htk]; simp
        · rw [List.append_assoc, hy, List.take_append_drop]
        · intro hge
          obtain ⟨z1, z2⟩ := x3 hge
          refine ⟨by rw [List.append_assoc, z1, List.take_append_drop], ?_⟩
          rw [z2]; congr 1; simp; omega
    · rw [hit] at hi; exact key c c' rest n h h0 hi.1 hi.2
    · rw [hit] at hi
      obtain ⟨⟨e1, e2, e3, e4, e5⟩, e6⟩ := hi
      simp only
      split
      · rename_i hr
        have hr : rest = [] := List.eq_nil_of_length_eq_zero hr
        subst hr
        refine ⟨_, _, rfl, by simp only [SChan.rearm]; rw [e1]; exact h, e2, e3, e4, e5,
          ⟨[], by simp [SChan.rearm, e6], by simp, ?_⟩, ?_⟩
        · intro _; simp [SChan.rearm, e1, hemp]
        · intro _; simp [SChan.rearm]; omega
      · obtain ⟨d, rv, j0, j1, j2, j3, j4, j5, ⟨x, x1, x2, x3⟩, j7⟩ :=
          ih c' rest n (by rw [e1]; exact h) (by rw [e1]; exact h0)
        exact ⟨d, rv, j0, j1, j2.trans e2, j3.trans e3, j4.trans e4, j5.trans e5,
          ⟨x, by rw [x1, e6], x2, x3⟩, j7⟩
    · rw [hit] at hi
      obtain ⟨⟨e1, e2, e3, e4, e5⟩, e6⟩ := hi
      exact ⟨_, _, rfl, by rw [e1]; exact h, e2, e3, e4, e5, ⟨[], by simp [e6], by simp, by simp⟩, by simp⟩

theorem send_spec (script : List SRes) (c : SChan) (data : List Byte) (h : c.ch.out.Inv) :
    ∃ c' rv, c.send data script = some (c', rv) ∧ c'.ch.out.Inv ∧
      c'.ch.inb = c.ch.inb ∧ c'.ch.peer = c.ch.peer ∧ c'.ch.taken = c.ch.taken ∧
      c'.moving = c.moving ∧
      (∃ x, c'.ch.sock = c.ch.sock ++ x ∧ (x <+: c.ch.out.asString ++ data) ∧
        (0 ≤ rv → x ++ c'.ch.out.asString = c.ch.out.asString ++ data ∧ rv = toI32 x.length)) ∧
      (0 ≤ rv → (c'.ch.out.canRead > 0 ↔ c'.ch.writing = true)) := by
  unfold SChan.send
  split
  · obtain ⟨o, e, i, a⟩ := write_spec c.ch.out h data
    simp only [e]
    obtain ⟨c', rv, j0, j1, j2, j3, j4, j5, ⟨x, x1, x2, x3⟩, j7⟩ :=
      handleWrite_spec script (c.setOut o) i
    rw [j0]
    refine ⟨c', rv, rfl, j1, j2, j3, j4, j5, ⟨x, x1, ⟨c'.ch.out.asString, ?_⟩, ?_⟩, j7⟩
    · rw [x2]; exact a
    · intro hge; exact ⟨by rw [x2]; exact a, x3 hge⟩
  · rename_i hz
    have h0 : c.ch.out.canRead = 0 := by omega
    have hemp : c.ch.out.asString = [] :=
      List.eq_nil_of_length_eq_zero (by rw [asString_length _ h, h0])
    obtain ⟨c', rv, j0, j1, j2, j3, j4, j5, ⟨x, x1, x2, x3⟩, j7⟩ := sendLoop_spec script c data 0 h h0
    exact ⟨c', rv, j0, j1, j2, j3, j4, j5, ⟨x, x1, by simpa [hemp] using x2,
      fun hge => by simpa [hemp] using x3 hge⟩, j7⟩

theorem readLoop_spec (script : List SRes) : ∀ (c : SChan), c.ch.inb.Inv →
    ∃ c' ok, readLoop script c = some (c', ok) ∧ c'.ch.inb.Inv ∧ c'.ch.out = c.ch.out ∧
      c'.ch.sock = c.ch.sock ∧ c'.ch.taken = c.ch.taken ∧ c'.moving = c.moving ∧
      (c.ch.writing = true → c'.ch.writing = true) ∧
      c'.ch.inb.asString ++ c'.ch.peer = c.ch.inb.asString ++ c.ch.peer := by
  induction script with
  | nil =>
    intro c h
    obtain ⟨b, e, i, a, _⟩ := ensure_spec c.ch.inb h 2048
    simp only [readLoop, e]
    exact ⟨_, _, rfl, i, rfl, rfl, rfl, rfl, id, by simp [a]⟩
  | cons r rs ih =>
    intro c h
    obtain ⟨b, e, i, a, _⟩ := ensure_spec c.ch.inb h 2048
    simp only [readLoop, e]
    cases r with
    | ok n =>
      simp only
      split
      · exact ⟨_, _, rfl, i, rfl, rfl, rfl, rfl, id, by simp [a]⟩
      · generalize hm : min (n + 1) (min b.canWrite c.ch.peer.length) = m at *
        obtain ⟨b', e', i', a', _⟩ := rawProduce_spec b i (c.ch.peer.take m) (by simp; omega)
        simp only [e']
        obtain ⟨c', ok, j0, j1, j2, j3, j4, j5, j6, j7⟩ :=
          ih { c with ch := { c.ch with inb := b', peer := c.ch.peer.drop m } } i'
        refine ⟨c', ok, j0, j1, j2, j3, j4, j5, j6, ?_⟩
        rw [j7]; simp only; rw [a', a]; simp
    | syscall e =>
      cases e with
      | intr =>
        simp only
        obtain ⟨c', ok, j0, j1, j2, j3, j4, j5, j6, j7⟩ :=
          ih { c with ch := { c.ch with inb := b, errno := .intr } } i
        exact ⟨c', ok, j0, j1, j2, j3, j4, j5, j6, by rw [j7]; simp only; rw [a]⟩
      | again => exact ⟨_, _, rfl, i, rfl, rfl, rfl, rfl, id, by simp [a]⟩
      | other => exact ⟨_, _, rfl, i, rfl, rfl, rfl, rfl, id, by simp [a]⟩
    | wantRead => exact ⟨_, _, rfl, i, rfl, rfl, rfl, rfl, id, by simp [a]⟩
    | wantWrite => exact ⟨_, _, rfl, i, rfl, rfl, rfl, rfl, fun _ => rfl, by simp [a]⟩
    | zeroReturn => exact ⟨_, _, rfl, i, rfl, rfl, rfl, rfl, id, by simp [a]⟩
    | fatal => exact ⟨_, _, rfl, i, rfl, rfl, rfl, rfl, id, by simp [a]⟩

structure Good (ops : List Op) (c : SChan) : Prop where
  inInv : c.ch.inb.Inv
  outInv : c.ch.out.Inv
  sent : c.ch.sock ++ c.ch.out.asString = sentOf ops
  arrived : c.ch.taken ++ c.ch.inb.asString ++ c.ch.peer = arrivedOf ops
  interest : c.ch.out.canRead > 0 → c.ch.writing = true

theorem step_good {ops : List Op} {c : SChan} (g : Good ops c) (op : Op) :
    ∃ c' rv, Ssl.step c op = some (c', rv) ∧ c'.ch.sock <+: sentOf (ops ++ [op]) ∧
      c.ch.sock <+: c'.ch.sock ∧
      c'.ch.taken ++ c'.ch.inb.asString ++ c'.ch.peer = arrivedOf (ops ++ [op]) ∧
      (0 ≤ rv → Good (ops ++ [op]) c') := by
  have hsent : c.ch.sock <+: sentOf ops := ⟨_, g.sent⟩
  cases op with
  | send d s =>
    obtain ⟨c', rv, j0, j1, j2, j3, j4, j5, ⟨x, x1, ⟨y, hy⟩, x3⟩, j7⟩ := send_spec s c d g.outInv
    have htot : sentOf (ops ++ [Op.send d s]) = c.ch.sock ++ (c.ch.out.asString ++ d) := by
      rw [sentOf_append, ← g.sent]; simp [sentOf]
    have harr : arrivedOf (ops ++ [Op.send d s]) = arrivedOf ops := by
      rw [arrivedOf_append]; simp [arrivedOf]
    have ha : c'.ch.taken ++ c'.ch.inb.asString ++ c'.ch.peer = arrivedOf (ops ++ [Op.send d s]) := by
      rw [harr, j2, j3, j4]; exact g.arrived
    refine ⟨c', rv, j0, ⟨y, by rw [htot, ← hy, x1]; simp⟩, ⟨x, x1.symm⟩, ha, ?_⟩
    intro hge
    exact ⟨by rw [j2]; exact g.inInv, j1, by rw [htot, ← (x3 hge).1, x1]; simp, ha, (j7 hge).1⟩
  | writable s =>
    obtain ⟨c', rv, j0, j1, j2, j3, j4, j5, ⟨x, x1, x2, x3⟩, j7⟩ := handleWrite_spec s c g.outInv
    have htot : sentOf (ops ++ [Op.writable s]) = c.ch.sock ++ c.ch.out.asString := by
      rw [sentOf_append, g.sent]; simp [sentOf]
    have harr : arrivedOf (ops ++ [Op.writable s]) = arrivedOf ops := by
      rw [arrivedOf_append]; simp [arrivedOf]
    have ha : c'.ch.taken ++ c'.ch.inb.asString ++ c'.ch.peer = arrivedOf (ops ++ [Op.writable s]) := by
      rw [harr, j2, j3, j4]; exact g.arrived
    refine ⟨c', rv, by simp only [Ssl.step, j0], ⟨c'.ch.out.asString, by rw [htot, ← x2, x1]; simp⟩,
      ⟨x, x1.symm⟩, ha, ?_⟩
    intro hge
    exact ⟨by rw [j2]; exact g.inInv, j1, by rw [htot, ← x2, x1]; simp, ha, (j7 hge).1⟩
  | readable s =>
    obtain ⟨c', ok, j0, j1, j2, j3, j4, j5, j6, j7⟩ := readLoop_spec s c g.inInv
    have htot : sentOf (ops ++ [Op.readable s]) = sentOf ops := by
      rw [sentOf_append]; simp [sentOf]
    have harr : arrivedOf (ops ++ [Op.readable s]) = arrivedOf ops := by
      rw [arrivedOf_append]; simp [arrivedOf]
    have hg : Good (ops ++ [Op.readable s]) c' := by
      refine ⟨j1, by rw [j2]; exact g.outInv, by rw [htot, j2, j3]; exact g.sent, ?_, ?_⟩
      · rw [harr, j4, List.append_assoc, j7, ← g.arrived, List.append_assoc]
      · rw [j2]; intro hgt; exact j6 (g.interest hgt)
    cases ok with
    | true =>
      exact ⟨c', toI32 c'.ch.inb.canRead, by simp only [Ssl.step, SChan.handleRead, j0],
        ⟨_, hg.sent⟩, ⟨[], by rw [j3]; simp⟩, hg.arrived, fun _ => hg⟩
    | false =>
      exact ⟨c', -1, by simp only [Ssl.step, SChan.handleRead, j0],
        ⟨_, hg.sent⟩, ⟨[], by rw [j3]; simp⟩, hg.arrived, fun _ => hg⟩
  | arrive bs =>
    have htot : sentOf (ops ++ [Op.arrive bs]) = sentOf ops := by
      rw [sentOf_append]; simp [sentOf]
    have ha : c.ch.taken ++ c.ch.inb.asString ++ (c.ch.peer ++ bs) = arrivedOf (ops ++ [Op.arrive bs]) := by
      rw [arrivedOf_append, ← g.arrived]; simp [arrivedOf]
    exact ⟨_, _, rfl, by rw [htot]; exact hsent, List.prefix_refl _, ha,
      fun _ => ⟨g.inInv, g.outInv, by rw [htot]; exact g.sent, ha, g.interest⟩⟩
  | appConsume n =>
    have htot : sentOf (ops ++ [Op.appConsume n]) = sentOf ops := by
      rw [sentOf_append]; simp [sentOf]
    have ha : (c.ch.taken ++ c.ch.inb.asString.take n) ++ (c.ch.inb.consume n).asString ++ c.ch.peer
        = arrivedOf (ops ++ [Op.appConsume n]) := by
      rw [arrivedOf_append, ← g.arrived, consume_asString _ g.inInv, List.append_assoc c.ch.taken,
        List.take_append_drop]; simp [arrivedOf]
    exact ⟨_, _, rfl, by rw [htot]; exact hsent, List.prefix_refl _, ha,
      fun _ => ⟨consume_inv _ g.inInv _, g.outInv, by rw [htot]; exact g.sent, ha, g.interest⟩⟩
  | clobber e =>
    have htot : sentOf (ops ++ [Op.clobber e]) = sentOf ops := by
      rw [sentOf_append]; simp [sentOf]
    have harr : arrivedOf (ops ++ [Op.clobber e]) = arrivedOf ops := by
      rw [arrivedOf_append]; simp [arrivedOf]
    exact ⟨_, _, rfl, by rw [htot]; exact hsent, List.prefix_refl _, by rw [harr]; exact g.arrived,
      fun _ => ⟨g.inInv, g.outInv, by rw [htot]; exact g.sent, by rw [harr]; exact g.arrived, g.interest⟩⟩

theorem reach_good {mv : Bool} {ops : List Op} {c : SChan} (h : Reach mv ops c) : Good ops c := by
  induction h with
  | init => exact ⟨IOBuffer.init_inv, IOBuffer.init_inv, rfl, rfl, fun _ => rfl⟩
  | step hr he hge ih =>
    obtain ⟨c', rv, e, _, _, _, hg⟩ := step_good ih _
    rw [e] at he
    cases he
    exact hg hge

/-! ### C24 for the TLS channel -/

/-- C24: no operation leaves the buffers' storage. -/
theorem c24_ssl_safe {mv : Bool} {ops : List Op} {c : SChan} (h : Reach mv ops c) (op : Op) :
    ∃ r, Ssl.step c op = some r := by
  obtain ⟨c', rv, e, _⟩ := step_good (reach_good h) op
  exact ⟨_, e⟩

/-- C24: bytes given to TLS followed by pending bytes are exactly what was passed to `Send`. -/
theorem c24_ssl_stream {mv : Bool} {ops : List Op} {c : SChan} (h : Reach mv ops c) :
    c.ch.sock ++ c.ch.out.asString = sentOf ops := (reach_good h).sent

/-- C24: also in the failing operation TLS has been given a prefix of the stream. -/
theorem c24_ssl_prefix {mv : Bool} {ops : List Op} {c c' : SChan} {op : Op} {rv : Int}
    (h : Reach mv ops c) (hs : Ssl.step c op = some (c', rv)) :
    c'.ch.sock <+: sentOf (ops ++ [op]) ∧ c.ch.sock <+: c'.ch.sock := by
  obtain ⟨d, rv', e, h1, h2, _⟩ := step_good (reach_good h) op
  rw [e] at hs; cases hs
  exact ⟨h1, h2⟩

/-- C24: no received byte is lost, duplicated or reordered. -/
theorem c24_ssl_input {mv : Bool} {ops : List Op} {c c' : SChan} {op : Op} {rv : Int}
    (h : Reach mv ops c) (hs : Ssl.step c op = some (c', rv)) :
    c'.ch.taken ++ c'.ch.inb.asString ++ c'.ch.peer = arrivedOf (ops ++ [op]) := by
  obtain ⟨d, rv', e, _, _, h3, _⟩ := step_good (reach_good h) op
  rw [e] at hs; cases hs
  exact h3

/-- C24: pending output always has write interest registered. -/
theorem c24_ssl_write_interest {mv : Bool} {ops : List Op} {c : SChan} (h : Reach mv ops c)
    (hp : c.ch.out.asString ≠ []) : c.ch.writing = true := by
  refine (reach_good h).interest ?_
  rw [← asString_length _ (reach_good h).outInv]
  exact List.length_pos_iff.2 hp

/-- A record waits to be written from an address that is not where the output buffer begins: the next
write fails. -/
theorem moved_fails {c : SChan} (script : List SRes) (hm : c.moving = false) {a : Addr} (hp : c.wpend = some a)
    (ha : a ≠ c.outAddr) : (c.handleWrite script).2 = -1 := by
  have hfail : ∀ (bs : List Byte) (r : SRes), c.iter c.outAddr bs r = .fail c := by
    intro bs r
    unfold SChan.iter SChan.sslWrite
    rw [if_pos (by rw [hm, hp]; simpa using ha)]
    rfl
  unfold SChan.handleWrite
  cases script with
  | nil => simp only [writeLoop]; rw [hfail]
  | cons r rs => simp only [writeLoop]; rw [hfail]

/-- C24 VIOLATION (for every reachable idle TLS channel and every non-empty message): when TLS asks
`Send` to wait for writability, the message is moved to the output buffer, and the very next write
event fails and closes the connection, whatever the network then does — because
SSL_MODE_ACCEPT_MOVING_WRITE_BUFFER is not set. -/
theorem c24_violation_ssl_moved_buffer {ops : List Op} {c : SChan} (h : Reach false ops c)
    (hidle : c.ch.out.asString = []) (hfresh : c.wpend = none) (data : List Byte) (hd : data ≠ [])
    (hsz : data.length ≤ kBlockSize) (script : List SRes) :
    ∃ c', c.send data [.wantWrite] = some (c', 0) ∧ c'.ch.out.asString = data ∧
      (c'.handleWrite script).2 = -1 := by
  have g := reach_good h
  have hmv : ∀ {o d}, Reach false o d → d.moving = false := by
    intro o d hh
    induction hh with
    | init => rfl
    | @step o c1 op c2 rv hr he hge ih =>
      have g1 := reach_good hr
      cases op with
      | send d s =>
        obtain ⟨x, y, j0, _, _, _, _, j5, _⟩ := send_spec s c1 d g1.outInv
        simp only [Ssl.step, j0] at he; cases he; rw [j5, ih]
      | writable s =>
        obtain ⟨x, y, j0, _, _, _, _, j5, _⟩ := handleWrite_spec s c1 g1.outInv
        simp only [Ssl.step, j0] at he; cases he; rw [j5, ih]
      | readable s =>
        obtain ⟨x, y, j0, _, _, _, _, j5, _⟩ := readLoop_spec s c1 g1.inInv
        cases y <;> simp only [Ssl.step, SChan.handleRead, j0] at he <;> cases he <;> rw [j5, ih]
      | arrive bs => cases he; exact ih
      | appConsume n => cases he; exact ih
      | clobber e => cases he; exact ih
  have hm := hmv h
  have h0 : c.ch.out.canRead = 0 := by rw [← asString_length _ g.outInv, hidle]; rfl
  have htk : data.take kBlockSize = data := List.take_of_length_le hsz
  obtain ⟨o, e, i, a⟩ := write_spec c.ch.out g.outInv data
  have hnz : data.take kBlockSize ≠ [] := by rw [htk]; exact hd
  refine ⟨(({ c with ch := { c.ch with writing := true }, wpend := some .user } : SChan).setOut o).rearm,
    ?_, ?_, ?_⟩
  · unfold SChan.send
    rw [if_neg (by omega)]
    simp only [sendLoop, SChan.iter, SChan.sslWrite, hfresh, SChan.onErr, SChan.park, e,
      Option.isSome_none, Bool.false_and, hnz, if_false, Bool.false_eq_true]
    rw [toI32_of_lt (by omega)]; rfl
  · simp only [SChan.rearm, SChan.setOut]; rw [a, hidle]; rfl
  · exact moved_fails script (by simpa [SChan.rearm, SChan.setOut] using hm) (a := .user) rfl (by simp [SChan.outAddr])

/-- Witness: hypotheses of the theorems above are met by a history with pending output. -/
theorem c24_ssl_witness : ∃ c, Reach false [.send [1, 2, 3] [.ok 0], .send [4] [.wantWrite],
    .arrive [7], .readable [.ok 0]] c ∧ c.ch.sock = [1, 2, 3] ∧ c.ch.out.asString = [4] ∧
    c.ch.inb.asString = [7] := by
  let f (c : SChan) (op : Op) : SChan := ((Ssl.step c op).map Prod.fst).getD c
  let ops : List Op := [.send [1, 2, 3] [.ok 0], .send [4] [.wantWrite], .arrive [7], .readable [.ok 0]]
  let c1 := f (SChan.init false) (.send [1, 2, 3] [.ok 0])
  let c2 := f c1 (.send [4] [.wantWrite])
  let c3 := f c2 (.arrive [7])
  let c4 := f c3 (.readable [.ok 0])
  have r1 : Reach false (ops.take 1) c1 :=
    Reach.step (ops := []) (rv := 3) .init (by decide +kernel) (by decide)
  have r2 : Reach false (ops.take 2) c2 :=
    Reach.step (ops := ops.take 1) (rv := 0) r1 (by decide +kernel) (by decide)
  have r3 : Reach false (ops.take 3) c3 :=
    Reach.step (ops := ops.take 2) (rv := 0) r2 (by decide +kernel) (by decide)
  have r4 : Reach false (ops.take 4) c4 :=
    Reach.step (ops := ops.take 3) (rv := 1) r3 (by decide +kernel) (by decide)
  exact ⟨c4, r4, by decide +kernel, by decide +kernel, by decide +kernel⟩

end Ltio.Net.Ssl
