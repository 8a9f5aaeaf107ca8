import Verif.Net.TcpProps
/-
Model of `CodecService` (net_io/codec/codec_service.cc) — event handling, closing and close
notification — with the HTTP server's use of it (net_io/codec/http/http_codec_service.cc,
net_io/server/http_server/http_context.cc), over the `TcpChannel` model.

`notified` counts `delegate_->OnCodecClosed` calls.  `installed` is "the fd event is registered with
the pump" (only then are events delivered).  HTTP parsing is abstracted to "the buffered bytes parse
or not"; the parser is assumed to consume what it is given.  `none` = undefined behaviour in the
channel (excluded by C24).
-/
namespace Ltio.Net
open Ltio.IOBuffer

/-- codec_service.h:155-171. -/
structure Codec where
  ch : Chan
  schedClose : Bool     -- schedule_close_
  installed : Bool      -- fdev_ registered with the pump
  closed : Bool         -- status_ == CLOSED
  notified : Nat        -- OnCodecClosed calls so far
  flushSched : Bool     -- http_codec_service.cc flush_scheduled_ (a flush task is posted)
deriving DecidableEq, Repr

/-- After `StartProtocolService` (codec_service.cc:45-66). -/
def Codec.init : Codec := ⟨Chan.init, false, true, false, 0, false⟩

/-- `NotifyCodecClosed` (codec_service.cc:145-151) with a delegate set. -/
def Codec.notify (c : Codec) : Codec := { c with notified := c.notified + 1 }

/-- `CloseService(block_callback)` (codec_service.cc:68-82). -/
def Codec.close (c : Codec) (block : Bool) : Codec :=
  if block then { c with installed := false, closed := true }
  else ({ c with installed := false, closed := true } : Codec).notify

/-- `OnDataFinishSend` (codec_service.cc:88-93). -/
def Codec.finishSend (c : Codec) : Codec := if c.schedClose then c.close false else c

/-- `ShouldClose` (codec_service.cc:95-97). -/
def Codec.shouldClose (c : Codec) : Bool := c.schedClose && (c.ch.out.canRead == 0)

/-- `TryFlushChannel` (codec_service.cc:99-107). -/
def Codec.tryFlush (c : Codec) (ws : List WRes) : Codec × Bool :=
  if (c.ch.handleWrite ws).2 > 0 ∧ (c.ch.handleWrite ws).1.out.canRead = 0 then
    (({ c with ch := (c.ch.handleWrite ws).1 } : Codec).finishSend, decide ((c.ch.handleWrite ws).2 ≥ 0))
  else ({ c with ch := (c.ch.handleWrite ws).1 }, decide ((c.ch.handleWrite ws).2 ≥ 0))

/-- The write half of `SocketReadWrite` (codec_service.cc:112-120); `false` = `return false`. -/
def Codec.evWrite (c : Codec) (w : Bool) (ws : List WRes) : Codec × Bool :=
  if w then
    if (c.ch.handleWrite ws).2 < 0 then ({ c with ch := (c.ch.handleWrite ws).1 }, false)
    else if (c.ch.handleWrite ws).2 > 0 ∧ (c.ch.handleWrite ws).1.out.canRead = 0 then
      (({ c with ch := (c.ch.handleWrite ws).1 } : Codec).finishSend, true)
    else ({ c with ch := (c.ch.handleWrite ws).1 }, true)
  else (c, true)

/-- The read half (codec_service.cc:122-126). -/
def Codec.evRead (c : Codec) (r : Bool) (rs : List RRes) : Option (Codec × Bool) :=
  if r then
    match c.ch.handleRead rs with
    | none => none
    | some (ch, rv) => some ({ c with ch := ch }, decide (rv ≥ 0))
  else some (c, true)

/-- `SocketReadWrite` (codec_service.cc:110-127). -/
def Codec.readWrite (c : Codec) (w r : Bool) (ws : List WRes) (rs : List RRes) : Option (Codec × Bool) :=
  match c.evWrite w ws with
  | (c1, false) => some (c1, false)
  | (c1, true) => c1.evRead r rs

/-- Lines 138-142 of `HandleEvent`: close unless all is well. -/
def Codec.eventEnd (c : Codec) (success err : Bool) : Codec :=
  if success && !c.shouldClose && !err then c else c.close false

/-- `HandleEvent` (codec_service.cc:129-143); `recv` is the codec's `OnDataReceived`. -/
def Codec.handleEvent (recv : Codec → Codec) (c : Codec) (w r err : Bool) (ws : List WRes)
    (rs : List RRes) : Option Codec :=
  match c.readWrite w r ws rs with
  | none => none
  | some (c1, success) =>
    some ((if c1.ch.inb.canRead > 0 then recv c1 else c1).eventEnd success err)

/-- `HttpCodecService::OnDataReceived` (http_codec_service.cc:66-84): consume everything; on a parse
error send "400 Bad Request", close without callback, then notify.  The 400's bytes do not matter
here and are not modelled. -/
def httpRecv (parseOk : Bool) (c : Codec) : Codec :=
  if parseOk then { c with ch := { c.ch with inb := c.ch.inb.consume c.ch.inb.canRead } }
  else (({ c with ch := { c.ch with inb := c.ch.inb.consume c.ch.inb.canRead } } : Codec).close true).notify

/-- `HttpCodecService::SendResponse` (http_codec_service.cc:148-184): encode into the writer buffer,
remember to close, post one flush task. -/
def Codec.sendResponse (c : Codec) (bytes : List Byte) (keepAlive : Bool) : Option Codec :=
  match c.ch.out.write bytes with
  | none => none
  | some o => some { c with ch := { c.ch with out := o }, schedClose := c.schedClose || !keepAlive, flushSched := true }

/-- `HttpRequestCtx::Response` (http_context.cc:76-107) on the io loop: send, and close at once when
the request is not keep-alive. -/
def Codec.respond (c : Codec) (bytes : List Byte) (keepAlive : Bool) : Option Codec :=
  match c.sendResponse bytes keepAlive with
  | none => none
  | some c' => some (if keepAlive then c' else c'.close false)

/-- The posted `flush_fn_` (http_codec_service.cc:47-50). -/
def Codec.flushTask (c : Codec) (ws : List WRes) : Codec :=
  { (c.tryFlush ws).1 with flushSched := false }

/-- What can happen to an HTTP server connection. Events need a registered fd event; a flush task
needs to have been posted. -/
inductive COp where
  | event (w r err : Bool) (ws : List WRes) (rs : List RRes) (parseOk : Bool)
  | respond (bytes : List Byte) (keepAlive : Bool)
  | flush (ws : List WRes)
  | arrive (bs : List Byte)
deriving DecidableEq, Repr

def Codec.step (c : Codec) : COp → Option Codec
  | .event w r err ws rs ok =>
    if c.installed then c.handleEvent (httpRecv ok) w r err ws rs else some c
  | .respond bs k => if c.closed then some c else c.respond bs k
  | .flush ws => if c.flushSched then some (c.flushTask ws) else some c
  | .arrive bs => some { c with ch := { c.ch with peer := c.ch.peer ++ bs } }

def Codec.run (c : Codec) : List COp → Option Codec
  | [] => some c
  | op :: ops => match c.step op with
    | none => none
    | some c' => c'.run ops

/-! ### C40: exactly one close notification -/

theorem evWrite_notified (c : Codec) (w : Bool) (ws : List WRes) :
    (c.evWrite w ws).1.schedClose = c.schedClose ∧
    (c.schedClose = false → (c.evWrite w ws).1.notified = c.notified ∧
      (c.evWrite w ws).1.installed = c.installed ∧ (c.evWrite w ws).1.closed = c.closed ∧
      (c.evWrite w ws).1.flushSched = c.flushSched) := by
  unfold Codec.evWrite
  split
  · split
    · simp
    · split
      · unfold Codec.finishSend
        split
        · rename_i hs
          simp only at hs
          refine ⟨by simp [Codec.close, Codec.notify], ?_⟩
          intro h; rw [h] at hs; simp at hs
        · simp
      · simp
  · simp

/-- C40 (partial): on a connection that is not scheduled to close, whose data is parsed without
error, one event notifies the owner exactly once if the socket failed, hit end of stream or carried
an error flag — and then the connection no longer receives events — and not at all otherwise.
What is missing: scheduled close and parse errors, see the violations below. -/
theorem c40_event_partial (c c' : Codec) (w r err : Bool) (ws : List WRes) (rs : List RRes)
    (recv : Codec → Codec)
    (hrecv : ∀ d, (recv d).notified = d.notified ∧ (recv d).installed = d.installed ∧
      (recv d).schedClose = d.schedClose)
    (hs : c.schedClose = false) (h : c.handleEvent recv w r err ws rs = some c') :
    ∃ ok, (∃ c1, c.readWrite w r ws rs = some (c1, ok)) ∧
      c'.notified = c.notified + (if ok && !err then 0 else 1) ∧
      ((ok && !err) = false → c'.installed = false) ∧
      ((ok && !err) = true → c'.installed = c.installed) := by
  unfold Codec.handleEvent at h
  split at h
  · simp at h
  · rename_i c1 ok hrw
    simp only [Option.some.injEq] at h
    have hw := evWrite_notified c w ws
    have h1 : c1.notified = c.notified ∧ c1.installed = c.installed ∧ c1.schedClose = false := by
      unfold Codec.readWrite at hrw
      split at hrw
      · rename_i c2 he
        rw [he] at hw
        simp only [Option.some.injEq, Prod.mk.injEq] at hrw
        obtain ⟨rfl, rfl⟩ := hrw
        exact ⟨(hw.2 hs).1, (hw.2 hs).2.1, by rw [hw.1, hs]⟩
      · rename_i c2 he
        rw [he] at hw
        unfold Codec.evRead at hrw
        split at hrw
        · split at hrw
          · simp at hrw
          · simp only [Option.some.injEq, Prod.mk.injEq] at hrw
            obtain ⟨rfl, rfl⟩ := hrw
            exact ⟨(hw.2 hs).1, (hw.2 hs).2.1, by rw [← hs, ← hw.1]⟩
        · simp only [Option.some.injEq, Prod.mk.injEq] at hrw
          obtain ⟨rfl, rfl⟩ := hrw
          exact ⟨(hw.2 hs).1, (hw.2 hs).2.1, by rw [hw.1, hs]⟩
    refine ⟨ok, ⟨c1, hrw⟩, ?_⟩
    generalize hd : (if c1.ch.inb.canRead > 0 then recv c1 else c1) = d at h
    have h2 : d.notified = c.notified ∧ d.installed = c.installed ∧ d.schedClose = false := by
      rw [← hd]
      split
      · obtain ⟨a, b, e⟩ := hrecv c1
        rw [a, b, e]; exact h1
      · exact h1
    unfold Codec.eventEnd Codec.shouldClose at h
    rw [h2.2.2] at h
    simp only [Bool.false_and, Bool.not_false, Bool.and_true] at h
    subst h
    cases hx : (ok && !err) with
    | true => simp [h2.1, h2.2.1]
    | false => simp [Codec.close, Codec.notify, h2.1]

/-- Invariant of connections that only answer keep-alive requests and only receive parseable data. -/
structure KInv (c : Codec) : Prop where
  sched : c.schedClose = false
  once : c.notified = if c.closed then 1 else 0
  inst : c.installed = !c.closed

def KeepAliveOnly : COp → Prop
  | .respond _ k => k = true
  | .event _ _ _ _ _ ok => ok = true
  | _ => True

theorem step_kinv {c c' : Codec} {op : COp} (hk : KeepAliveOnly op) (i : KInv c)
    (h : c.step op = some c') : KInv c' := by
  obtain ⟨i1, i2, i3⟩ := i
  cases op with
  | event w r err ws rs ok =>
    cases (show ok = true from hk)
    simp only [Codec.step] at h
    split at h
    · rename_i hin
      have hcl : c.closed = false := by rw [i3] at hin; simpa using hin
      unfold Codec.handleEvent at h
      split at h
      · simp at h
      · rename_i c1 ok hrw
        have hw := evWrite_notified c w ws
        have h1 : c1.notified = c.notified ∧ c1.installed = c.installed ∧ c1.schedClose = false ∧
            c1.closed = c.closed := by
          unfold Codec.readWrite at hrw
          split at hrw
          · rename_i c2 he
            rw [he] at hw
            simp only [Option.some.injEq, Prod.mk.injEq] at hrw
            obtain ⟨rfl, rfl⟩ := hrw
            exact ⟨(hw.2 i1).1, (hw.2 i1).2.1, by rw [hw.1, i1], (hw.2 i1).2.2.1⟩
          · rename_i c2 he
            rw [he] at hw
            unfold Codec.evRead at hrw
            split at hrw
            · split at hrw
              · simp at hrw
              · simp only [Option.some.injEq, Prod.mk.injEq] at hrw
                obtain ⟨rfl, rfl⟩ := hrw
                exact ⟨(hw.2 i1).1, (hw.2 i1).2.1, by rw [← i1, ← hw.1], (hw.2 i1).2.2.1⟩
            · simp only [Option.some.injEq, Prod.mk.injEq] at hrw
              obtain ⟨rfl, rfl⟩ := hrw
              exact ⟨(hw.2 i1).1, (hw.2 i1).2.1, by rw [hw.1, i1], (hw.2 i1).2.2.1⟩
        simp only [Option.some.injEq] at h
        generalize hd : (if c1.ch.inb.canRead > 0 then httpRecv true c1 else c1) = d at h
        have h2 : d.notified = c.notified ∧ d.installed = c.installed ∧ d.schedClose = false ∧
            d.closed = c.closed := by
          rw [← hd]
          split
          · simpa [httpRecv] using h1
          · exact h1
        unfold Codec.eventEnd at h
        split at h
        · subst h; exact ⟨h2.2.2.1, by rw [h2.1, h2.2.2.2, i2], by rw [h2.2.1, h2.2.2.2, i3]⟩
        · subst h
          refine ⟨by simp [Codec.close, Codec.notify, h2.2.2.1], ?_, ?_⟩
          · simp [Codec.close, Codec.notify, h2.1, i2, hcl]
          · simp [Codec.close, Codec.notify]
    · simp only [Option.some.injEq] at h; subst h; exact ⟨i1, i2, i3⟩
  | respond bs k =>
    cases (show k = true from hk)
    simp only [Codec.step] at h
    split at h
    · simp only [Option.some.injEq] at h; subst h; exact ⟨i1, i2, i3⟩
    · unfold Codec.respond Codec.sendResponse at h
      cases he : c.ch.out.write bs with
      | none => rw [he] at h; simp at h
      | some o =>
        rw [he] at h
        simp only [if_true, Option.some.injEq] at h
        subst h
        exact ⟨by simp [i1], i2, i3⟩
  | flush ws =>
    simp only [Codec.step] at h
    split at h
    · simp only [Option.some.injEq] at h
      subst h
      unfold Codec.flushTask Codec.tryFlush Codec.finishSend
      simp only [i1]
      split <;> exact ⟨by simp, by simpa using i2, by simpa using i3⟩
    · simp only [Option.some.injEq] at h; subst h; exact ⟨i1, i2, i3⟩
  | arrive bs =>
    simp only [Codec.step, Option.some.injEq] at h
    subst h; exact ⟨i1, i2, i3⟩

/-- C40 (partial): for any history of events, responses and flushes in which every request is
keep-alive and all data parses, the owner has been told about the close exactly once if the
connection is closed and never if it is open. -/
theorem c40_keepalive_exactly_once_partial (ops : List COp) : ∀ (c c' : Codec), KInv c →
    (∀ op ∈ ops, KeepAliveOnly op) → c.run ops = some c' →
    c'.notified = if c'.closed then 1 else 0 := by
  induction ops with
  | nil => intro c c' i _ h; simp [Codec.run] at h; subst h; exact i.once
  | cons op ops ih =>
    intro c c' i hk h
    simp only [Codec.run] at h
    split at h
    · simp at h
    · rename_i c1 h1
      exact ih c1 c' (step_kinv (hk op (by simp)) i h1) (fun o ho => hk o (List.mem_cons_of_mem _ ho)) h

theorem kinv_init : KInv Codec.init := ⟨rfl, rfl, rfl⟩

/-- C40 witness: a keep-alive history with a response, a flush and an end of stream. -/
theorem c40_witness : ∃ c, Codec.init.run [.arrive [1], .event false true false [] [.data 0] true,
    .respond [7, 8] true, .flush [.ok 5], .event false true false [] [.eof] true] = some c ∧
    c.closed = true ∧ c.notified = 1 ∧ c.ch.sock = [7, 8] :=
  ⟨((Codec.init.run [.arrive [1], .event false true false [] [.data 0] true,
    .respond [7, 8] true, .flush [.ok 5], .event false true false [] [.eof] true]).getD Codec.init),
    by decide +kernel, by decide +kernel, by decide +kernel, by decide +kernel⟩

/-- C40 VIOLATION (every "Connection: close" answer): the owner is told twice — once by
`HttpRequestCtx::Response`, again when the posted flush drains the buffer. -/
theorem c40_violation_close_response : ∃ c,
    Codec.init.run [.respond [7, 8] false, .flush [.ok 5]] = some c ∧ c.notified = 2 :=
  ⟨(Codec.init.run [.respond [7, 8] false, .flush [.ok 5]]).getD Codec.init,
    by decide +kernel, by decide +kernel⟩

/-- C40 VIOLATION: a malformed request followed by end of stream in the same event notifies twice. -/
theorem c40_violation_parse_error_eof : ∃ c,
    Codec.init.run [.arrive [1], .event false true false [] [.data 0, .eof] false] = some c ∧
    c.notified = 2 :=
  ⟨(Codec.init.run [.arrive [1], .event false true false [] [.data 0, .eof] false]).getD Codec.init,
    by decide +kernel, by decide +kernel⟩

/-- C40 VIOLATION (any codec): a write event that drains the output of a connection scheduled to
close notifies twice within one `HandleEvent`. -/
theorem c40_violation_scheduled_drain : ∃ c c',
    Codec.init.sendResponse [7, 8] false = some c ∧ c.notified = 0 ∧ c.installed = true ∧
    c.handleEvent id true false false [.ok 5] [] = some c' ∧ c'.notified = 2 :=
  ⟨(Codec.init.sendResponse [7, 8] false).getD Codec.init,
    (((Codec.init.sendResponse [7, 8] false).getD Codec.init).handleEvent id true false false [.ok 5] []).getD Codec.init,
    by decide +kernel, by decide +kernel, by decide +kernel, by decide +kernel, by decide +kernel⟩

/-! ### C45: responses are delivered completely -/

/-- The response bytes the server accepted: those handed over while the connection was open. -/
def accepted (c : Codec) : List COp → List Byte
  | [] => []
  | op :: ops =>
    (match op with
      | .respond bs _ => if c.closed then [] else bs
      | _ => []) ++
    (match c.step op with
      | none => []
      | some c' => accepted c' ops)

theorem close_ch (c : Codec) (b : Bool) : (c.close b).ch = c.ch := by
  cases b <;> rfl

theorem finishSend_ch (c : Codec) : c.finishSend.ch = c.ch := by
  unfold Codec.finishSend; split
  · exact close_ch _ _
  · rfl

theorem evWrite_ch (c : Codec) (w : Bool) (ws : List WRes) :
    (c.evWrite w ws).1.ch = if w then (c.ch.handleWrite ws).1 else c.ch := by
  unfold Codec.evWrite
  split
  · split
    · rfl
    · split
      · rw [finishSend_ch]
      · rfl
  · rfl

theorem tryFlush_ch (c : Codec) (ws : List WRes) :
    (c.tryFlush ws).1.ch = (c.ch.handleWrite ws).1 := by
  unfold Codec.tryFlush
  split
  · rw [finishSend_ch]
  · rfl

theorem handleRead_spec (s : List RRes) (c : Chan) (h : c.inb.Inv) :
    ∃ c' rv, c.handleRead s = some (c', rv) ∧ c'.inb.Inv ∧ c'.out = c.out ∧ c'.sock = c.sock ∧
      c'.writing = c.writing := by
  obtain ⟨c', ok, e, j1, j2, j3, j4, j5, j6, _, j7, j8⟩ := readLoop_spec s c h
  unfold Chan.handleRead
  rw [e]
  cases ok
  · exact ⟨c', _, rfl, j1, j2, j3, j4⟩
  · exact ⟨c', _, rfl, j1, j2, j3, j4⟩

/-- C40: what makes an event end the connection: besides an error flag, an error of a write or a read, the end of the
stream, or two gigabytes in a buffer. -/
theorem c40_cause (c c1 : Codec) (w r : Bool) (ws : List WRes) (rs : List RRes) (hi : c.ch.inb.Inv) (ho : c.ch.out.Inv)
    (h : c.readWrite w r ws rs = some (c1, false)) :
    (w = true ∧ (WRes.err .other ∈ ws ∨ 2 ^ 31 ≤ c.ch.out.canRead)) ∨
    (r = true ∧ (RRes.eof ∈ rs ∨ RRes.err .other ∈ rs ∨ 2 ^ 31 ≤ c1.ch.inb.canRead)) := by
  have hw : (c.evWrite w ws).2 = false → w = true ∧ (WRes.err .other ∈ ws ∨ 2 ^ 31 ≤ c.ch.out.canRead) := by
    unfold Codec.evWrite
    split
    · rename_i hwt
      split
      · rename_i hn
        exact fun _ => ⟨hwt, (handleWrite_spec ws c.ch ho).2.2.2.2.2.1 hn⟩
      · split <;> (intro hh; cases hh)
    · intro hh; cases hh
  have hinb : (c.evWrite w ws).1.ch.inb = c.ch.inb := by
    unfold Codec.evWrite
    split
    · split
      · exact (handleWrite_spec ws c.ch ho).2.1
      · split
        · rw [finishSend_ch]; exact (handleWrite_spec ws c.ch ho).2.1
        · exact (handleWrite_spec ws c.ch ho).2.1
    · rfl
  unfold Codec.readWrite at h
  split at h
  · rename_i c2 he
    exact Or.inl (hw (by rw [he]))
  · rename_i c2 he
    have hi2 : c2.ch.inb.Inv := by rw [he] at hinb; rw [hinb]; exact hi
    unfold Codec.evRead at h
    split at h
    · rename_i hrt
      refine Or.inr ⟨hrt, ?_⟩
      obtain ⟨c', ok, e, _, _, _, _, _, _, _, _, j8⟩ := readLoop_spec rs c2.ch hi2
      unfold Chan.handleRead at h
      rw [e] at h
      cases ok with
      | false =>
        rcases j8 rfl with h | h
        · exact Or.inl h
        · exact Or.inr (Or.inl h)
      | true =>
        right; right
        simp only [Option.some.injEq, Prod.mk.injEq, decide_eq_false_iff_not] at h
        obtain ⟨rfl, h⟩ := h
        show 2 ^ 31 ≤ c'.inb.canRead
        by_contra hlt
        rw [toI32_of_lt (by omega)] at h
        omega
    · cases h

/-- Closing marks the codec closed and unregisters it, and tells the owner unless it was asked not to. -/
theorem close_spec (c : Codec) (block : Bool) : (c.close block).closed = true ∧ (c.close block).installed = false ∧
    (c.close block).notified = c.notified + (if block then 0 else 1) := by
  cases block <;> exact ⟨rfl, rfl, rfl⟩

/-- A flush with nothing to write changes nothing. -/
theorem tryFlush_empty (c : Codec) (ws : List WRes) (h : c.ch.out.canRead = 0) :
    (c.tryFlush ws).1.notified = c.notified ∧ (c.tryFlush ws).1.closed = c.closed ∧ (c.tryFlush ws).2 = true := by
  have e : (c.ch.handleWrite ws).2 = 0 := by unfold Chan.handleWrite; rw [if_pos h]
  unfold Codec.tryFlush
  rw [if_neg (by rw [e]; omega), e]
  exact ⟨rfl, rfl, rfl⟩

/-- The bytes in both buffers are well formed, and accepted bytes are never lost or reordered. -/
structure SInv (acc : List Byte) (c : Codec) : Prop where
  inInv : c.ch.inb.Inv
  outInv : c.ch.out.Inv
  acc : c.ch.sock ++ c.ch.out.asString = acc

theorem handleWrite_sinv {acc : List Byte} {c : Codec} (i : SInv acc c) (ws : List WRes) (d : Codec)
    (hd : d.ch = (c.ch.handleWrite ws).1) : SInv acc d := by
  obtain ⟨i1, i2, i3, i4, ⟨x, x1, x2, x3⟩, i6, i7⟩ := handleWrite_spec ws c.ch i.outInv
  refine ⟨by rw [hd, i2]; exact i.inInv, by rw [hd]; exact i1, ?_⟩
  rw [hd, x1, List.append_assoc, x2, i.acc]

theorem sinv_ch {acc : List Byte} {c d : Codec} (i : SInv acc c) (h : d.ch = c.ch) : SInv acc d :=
  ⟨by rw [h]; exact i.inInv, by rw [h]; exact i.outInv, by rw [h]; exact i.acc⟩

theorem evWrite_sinv {acc : List Byte} {c : Codec} (i : SInv acc c) (w : Bool) (ws : List WRes) :
    SInv acc (c.evWrite w ws).1 := by
  have h := evWrite_ch c w ws
  cases w
  · exact sinv_ch i (by simpa using h)
  · exact handleWrite_sinv i ws _ (by simpa using h)

theorem readWrite_sinv {acc : List Byte} {c : Codec} (i : SInv acc c) (w r : Bool) (ws : List WRes)
    (rs : List RRes) : ∃ c1 ok, c.readWrite w r ws rs = some (c1, ok) ∧ SInv acc c1 ∧
      c1.ch.writing = (c.evWrite w ws).1.ch.writing ∧ c1.ch.out = (c.evWrite w ws).1.ch.out := by
  have he := evWrite_sinv i w ws
  unfold Codec.readWrite
  generalize c.evWrite w ws = q at *
  obtain ⟨c1, ok⟩ := q
  cases ok with
  | false => exact ⟨c1, false, rfl, he, rfl, rfl⟩
  | true =>
    simp only
    unfold Codec.evRead
    cases r with
    | false => exact ⟨c1, true, rfl, he, rfl, rfl⟩
    | true =>
      obtain ⟨c', rv, e, j1, j2, j3, j4⟩ := handleRead_spec rs c1.ch he.inInv
      simp only [e, if_true]
      exact ⟨_, _, rfl, ⟨j1, by simp only; rw [j2]; exact he.outInv, by simp only; rw [j2, j3]; exact he.acc⟩, j4, j2⟩

theorem httpRecv_sinv {acc : List Byte} {c : Codec} (i : SInv acc c) (ok : Bool) :
    SInv acc (httpRecv ok c) := by
  unfold httpRecv
  split
  · exact ⟨consume_inv _ i.inInv _, i.outInv, i.acc⟩
  · exact ⟨consume_inv _ i.inInv _, i.outInv, i.acc⟩

theorem eventEnd_ch (c : Codec) (s e : Bool) : (c.eventEnd s e).ch = c.ch := by
  unfold Codec.eventEnd
  split
  · rfl
  · exact close_ch _ _

theorem step_sinv {acc : List Byte} {c : Codec} (i : SInv acc c) (op : COp) :
    ∃ c', c.step op = some c' ∧
      SInv (acc ++ (match op with
        | .respond bs _ => if c.closed then [] else bs
        | _ => [])) c' := by
  cases op with
  | event w r err ws rs ok =>
    simp only [Codec.step, List.append_nil]
    split
    · obtain ⟨c1, b, e, j, _⟩ := readWrite_sinv i w r ws rs
      unfold Codec.handleEvent
      rw [e]
      refine ⟨_, rfl, sinv_ch (c := if c1.ch.inb.canRead > 0 then httpRecv ok c1 else c1) ?_ (eventEnd_ch _ _ _)⟩
      split
      · exact httpRecv_sinv j ok
      · exact j
    · exact ⟨c, rfl, i⟩
  | respond bs k =>
    simp only [Codec.step]
    split
    · exact ⟨c, rfl, by simpa using i⟩
    · obtain ⟨o, e, io, ao⟩ := write_spec c.ch.out i.outInv bs
      unfold Codec.respond Codec.sendResponse
      rw [e]
      have hi : ∀ d : Codec, d.ch = { c.ch with out := o } → SInv (acc ++ bs) d := by
        intro d hd
        refine ⟨by rw [hd]; exact i.inInv, by rw [hd]; exact io, ?_⟩
        rw [hd]; simp only [ao]; rw [← List.append_assoc, i.acc]
      cases k
      · exact ⟨_, rfl, hi _ (by simp [close_ch])⟩
      · exact ⟨_, rfl, hi _ (by simp)⟩
  | flush ws =>
    simp only [Codec.step, List.append_nil]
    split
    · exact ⟨_, rfl, handleWrite_sinv i ws _ (tryFlush_ch c ws)⟩
    · exact ⟨c, rfl, i⟩
  | arrive bs =>
    simp only [Codec.step, List.append_nil]
    exact ⟨_, rfl, i.inInv, i.outInv, i.acc⟩

theorem run_sinv (ops : List COp) : ∀ (c : Codec) (acc : List Byte), SInv acc c →
    ∃ c', c.run ops = some c' ∧ SInv (acc ++ accepted c ops) c' := by
  induction ops with
  | nil => intro c acc i; exact ⟨c, rfl, by simpa [accepted] using i⟩
  | cons op ops ih =>
    intro c acc i
    obtain ⟨c1, e, j⟩ := step_sinv i op
    obtain ⟨c', e', j'⟩ := ih c1 _ j
    refine ⟨c', by simp only [Codec.run, e]; exact e', ?_⟩
    simp only [accepted, e]
    rw [← List.append_assoc]; exact j'

theorem sinv_init : SInv [] Codec.init :=
  ⟨init_inv, init_inv, by decide +kernel⟩

/-- C45 (safety half, every history including closing ones): no undefined behaviour; what the kernel
was given plus what is still buffered is exactly the accepted response bytes in order — nothing is
lost, duplicated, reordered or invented before the connection is dropped. -/
theorem c45_stream (ops : List COp) : ∃ c', Codec.init.run ops = some c' ∧
    c'.ch.sock ++ c'.ch.out.asString = accepted Codec.init ops := by
  obtain ⟨c', e, i⟩ := run_sinv ops _ _ sinv_init
  exact ⟨c', e, by simpa using i.acc⟩

theorem handleWrite_writing (ws : List WRes) (c : Chan) (h : c.out.Inv) (hn : WRes.err .other ∉ ws) :
    (c.handleWrite ws).1.out.canRead > 0 → (c.handleWrite ws).1.writing = true := by
  unfold Chan.handleWrite
  split
  · rename_i h0; intro hc; simp only at hc; omega
  · obtain ⟨i1, i2, i3, i4, i5, i6, i7⟩ := writeLoop_spec ws c 0 h
    generalize writeLoop ws c 0 = q at *
    obtain ⟨c', o⟩ := q
    cases o with
    | none => exact absurd (i6 rfl) hn
    | some t => simp only; intro hgt; simp; omega

/-- The socket never reports a fatal write error. -/
def NoWriteError : COp → Prop
  | .event _ _ _ ws _ _ => WRes.err .other ∉ ws
  | .flush ws => WRes.err .other ∉ ws
  | _ => True

/-- Whoever still has bytes to send will be called: a flush is posted, or the registered fd event
asks for writability. -/
def WInv (c : Codec) : Prop :=
  c.closed = false → c.ch.out.canRead > 0 → c.flushSched = true ∨ c.ch.writing = true

theorem step_winv {acc : List Byte} {c c' : Codec} {op : COp} (hk : KeepAliveOnly op) (hn : NoWriteError op)
    (i : KInv c) (s : SInv acc c) (wi : WInv c) (h : c.step op = some c') : WInv c' := by
  cases op with
  | event w r err ws rs ok =>
    cases (show ok = true from hk)
    simp only [Codec.step] at h
    split at h
    · rename_i hin
      have hcl : c.closed = false := by have := i.inst; rw [this] at hin; simpa using hin
      obtain ⟨c1, b, e, j, jw, jo⟩ := readWrite_sinv s w r ws rs
      have hfl := (evWrite_notified c w ws).2 i.sched
      unfold Codec.handleEvent at h
      rw [e] at h
      simp only [Option.some.injEq] at h
      have hc1f : c1.flushSched = c.flushSched := by
        unfold Codec.readWrite at e
        split at e
        · rename_i c2 he
          rw [he] at hfl
          simp only [Option.some.injEq, Prod.mk.injEq] at e
          rw [← e.1]; exact hfl.2.2.2
        · rename_i c2 he
          rw [he] at hfl
          unfold Codec.evRead at e
          split at e
          · split at e
            · simp at e
            · simp only [Option.some.injEq, Prod.mk.injEq] at e
              rw [← e.1]; exact hfl.2.2.2
          · simp only [Option.some.injEq, Prod.mk.injEq] at e
            rw [← e.1]; exact hfl.2.2.2
      have hw1 : c1.ch.out.canRead > 0 → c1.flushSched = true ∨ c1.ch.writing = true := by
        rw [jw, jo, hc1f]
        cases w with
        | false => exact wi hcl
        | true =>
          rw [evWrite_ch]
          intro hgt
          exact Or.inr (handleWrite_writing ws c.ch s.outInv hn hgt)
      generalize hd : (if c1.ch.inb.canRead > 0 then httpRecv true c1 else c1) = d at h
      have hwd : d.ch.out.canRead > 0 → d.flushSched = true ∨ d.ch.writing = true := by
        rw [← hd]
        split
        · simpa [httpRecv] using hw1
        · exact hw1
      unfold Codec.eventEnd at h
      split at h
      · subst h; intro _; exact hwd
      · subst h; intro hc; simp [Codec.close, Codec.notify] at hc
    · simp only [Option.some.injEq] at h; subst h; exact wi
  | respond bs k =>
    cases (show k = true from hk)
    simp only [Codec.step] at h
    split at h
    · simp only [Option.some.injEq] at h; subst h; exact wi
    · unfold Codec.respond Codec.sendResponse at h
      cases he : c.ch.out.write bs with
      | none => rw [he] at h; simp at h
      | some o =>
        rw [he] at h
        simp only [if_true, Option.some.injEq] at h
        subst h
        intro _ _; exact Or.inl rfl
  | flush ws =>
    simp only [Codec.step] at h
    split at h
    · simp only [Option.some.injEq] at h
      subst h
      intro _ hgt
      right
      have hch : (c.flushTask ws).ch = (c.ch.handleWrite ws).1 := tryFlush_ch c ws
      rw [hch] at hgt ⊢
      exact handleWrite_writing ws c.ch s.outInv hn hgt
    · simp only [Option.some.injEq] at h; subst h; exact wi
  | arrive bs =>
    simp only [Codec.step, Option.some.injEq] at h
    subst h; exact wi

theorem run_winv (ops : List COp) : ∀ (c c' : Codec) (acc : List Byte), KInv c → SInv acc c → WInv c →
    (∀ op ∈ ops, KeepAliveOnly op ∧ NoWriteError op) → c.run ops = some c' → WInv c' ∧ KInv c' := by
  induction ops with
  | nil => intro c c' acc i _ w _ h; simp [Codec.run] at h; subst h; exact ⟨w, i⟩
  | cons op ops ih =>
    intro c c' acc i s w hk h
    simp only [Codec.run] at h
    split at h
    · simp at h
    · rename_i c1 h1
      obtain ⟨c2, h2, s2⟩ := step_sinv s op
      rw [h1] at h2; simp only [Option.some.injEq] at h2; subst h2
      exact ih c1 c' _ (step_kinv (hk op (by simp)).1 i h1) s2
        (step_winv (hk op (by simp)).1 (hk op (by simp)).2 i s w h1)
        (fun o ho => hk o (List.mem_cons_of_mem _ ho)) h

/-- C45 (partial, liveness half): in every history whose responses are keep-alive and whose socket
does not fail, an open connection with undelivered response bytes is still going to send: a flush
task is posted, or the connection is registered for write events.  What is missing is the non
keep-alive case, which is false (`c45_violation_truncated`). -/
theorem c45_will_send_partial (ops : List COp) (c' : Codec)
    (hk : ∀ op ∈ ops, KeepAliveOnly op ∧ NoWriteError op)
    (h : Codec.init.run ops = some c') (ho : c'.closed = false) (hp : c'.ch.out.asString ≠ []) :
    c'.flushSched = true ∨ (c'.installed = true ∧ c'.ch.writing = true) := by
  obtain ⟨w, k⟩ := run_winv ops _ c' [] kinv_init sinv_init (fun _ hh => absurd hh (by decide +kernel)) hk h
  obtain ⟨c2, e, i⟩ := run_sinv ops _ _ sinv_init
  rw [h] at e; simp only [Option.some.injEq] at e; subst e
  have hgt : c'.ch.out.canRead > 0 := by
    rw [← asString_length _ i.outInv]; exact List.length_pos_iff.2 hp
  rcases w ho hgt with a | a
  · exact Or.inl a
  · exact Or.inr ⟨by rw [k.inst, ho]; rfl, a⟩

/-- C45 (partial): and when that flush runs (or the write event fires) and the socket takes the
bytes, everything accepted so far has been delivered, in order. -/
theorem c45_delivered_partial (ops : List COp) (c c' : Codec) (ws : List WRes)
    (hr : Codec.init.run ops = some c) (hf : c.flushSched = true)
    (hok : ∀ w ∈ ws, ∃ n, w = .ok n) (hlen : c.ch.out.asString.length ≤ ws.length)
    (h : c.step (.flush ws) = some c') : c'.ch.sock = accepted Codec.init ops := by
  obtain ⟨c2, e, i⟩ := run_sinv ops _ _ sinv_init
  rw [hr] at e; simp only [Option.some.injEq] at e; subst e
  simp only [Codec.step, hf, if_true, Option.some.injEq] at h
  subst h
  have hch : (c.flushTask ws).ch = (c.ch.handleWrite ws).1 := tryFlush_ch c ws
  have hs := handleWrite_sinv i ws (c.flushTask ws) hch
  have h0 : (c.ch.handleWrite ws).1.out.canRead = 0 := by
    unfold Chan.handleWrite
    split
    · assumption
    · obtain ⟨d1, d2⟩ := writeLoop_drains ws c.ch 0 i.outInv hok (by rw [← asString_length _ i.outInv]; exact hlen)
      generalize writeLoop ws c.ch 0 = q at *
      obtain ⟨q1, q2⟩ := q
      cases q2 <;> simp_all
  have hnil : (c.flushTask ws).ch.out.asString = [] :=
    List.eq_nil_of_length_eq_zero (by rw [asString_length _ hs.outInv, hch, h0])
  have := hs.acc
  rw [hnil] at this
  simpa using this

/-- C45 VIOLATION: a "Connection: close" response that the socket cannot take in one go is truncated:
after the flush task hit EAGAIN nothing that can still happen delivers the rest, because the fd event
was already removed. -/
theorem c45_violation_truncated (rest : List COp) :
    ∃ c c', Codec.init.run [.respond [7, 8, 9] false, .flush [.ok 0, .err .again]] = some c ∧
      c.run rest = some c' ∧ c'.ch.sock = [7] ∧ c'.ch.out.asString = [8, 9] := by
  let c0 := (Codec.init.run [.respond [7, 8, 9] false, .flush [.ok 0, .err .again]]).getD Codec.init
  refine ⟨c0, ?_⟩
  have hall : ∀ (l : List COp) (c : Codec), c.installed = false → c.closed = true → c.flushSched = false →
      ∃ c', c.run l = some c' ∧ c'.ch.sock = c.ch.sock ∧ c'.ch.out = c.ch.out := by
    intro l
    induction l with
    | nil => intro c _ _ _; exact ⟨c, rfl, rfl, rfl⟩
    | cons op l ih =>
      intro c h1 h2 h3
      cases op with
      | event w r e ws rs ok =>
        simp only [Codec.run, Codec.step, h1]
        exact ih c h1 h2 h3
      | respond bs k =>
        simp only [Codec.run, Codec.step, h2, if_true]
        exact ih c h1 h2 h3
      | flush ws =>
        simp only [Codec.run, Codec.step, h3]
        exact ih c h1 h2 h3
      | arrive bs =>
        simp only [Codec.run, Codec.step]
        exact ih _ h1 h2 h3
  obtain ⟨c', r1, r2, r3⟩ := hall rest c0 (by decide +kernel) (by decide +kernel) (by decide +kernel)
  refine ⟨c', by decide +kernel, r1, ?_, ?_⟩
  · rw [r2]; decide +kernel
  · rw [r3]; decide +kernel

end Ltio.Net
