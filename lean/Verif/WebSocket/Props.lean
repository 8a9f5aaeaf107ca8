import Verif.WebSocket.Service
/-
Properties C03-C07, C39, C40 (WebSocket framing and message assembly).
-/
namespace Ltio.WebSocket

/-- Parser states that occur while serving a connection: reached from `websocket_parser_init` by
some sequence of reads. -/
def Reachable (p : Parser) : Prop := ∃ chunks evs, execChunks Parser.init chunks = some (p, evs)

theorem Reachable.inv {p : Parser} (h : Reachable p) : p.Inv := by
  obtain ⟨chunks, evs, h⟩ := h
  have := execChunks_flat init_inv chunks
  rw [h] at this
  exact execF_inv init_inv _ this.symm

/-- **C03.** Feeding a built frame to a parser that is between frames reports exactly one frame
with the same opcode, FIN and mask flags and the original (unmasked) payload, consumes everything
and leaves the parser between frames. -/
theorem c03_build_parse_roundtrip (p : Parser) (hp : Reachable p) (hs : p.state = .start)
    (op : Byte) (hop : op.toNat < 16) (fin : Bool) (f : Frag) (hf : f.Ok) :
    ∃ (q : Parser) (evs : List Event) (fl : Byte),
      exec p (wireFrame op fin f) = some (q, evs) ∧ q.state = .start ∧
      flatten evs = .header fl f.payload.length :: f.payload.map .byte ++ [.frameEnd fl] ∧
      fl &&& 0x0F = op ∧ (fl &&& 0x10 ≠ 0 ↔ fin = true) ∧ (fl &&& 0x20 ≠ 0 ↔ f.mask.isSome = true) := by
  have hm : (f.mask.getD [0,0,0,0]).length = 4 := by
    cases h : f.mask with
    | none => rfl
    | some m => exact hf.1 m (by simp [h])
  obtain ⟨q, q1, q2, q3⟩ := execF_build hp.inv hs op hop f.mask.isSome fin
    (f.mask.getD [0,0,0,0]) hm f.payload hf.2
  unfold execF at q3
  rw [Option.map_eq_some_iff] at q3
  obtain ⟨⟨q', evs⟩, h1, h2⟩ := q3
  simp only [Prod.mk.injEq] at h2
  obtain ⟨rfl, h2⟩ := h2
  have hfb := flag_bits op hop fin f.mask.isSome
  exact ⟨q', evs, _, h1, q1, h2, hfb.2.2.2, hfb.2.2.1, hfb.2.1⟩

/-- **C03, streams.** Any number of frames back to back is parsed into exactly those frames, for
every chunking of the byte stream. -/
theorem c03_stream_roundtrip (fs : List (Byte × Bool × Frag))
    (hok : ∀ x ∈ fs, x.1.toNat < 16 ∧ x.2.2.Ok) (chunks : List (List Byte))
    (hc : chunks.flatten = fs.flatMap (fun x => wireFrame x.1 x.2.1 x.2.2)) :
    ∃ (q : Parser) (evs : List Event), execChunks Parser.init chunks = some (q, evs) ∧ q.state = .start ∧
      flatten evs = fs.flatMap (fun x =>
        .header (mkFlags x.1 x.2.2.mask.isSome x.2.1) x.2.2.payload.length ::
          x.2.2.payload.map .byte ++ [.frameEnd (mkFlags x.1 x.2.2.mask.isSome x.2.1)]) := by
  obtain ⟨q, q1, q2, q3⟩ := execF_frames init_inv rfl (fs.map (fun x => (⟨x.1, x.2.1, x.2.2⟩ : Fr)))
    (by intro y hy; rw [List.mem_map] at hy; obtain ⟨x, h, rfl⟩ := hy; exact hok _ h)
  have hw : (fs.map (fun x => (⟨x.1, x.2.1, x.2.2⟩ : Fr))).flatMap Fr.wire = chunks.flatten := by
    rw [hc, List.flatMap_map]; rfl
  rw [hw, ← execChunks_flat init_inv, Option.map_eq_some_iff] at q3
  obtain ⟨⟨q', evs⟩, h1, h2⟩ := q3
  simp only [Prod.mk.injEq] at h2
  obtain ⟨rfl, h2⟩ := h2
  exact ⟨q', evs, h1, q1, by rw [h2, List.flatMap_map]; rfl⟩

/-- **C04.** Two deliveries of the same byte stream in different chunks are observably equal:
same final parser state, same headers, same payload bytes, same frame ends in the same order --
including whether undefined behaviour is reached. -/
theorem c04_chunking_independent (p : Parser) (hp : Reachable p) (chunks₁ chunks₂ : List (List Byte))
    (h : chunks₁.flatten = chunks₂.flatten) :
    (execChunks p chunks₁).map (fun r => (r.1, flatten r.2)) =
    (execChunks p chunks₂).map (fun r => (r.1, flatten r.2)) := by
  rw [execChunks_flat hp.inv, execChunks_flat hp.inv, h]

/-- **C04 at the service level.** What the application sees (delivered messages, pongs, close) does
not depend on the chunking. -/
theorem c04_service_chunking_independent (p : Parser) (hp : Reachable p) (cur : Cur)
    (chunks₁ chunks₂ : List (List Byte)) (h : chunks₁.flatten = chunks₂.flatten) :
    receive p cur chunks₁ = receive p cur chunks₂ := by
  rw [receive_eq hp.inv, receive_eq hp.inv, h]

/-- **C05.** The precomputed frame size, the builder's return value and the number of bytes written
agree for every payload and every flags word. -/
theorem c05_frame_size (flags : Byte) (mask : List Byte) (hm : mask.length = 4) (data : List Byte) :
    (buildFrame flags mask data).length = calcFrameSize flags data.length ∧
    buildFrameRet flags data.length = calcFrameSize flags data.length := by
  have hl : ∀ (b : Byte) (n : Nat), (orHead b (lengthBytes n)).length =
      if n < 126 then 1 else if n ≤ 0xFFFF then 3 else 9 := by
    intro b n; unfold lengthBytes; split
    · rfl
    · split <;> rfl
  unfold calcFrameSize buildFrame buildFrameRet
  simp only
  constructor
  · by_cases hk : flags &&& WS_HAS_MASK ≠ 0
    · simp only [if_pos hk, List.length_append, List.length_cons, hl, hm, decode_length]
      (repeat' split) <;> omega
    · simp only [if_neg hk, List.length_append, List.length_cons, hl]
      (repeat' split) <;> omega
  · (repeat' split) <;> omega

/-- **C05 at the send path (partial).** `CalculateFrameSize` on the `int`-converted payload size is
the true frame size whenever the payload is below 2^31 - 14 bytes. Missing: larger payloads, for
which the conversion to `int` loses the size, see `c05_send_path_violated`. -/
theorem c05_send_path_partial (n : Nat) (hn : n + 14 < 2^31) (hasMask : Bool) :
    utilCalcFrameSize (toCInt n) hasMask =
      some (calcFrameSize (mkFlags WS_OP_TEXT hasMask true) n) := by
  have hc : toCInt n = n := by
    unfold toCInt
    rw [BitVec.toInt_eq_toNat_of_lt]
    · simp; omega
    · simp; omega
  have hmk : (mkFlags WS_OP_TEXT hasMask true &&& WS_HAS_MASK ≠ 0) = (hasMask = true) := by
    cases hasMask <;> decide
  unfold utilCalcFrameSize calcFrameSize
  rw [hc]
  simp only [hmk]
  simp only [ge_iff_le, gt_iff_lt]
  (repeat' split) <;> simp <;> omega

/-- **C05, violation.** A 4 GiB + 5 byte payload is announced and sent as a 5-byte one (silent
truncation), and a 2 GiB payload yields a negative size: the space reserved does not cover it. -/
theorem c05_send_path_violated :
    utilCalcFrameSize (toCInt (2^32 + 5)) false = some 7 ∧
    calcFrameSize (mkFlags WS_OP_TEXT false true) (2^32 + 5) ≠ 7 ∧
    (∃ v, utilCalcFrameSize (toCInt (2^31)) false = some v ∧ v < 0) := by
  refine ⟨by decide, by decide, ⟨-2147483646, by decide, by decide⟩⟩

/-- **C06.** Unmasking undoes masking, for every mask, offset and payload. -/
theorem c06_mask_involution (mask : List Byte) (off : Nat) (data : List Byte) :
    (decode mask off (decode mask off data).1).1 = data := decode_decode mask off data

/-- Streamed unmasking: each body callback decodes its chunk, carrying the offset. -/
def decodeChunks (mask : List Byte) : Nat → List (List Byte) → List Byte
  | _, [] => []
  | off, ch :: chs => (decode mask off ch).1 ++ decodeChunks mask (decode mask off ch).2 chs

/-- **C06.** Unmasking a masked payload chunk by chunk gives the original payload, for every
partition of the masked bytes. -/
theorem c06_streamed_unmask (mask data : List Byte) (chunks : List (List Byte))
    (h : chunks.flatten = (decode mask 0 data).1) : decodeChunks mask 0 chunks = data := by
  have key : ∀ (chs : List (List Byte)) (off : Nat), off < 4 →
      decodeChunks mask off chs = (decode mask off chs.flatten).1 := by
    intro chs
    induction chs with
    | nil => intro off _; simp [decodeChunks, decode_nil]
    | cons ch chs ih =>
      intro off ho
      rw [List.flatten_cons, decode_append]
      simp only [decodeChunks]
      rw [ih _ (by simp only [decode]; omega)]
  rw [key chunks 0 (by omega), h, decode_decode]

/-- **C06.** Byte `i` of the payload is combined with mask byte `i mod 4` (RFC 6455 5.3). -/
theorem c06_mask_rfc (mask data : List Byte) (i : Nat) (hi : i < data.length) :
    (decode mask 0 data).1[i]? = some (data[i] ^^^ mask.getD (i % 4) 0) := by
  simp [decode, List.getElem?_mapIdx, List.getElem?_eq_getElem hi]

/-- **C07 (partial).** For every list of messages, every fragmentation of each, every masking and
every chunking of the stream, the service delivers exactly those messages, in order, each with its
opcode and full payload (a pong is sent for a ping). Missing: control frames interleaved *between
the fragments* of one message, which the code gets wrong (`c07_interleaved_control_violated`), and
CLOSE frames. -/
theorem c07_messages_reassembled_partial (msgs : List Sent) (hok : ∀ m ∈ msgs, m.Ok)
    (chunks : List (List Byte)) (hc : chunks.flatten = msgs.flatMap Sent.wire) :
    ∃ q : Parser, q.state = .start ∧ receive Parser.init none chunks = some (q, none,
      msgs.flatMap (fun m =>
        (if m.op = WS_OP_PING then [Out.sendPong] else []) ++ [Out.deliver ⟨m.op, m.payload⟩])) := by
  have hw : chunks.flatten = (msgs.flatMap Sent.frames).flatMap Fr.wire := by
    rw [hc, List.flatMap_assoc]; congr 1; funext m; exact wire_eq m
  have hokf : ∀ x ∈ msgs.flatMap Sent.frames, x.Ok := by
    intro x hx; rw [List.mem_flatMap] at hx
    obtain ⟨m, hm, hx⟩ := hx; exact frames_ok m (hok m hm) x hx
  obtain ⟨q, q1, q2, q3⟩ := receive_frames init_inv rfl none _ hokf chunks hw
  refine ⟨q, q1, ?_⟩
  have key : onFs none ((msgs.flatMap Sent.frames).flatMap Fr.events) = some (none,
      msgs.flatMap (fun m =>
        (if m.op = WS_OP_PING then [Out.sendPong] else []) ++ [Out.deliver ⟨m.op, m.payload⟩])) := by
    clear hc hw hokf q3
    induction msgs with
    | nil => rfl
    | cons m ms ih =>
      rw [List.flatMap_cons, List.flatMap_append, onFs_append, onFs_sent m (hok m (by simp)),
        ]
      simp only [ih (fun x hx => hok x (by simp [hx])), List.flatMap_cons]
      congr 2
      simp only [commitOuts]; split <;> simp
  rw [q3, key]

/-- **C07, violation.** Whenever a ping arrives between two fragments of a text message, the
application is handed a bogus PING message containing the first fragment, and the second fragment
as a separate TEXT message; the message that was sent is never delivered. This holds for every
payload. -/
theorem c07_interleaved_control_violated (a ping b : Frag) (ha : a.Ok) (hp : ping.Ok) (hb : b.Ok) :
    ∃ q, receive Parser.init none
        [wireFrame WS_OP_TEXT false a ++ wireFrame WS_OP_PING true ping ++
          wireFrame WS_OP_CONTINUE true b] =
      some (q, none, [.sendPong, .deliver ⟨WS_OP_PING, a.payload ++ ping.payload⟩,
        .deliver ⟨WS_OP_TEXT, b.payload⟩]) := by
  obtain ⟨q, q1, q2, q3⟩ := receive_frames init_inv rfl none
    [⟨WS_OP_TEXT, false, a⟩, ⟨WS_OP_PING, true, ping⟩, ⟨WS_OP_CONTINUE, true, b⟩]
    (by
      intro x hx; simp at hx
      rcases hx with rfl | rfl | rfl
      · exact ⟨show (1:UInt8).toNat < 16 by decide, ha⟩
      · exact ⟨show (9:UInt8).toNat < 16 by decide, hp⟩
      · exact ⟨show (0:UInt8).toNat < 16 by decide, hb⟩)
    [wireFrame WS_OP_TEXT false a ++ wireFrame WS_OP_PING true ping ++
          wireFrame WS_OP_CONTINUE true b] (by simp [Fr.wire])
  refine ⟨q, ?_⟩
  rw [q3]
  simp only [List.flatMap_cons, List.flatMap_nil, List.append_nil, Fr.events]
  rw [onFs_append, onFs_frame _ _ (by decide)]
  simp only [Bool.false_eq_true, if_false]
  rw [onFs_append, onFs_frame _ _ (by decide)]
  simp only [Option.getD_some, Option.getD_none]
  simp [WS_OP_CONTINUE, WS_OP_TEXT, WS_OP_PING, WS_OP_CLOSE]
  rw [onFs_frame _ _ (by decide)]
  simp [WS_OP_CONTINUE, WS_OP_TEXT, WS_OP_PING, WS_OP_CLOSE]

/-- A close frame makes the service answer with a close frame and close, delivering nothing. -/
theorem c07_close (f : Frag) (hf : f.Ok) (chunks : List (List Byte))
    (hc : chunks.flatten = wireFrame WS_OP_CLOSE true f) :
    ∃ q c, receive Parser.init none chunks = some (q, c, [.sendClose, .closeService]) := by
  obtain ⟨q, q1, q2, q3⟩ := receive_frames init_inv rfl none [⟨WS_OP_CLOSE, true, f⟩]
    (by intro x hx; simp at hx; subst hx; exact ⟨show (8:UInt8).toNat < 16 by decide, hf⟩)
    chunks (by simp [Fr.wire, hc])
  refine ⟨q, some ⟨WS_OP_CLOSE, f.payload⟩, ?_⟩
  rw [q3]
  simp only [List.flatMap_cons, List.flatMap_nil, List.append_nil, Fr.events]
  rw [onFs_frame _ _ (by decide)]
  simp [WS_OP_CONTINUE, WS_OP_CLOSE]

/-- **C39 (violation).** A peer can drive the parser into undefined behaviour: a 64-bit length with
the top bit set, followed by one payload byte. -/
theorem c39_hostile_length_ub (p : Parser) (hp : Reachable p) (hs : p.state = .start) (b : Byte) :
    exec p [0x82, 127, 0x80, 0, 0, 0, 0, 0, 0, 0, b] = none := by
  have h : execF p [0x82, 127, 0x80, 0, 0, 0, 0, 0, 0, 0, b] = none := by
    rw [execF_cons_start hs]
    generalize hp1 : ({ p with
      length := 0, maskOffset := 0, flags := _, state := .head } : Parser) = p1
    have h1s : p1.state = .head := by rw [← hp1]
    have h1f : p1.flags = 0x12 := by rw [← hp1]; rfl
    rw [execF_head_long h1s _ _ (by decide)]
    have e := execF_len_aux (p := { p1 with require := 8, length := 0, state := .length, flags := 0x12 })
      rfl rfl [0x80, 0, 0, 0, 0, 0, 0, 0] [b] rfl (by simp) (by decide) (2^63) (by decide)
    have hsame : ({ p1 with
        require := if ((127:Byte) &&& 0x7F).toNat = 127 then 8 else 2, length := 0, state := .length,
        flags := p1.flags ||| (if (127:Byte) &&& 0x80 ≠ 0 then WS_HAS_MASK else 0) } : Parser) =
        { p1 with require := 8, length := 0, state := .length, flags := 0x12 } := by
      rw [h1f]; rfl
    rw [hsame]
    refine Eq.trans (show _ = _ from e) ?_
    have hal : afterLength ({ p1 with require := 0, length := 2^63, state := .length, flags := 0x12 } : Parser) =
        (({ p1 with require := 2^63, length := 2^63, state := .body, flags := 0x12 } : Parser),
          [.header 0x12 (2^63)]) := by
      unfold afterLength enterBody
      rw [if_neg (show ¬ ((0x12:Byte) &&& WS_HAS_MASK ≠ 0) by decide), if_pos (by simp)]
    rw [hal]
    have : execF ({ p1 with require := 2^63, length := 2^63, state := .body, flags := 0x12 } : Parser) [b] = none := by
      apply execF_cons_none
      simp [iter]
    rw [this]; rfl
  unfold execF at h
  simpa using h


/-- **C39 (partial).** The announced 64-bit length is the only way to undefined behaviour: if a
delivery from the initial state is undefined, then some prefix of it was parsed to a header
announcing at least 2^63 bytes. Missing: the parser rejecting such lengths (it does not). -/
theorem c39_only_hostile_length_partial (l : List Byte) (h : exec Parser.init l = none) :
    ∃ a b q evs f n, l = a ++ b ∧ exec Parser.init a = some (q, evs) ∧ .header f n ∈ evs ∧ 2^63 ≤ n := by
  have key : ∀ (l : List Byte) (p : Parser) (pre : List FEvent), p.Inv →
      (p.state = .body → ∃ f n, FEvent.header f n ∈ pre ∧ p.require ≤ n) → execF p l = none →
      ∃ a b q e f n, l = a ++ b ∧ execF p a = some (q, e) ∧ FEvent.header f n ∈ pre ++ e ∧ 2^63 ≤ n := by
    intro l
    induction l with
    | nil => intro p pre _ _ hn; rw [execF_nil] at hn; simp at hn
    | cons c cs ih =>
      intro p pre hi hb hn
      cases h1 : execF p [c] with
      | none =>
        obtain ⟨hs, hr⟩ := execF_single_none hi c h1
        obtain ⟨f, n, hm, hle⟩ := hb hs
        exact ⟨[], c :: cs, p, [], f, n, rfl, execF_nil p, by simpa using hm, by omega⟩
      | some r =>
        obtain ⟨p1, e1⟩ := r
        have hi1 := execF_single_inv hi c h1
        rw [execF_cons hi, h1] at hn
        simp only [seqF, Option.map_eq_none_iff] at hn
        obtain ⟨a, b, q, e, f, n, e1', e2, e3, e4⟩ := ih p1 (pre ++ e1) hi1 (by
          intro hs
          rcases execF_single_body hi c h1 hs with ⟨h3, h4⟩ | ⟨f, n, h3, h4⟩
          · obtain ⟨f, n, hm, hle⟩ := hb h3
            exact ⟨f, n, by simp [hm], by omega⟩
          · exact ⟨f, n, by simp [h3], h4⟩) hn
        refine ⟨c :: a, b, q, e1 ++ e, f, n, by simp [e1'], ?_, by simpa using e3, e4⟩
        rw [execF_cons hi, h1]
        simp [seqF, e2]
  have hF : execF Parser.init l = none := by simp [execF, h]
  obtain ⟨a, b, q, e, f, n, h1, h2, h3, h4⟩ := key l Parser.init [] init_inv (by simp [Parser.init]) hF
  unfold execF at h2
  rw [Option.map_eq_some_iff] at h2
  obtain ⟨⟨q', evs⟩, h5, h6⟩ := h2
  simp only [Prod.mk.injEq] at h6
  obtain ⟨rfl, rfl⟩ := h6
  refine ⟨a, b, q', evs, f, n, h1, h5, ?_, h4⟩
  simp only [List.nil_append, flatten, List.mem_flatMap] at h3
  obtain ⟨ev, hev, hm⟩ := h3
  cases ev with
  | header f' n' => simp [flatten1] at hm; obtain ⟨rfl, rfl⟩ := hm; exact hev
  | body bs => simp [flatten1] at hm
  | frameEnd f' => simp [flatten1] at hm

/-! ### Non-vacuity -/
example : Reachable Parser.init ∧ Parser.init.state = .start :=
  ⟨⟨[], [], rfl⟩, rfl⟩
example : Frag.Ok ⟨[104, 105], some [1,2,3,4]⟩ := by constructor <;> simp
example : Sent.Ok ⟨WS_OP_TEXT, ⟨[104], none⟩, [⟨[105], some [9,9,9,9]⟩]⟩ := by
  refine ⟨by decide, by decide, by decide, by simp [Frag.Ok], by simp [Frag.Ok]⟩
example : wireFrame WS_OP_TEXT true ⟨[104, 105], some [1,2,3,4]⟩ =
    [0x81, 0x82, 1, 2, 3, 4, 105, 107] := by decide
example : wireFrame WS_OP_BINARY false ⟨[7], none⟩ = [0x02, 0x01, 7] := by decide

end Ltio.WebSocket
