import Verif.Raw.Spec
/- Properties C08, C09. -/
namespace Ltio.Raw
open Ltio.Stream

theorem Built.pad6 {m : Msg} (h : Built m) : m.pad.length = 6 := by
  induction h <;> simp_all [Msg.create, Msg.createResponse, Msg.setContent, Msg.appendContent, Msg.asHeartbeat]

theorem Built.size {m : Msg} (h : Built m) : m.contentSize = UInt64.ofNat m.content.length := by
  induction h <;> simp_all [Msg.create, Msg.createResponse, Msg.setContent, Msg.appendContent, Msg.asHeartbeat]

/-- header (24 bytes) of the wire form -/
theorem wire_length {m : Msg} (hp : m.pad.length = 6) : (wire m).length = 24 + m.content.length := by
  simp [wire, hp]; omega

theorem headerBytes_length {m : Msg} (hp : m.pad.length = 6) : m.headerBytes.length = 24 := by
  simp [Msg.headerBytes, hp]

theorem le8 (x : UInt64) : UInt64.ofNat (leVal (leBytes 8 x.toNat)) = x := by
  rw [leVal_leBytes 8 _ (by have := x.toNat_lt; simpa using this)]; simp

theorem readHeader_headerBytes {m : Msg} (hp : m.pad.length = 6) (x : List Byte) :
    readHeader (m.headerBytes ++ x) = { m with content := [] } := by
  obtain ⟨code, method, cs, seq, pad, content⟩ := m
  simp only at hp
  match pad, hp with
  | [p0,p1,p2,p3,p4,p5], _ =>
    have e1 := le8 cs
    have e2 := le8 seq
    simp only [leBytes] at e1 e2
    simp only [readHeader, Msg.headerBytes, leBytes, List.cons_append, List.nil_append, List.append_assoc,
      List.drop_succ_cons, List.drop_zero, List.take_succ_cons, List.take_zero, List.getD_cons_zero,
      List.getD_cons_succ, e1, e2]

theorem wire_eq {m : Msg} (hs : m.contentSize.toNat = m.content.length) :
    wire m = m.headerBytes ++ m.content := by
  simp [wire, Msg.headerBytes, hs]

theorem decode_wire {m : Msg} (hp : m.pad.length = 6) (hs : m.contentSize = UInt64.ofNat m.content.length)
    (hl : m.content.length < 2^31) (x : List Byte) : decode (wire m ++ x) = .out m x := by
  have hs' : m.contentSize.toNat = m.content.length := by
    rw [hs, UInt64.toNat_ofNat', Nat.mod_eq_of_lt (by omega)]
  rw [wire_eq hs', List.append_assoc]
  have hh := readHeader_headerBytes hp (m.content ++ x)
  unfold decode decodeBody
  simp only [hh]
  have hlen : (m.headerBytes ++ (m.content ++ x)).length = 24 + m.content.length + x.length := by
    simp [headerBytes_length hp]; omega
  have hd : (m.headerBytes ++ (m.content ++ x)).drop kHeaderSize = m.content ++ x := by
    rw [List.drop_append_of_le_length (by simp [headerBytes_length hp, kHeaderSize])]
    simp [List.drop_eq_nil_of_le, headerBytes_length hp, kHeaderSize]
  have hw : (m.contentSize + UInt64.ofNat kHeaderSize).toNat = m.content.length + 24 := by
    rw [UInt64.toNat_add, hs']; simp [kHeaderSize]; omega
  rw [hlen, hd, hw]
  rw [if_neg (by simp [kHeaderSize]; omega), if_neg (by omega)]
  rw [hs']
  by_cases h0 : m.content.length > 0
  · rw [if_pos h0, if_neg (by simp [stringMax]; omega)]
    simp [Msg.appendContent, ← hs]
  · rw [if_neg h0]
    have : m.content = [] := by simpa using h0
    obtain ⟨code, method, cs, seq, pad, content⟩ := m
    simp_all

theorem decode_prefix_more {m : Msg} (hp : m.pad.length = 6)
    (hs : m.contentSize = UInt64.ofNat m.content.length)
    (hl : m.content.length < 2^31) (t u : List Byte) (ht : t ++ u = wire m) (hu : u ≠ []) :
    decode t = .more := by
  have hul : 0 < u.length := List.length_pos_iff.2 hu
  have hs' : m.contentSize.toNat = m.content.length := by
    rw [hs, UInt64.toNat_ofNat', Nat.mod_eq_of_lt (by omega)]
  have hlt : t.length + u.length = 24 + m.content.length := by
    rw [← List.length_append, ht, wire_length hp]
  unfold decode decodeBody
  by_cases h24 : t.length < kHeaderSize
  · rw [if_pos h24]
  · rw [if_neg h24]
    have h24' : 24 ≤ t.length := by simpa [kHeaderSize] using h24
    have : t = m.headerBytes ++ t.drop 24 := by
      have h1 : t.take 24 = m.headerBytes := by
        have : (t ++ u).take 24 = t.take 24 := List.take_append_of_le_length h24'
        rw [← this, ht, wire_eq hs', List.take_append_of_le_length (by rw [headerBytes_length hp]; exact Nat.le_refl _)]
        simp [List.take_of_length_le, headerBytes_length hp]
      rw [← h1, List.take_append_drop]
    have hh : readHeader t = { m with content := [] } := by
      rw [this]; exact readHeader_headerBytes hp _
    simp only [hh]
    rw [if_pos]
    rw [UInt64.toNat_add, hs']; simp [kHeaderSize]; omega

theorem readHeader_append {b : List Byte} (h : 24 ≤ b.length) (x : List Byte) :
    readHeader (b ++ x) = readHeader b := by
  unfold readHeader
  have e1 : ∀ n k, n + k ≤ 24 → ((b ++ x).drop n).take k = (b.drop n).take k := by
    intro n k hk
    rw [List.drop_append_of_le_length (by omega), List.take_append_of_le_length (by simp; omega)]
  simp only [Msg.mk.injEq]
  refine ⟨?_, ?_, ?_, ?_, ?_, trivial⟩
  · rw [List.getD_eq_getElem?_getD, List.getElem?_append_left (by omega), List.getD_eq_getElem?_getD]
  · rw [List.getD_eq_getElem?_getD, List.getElem?_append_left (by omega), List.getD_eq_getElem?_getD]
  · rw [e1 8 8 (by omega)]
  · rw [e1 16 8 (by omega)]
  · rw [e1 2 6 (by omega)]

theorem decoder_stable : decoder.Stable := by
  constructor
  · intro b e r x h
    simp only [decoder] at *
    unfold decode decodeBody at *
    have hk : kHeaderSize = 24 := rfl
    split at h
    · simp at h
    · rename_i h24
      rw [if_neg (by simp only [List.length_append]; omega), readHeader_append (by omega)]
      split at h
      · simp at h
      · rename_i hf
        rw [if_neg (by simp only [List.length_append]; omega)]
        rw [List.drop_append_of_le_length (by omega)]
        split at h
        · rename_i hb
          split at h
          · simp at h
          · rename_i hc
            simp only [Res.out.injEq] at h
            obtain ⟨rfl, rfl⟩ := h
            rw [if_pos hb, if_neg (by simp only [List.length_append, List.length_drop] at *; omega)]
            simp only [List.length_drop] at hc
            rw [List.take_append_of_le_length (by simp only [List.length_drop]; omega),
              List.drop_append_of_le_length (by simp only [List.length_drop]; omega)]
        · rename_i hb
          simp only [Res.out.injEq] at h
          obtain ⟨rfl, rfl⟩ := h
          rw [if_neg hb]
  · intro b x h
    simp only [decoder] at *
    unfold decode decodeBody at *
    have hk : kHeaderSize = 24 := rfl
    split at h
    · simp at h
    · rename_i h24
      rw [if_neg (by simp only [List.length_append]; omega), readHeader_append (by omega)]
      split at h
      · simp at h
      · rename_i hf
        rw [if_neg (by simp only [List.length_append]; omega)]
        split at h
        · rename_i hb
          split at h
          · rename_i hc
            rw [if_pos hb]
            -- the announced length must have wrapped
            have hw : (readHeader b).contentSize.toNat > stringMax := by
              rcases hc with hc | hc
              · exact hc
              · simp only [UInt64.toNat_add] at hf
                simp only [List.length_drop, show (UInt64.ofNat kHeaderSize).toNat = 24 from rfl] at hf hc
                have := (readHeader b).contentSize.toNat_lt
                simp only [stringMax]
                omega
            rw [if_pos (Or.inl hw)]
          · simp at h
        · simp at h

/-- **C08, sender.** What `EncodeTo` puts on the stream is the wire form, for every message an
application can build with payload below 2 GiB. -/
theorem c08_encode (m : Msg) (hb : Built m) (hl : m.content.length < 2^31) :
    m.encodeTo = some (wire m) := by
  have hs' : m.contentSize.toNat = m.content.length := by
    rw [hb.size, UInt64.toNat_ofNat', Nat.mod_eq_of_lt (by omega)]
  unfold Msg.encodeTo send
  rw [if_neg (by simp [hs'])]
  simp only [headerBytes_length hb.pad6]
  rw [if_pos (by decide)]
  simp only
  have h1 : m.content.length % 2^32 = m.content.length := Nat.mod_eq_of_lt (by omega)
  rw [h1, if_pos hl, wire_eq hs']
  simp [List.take_of_length_le, headerBytes_length hb.pad6]

/-- **C08.** Send any messages; deliver the bytes, possibly cut off inside one further message
(`tail`), in any chunks: the receiver decodes exactly the messages sent, in order, with all fields
equal, and keeps exactly the bytes of the incomplete message. -/
theorem c08_roundtrip_partial (ms : List Msg) (hms : ∀ m ∈ ms, Built m ∧ m.content.length < 2^31)
    (last : Msg) (hlast : Built last ∧ last.content.length < 2^31)
    (tail missing : List Byte) (ht : tail ++ missing = wire last) (hmiss : missing ≠ [])
    (chunks : List (List Byte)) (hc : chunks.flatten = ms.flatMap wire ++ tail) :
    decoder.feed [] chunks = ⟨ms, some tail⟩ := by
  rw [feed_flat decoder decoder_stable [] (by simp [decoder, decode, kHeaderSize]), List.nil_append, hc,
    drain_concat decoder wire id ms
      (fun m hm x => decode_wire (hms m hm).1.pad6 (hms m hm).1.size (hms m hm).2 x) tail,
    drain_more decoder (decode_prefix_more hlast.1.pad6 hlast.1.size hlast.2 tail missing ht hmiss)]
  simp

/-- The hypotheses are met by a non-trivial case: a request, a heartbeat and half of a third
message, delivered byte by byte. -/
example : ∃ (ms : List Msg) (last : Msg) (tail missing : List Byte) (chunks : List (List Byte)),
    ms.length = 2 ∧ (∀ m ∈ ms, Built m ∧ m.content.length < 2^31) ∧ Built last ∧
    tail ++ missing = wire last ∧ missing ≠ [] ∧ tail ≠ [] ∧
    chunks.flatten = ms.flatMap wire ++ tail ∧ (∀ c ∈ chunks, c.length = 1) := by
  let pad : List Byte := [1,2,3,4,5,6]
  let a : Msg := ((Msg.create pad).setContent [104, 105])
  let h : Msg := { (Msg.create pad).asHeartbeat with seq := 7 }
  refine ⟨[a, h], a, (wire a).take 13, (wire a).drop 13,
    ([a,h].flatMap wire ++ (wire a).take 13).map (fun x => [x]), rfl, ?_, ?_, ?_, ?_, ?_, ?_, ?_⟩
  · intro m hm
    simp only [List.mem_cons, List.not_mem_nil, or_false] at hm
    rcases hm with rfl | rfl
    · exact ⟨.setContent _ (.create _ rfl), by decide⟩
    · exact ⟨.setAsyncId _ (.asHeartbeat (.create _ rfl)), by decide⟩
  · exact .setContent _ (.create _ rfl)
  · simp
  · decide
  · decide
  · rw [← List.flatMap_def]; exact List.flatMap_singleton' _
  · intro c hc
    rw [List.mem_map] at hc
    obtain ⟨x, _, rfl⟩ := hc
    rfl

/-- **C08, client side service.** The handler gets every message, heartbeats included. -/
theorem c08_client_delivery (ms : List Msg) (hms : ∀ m ∈ ms, Built m ∧ m.content.length < 2^31)
    (pad : List Byte) (chunks : List (List Byte)) (hc : chunks.flatten = ms.flatMap wire) :
    serve false true pad chunks = (ms.map .deliver, some []) := by
  have := c08_roundtrip_partial ms hms ((Msg.create [0,0,0,0,0,0]))
    ⟨.create _ rfl, by decide⟩ [] (wire (Msg.create [0,0,0,0,0,0])) rfl (by decide) chunks (by simpa using hc)
  simp [serve, this, onMessage]

/-- **C08, server side service.** Every non-heartbeat reaches the handler exactly once, in order,
and every heartbeat is answered by one 24-byte heartbeat carrying the same sequence id. -/
theorem c08_server_delivery (ms : List Msg) (hms : ∀ m ∈ ms, Built m ∧ m.content.length < 2^31)
    (pad : List Byte) (hpad : pad.length = 6)
    (chunks : List (List Byte)) (hc : chunks.flatten = ms.flatMap wire) :
    serve true true pad chunks = (ms.map (fun m =>
      if m.code = 0 ∧ m.method = 0xFF
      then .reply (some (0 :: 0xFF :: pad ++ leBytes 8 0 ++ leBytes 8 m.seq.toNat))
      else .deliver m), some []) := by
  have := c08_roundtrip_partial ms hms ((Msg.create [0,0,0,0,0,0]))
    ⟨.create _ rfl, by decide⟩ [] (wire (Msg.create [0,0,0,0,0,0])) rfl (by decide) chunks (by simpa using hc)
  simp only [serve, this, Prod.mk.injEq, and_true]
  apply List.map_congr_left
  intro m hm
  unfold onMessage
  by_cases h : m.code = 0 ∧ m.method = 0xFF
  · have hh : m.isHeartbeat = true := by simp [Msg.isHeartbeat, kHeartbeatMethodId, h]
    rw [if_pos h, if_pos ⟨rfl, hh⟩]
    simp only [if_true]
    rw [c08_encode _ (.setAsyncId _ (.asHeartbeat (.create _ hpad))) (by simp [Msg.asHeartbeat, Msg.create])]
    simp [wire, Msg.asHeartbeat, Msg.create, kHeartbeatMethodId]
  · have hh : ¬ (true = true ∧ m.isHeartbeat = true) := by
      simp only [Msg.isHeartbeat, kHeartbeatMethodId, Bool.and_eq_true, beq_iff_eq]
      intro hx; exact h hx.2
    rw [if_neg h, if_neg hh]; rfl

/-- **C08 is violated for payloads of 2^32 bytes**: the payload size is truncated to `int32_t` by
`Send`, so a message the API accepts is put on the stream without its payload, and a receiver that
gets everything that was sent decodes nothing. (`c08_roundtrip_partial` therefore excludes payloads
of 2^31 bytes and more.) -/
theorem c08_huge_payload_violated (m : Msg) (hb : Built m) (hl : m.content.length = 2^32) :
    ∃ bytes, m.encodeTo = some bytes ∧ bytes.length = 24 ∧ decoder.feed [] [bytes] = ⟨[], some bytes⟩ := by
  have hs' : m.contentSize.toNat = m.content.length := by
    rw [hb.size, UInt64.toNat_ofNat', Nat.mod_eq_of_lt (by omega)]
  have hlen := headerBytes_length hb.pad6
  refine ⟨m.headerBytes, ?_, hlen, ?_⟩
  · unfold Msg.encodeTo send
    rw [if_neg (by simp [hs'])]
    simp only [hlen, hl]
    simp [List.take_of_length_le, hlen]
  · rw [feed_flat decoder decoder_stable [] (by simp [decoder, decode, kHeaderSize])]
    simp only [List.flatten_cons, List.flatten_nil, List.append_nil, List.nil_append]
    apply drain_more
    simp only [decoder, decode]
    have := readHeader_headerBytes hb.pad6 []
    rw [List.append_nil] at this
    rw [hlen, if_neg (by decide), this]
    simp only
    rw [if_pos]
    rw [UInt64.toNat_add, hs', hl]; decide

/-- Exists such a message (the hypothesis of the previous theorem is satisfiable). -/
example : ∃ m : Msg, Built m ∧ m.content.length = 2^32 :=
  ⟨(Msg.create [0,0,0,0,0,0]).setContent (List.replicate (2^32) 0),
    .setContent _ (.create _ rfl), by rw [Msg.setContent]; exact List.length_replicate⟩

theorem header_split {hd : List Byte} (h : hd.length = 24) :
    hd = (readHeader hd).code :: (readHeader hd).method :: (readHeader hd).pad ++
      (hd.drop 8).take 8 ++ (hd.drop 16).take 8 := by
  have e1 : (hd.drop 16).take 8 = hd.drop 16 := List.take_of_length_le (by simp; omega)
  have e2 : hd.drop 8 = (hd.drop 8).take 8 ++ hd.drop 16 := by
    rw [show hd.drop 16 = (hd.drop 8).drop 8 by simp, List.take_append_drop]
  have e3 : hd.drop 2 = (hd.drop 2).take 6 ++ hd.drop 8 := by
    rw [show hd.drop 8 = (hd.drop 2).drop 6 by simp, List.take_append_drop]
  rw [e1, List.append_assoc, ← e2]
  simp only [readHeader, List.cons_append]
  rw [← e3]
  match hd, h with
  | a :: b :: rest, _ => rfl

/-- **C09, exactness.** Whatever bytes arrive, a delivered message is exactly the bytes consumed:
its payload has the announced length and the stream is its wire form followed by what is kept. -/
theorem c09_delivered_exact (b : List Byte) (m : Msg) (r : List Byte) (h : decode b = .out m r) :
    b = wire m ++ r ∧ m.content.length = announced b ∧ m.contentSize.toNat = announced b := by
  have hk : kHeaderSize = 24 := rfl
  unfold decode decodeBody at h
  split at h
  · simp at h
  · rename_i h24
    have h24' : 24 ≤ b.length := by omega
    -- split the 24 header bytes
    obtain ⟨hd, rest, rfl, hlen⟩ : ∃ hd rest, b = hd ++ rest ∧ hd.length = 24 :=
      ⟨b.take 24, b.drop 24, by simp, by simp; omega⟩
    have hrh : readHeader (hd ++ rest) = readHeader hd := readHeader_append (by omega) rest
    have hann : announced (hd ++ rest) = announced hd := by
      unfold announced
      rw [List.drop_append_of_le_length (by omega), List.take_append_of_le_length (by simp; omega)]
    have hsz : ((readHeader hd).contentSize).toNat = announced hd := by
      simp only [readHeader, announced]
      rw [UInt64.toNat_ofNat', Nat.mod_eq_of_lt]
      have := leVal_lt ((hd.drop 8).take 8)
      have hl : ((hd.drop 8).take 8).length = 8 := by simp; omega
      rw [hl] at this; simpa using this
    have hsq : ((readHeader hd).seq).toNat = leVal ((hd.drop 16).take 8) := by
      simp only [readHeader]
      rw [UInt64.toNat_ofNat', Nat.mod_eq_of_lt]
      have := leVal_lt ((hd.drop 16).take 8)
      have hl : ((hd.drop 16).take 8).length = 8 := by simp; omega
      rw [hl] at this; simpa using this
    have hhb : hd = (readHeader hd).code :: (readHeader hd).method :: (readHeader hd).pad ++
        leBytes 8 (announced hd) ++ leBytes 8 (readHeader hd).seq.toNat := by
      have e1 := leBytes_leVal ((hd.drop 8).take 8)
      have e2 := leBytes_leVal ((hd.drop 16).take 8)
      have l1 : ((hd.drop 8).take 8).length = 8 := by simp; omega
      have l2 : ((hd.drop 16).take 8).length = 8 := by simp; omega
      rw [l1] at e1; rw [l2] at e2
      rw [hsq, e2]; unfold announced; rw [e1]
      exact header_split hlen
    have hdr : (hd ++ rest).drop 24 = rest := by
      rw [List.drop_append_of_le_length (by omega), List.drop_eq_nil_of_le (by omega)]; rfl
    rw [hrh, hdr, hsz] at h
    rw [hann]
    split at h
    · simp at h
    · split at h
      · split at h
        · simp at h
        · rename_i hf hpos hc
          simp only [Res.out.injEq] at h
          obtain ⟨rfl, rfl⟩ := h
          have hcl : ((readHeader hd).content ++ rest.take (announced hd)).length = announced hd := by
            simp [readHeader]; omega
          refine ⟨?_, ?_, ?_⟩
          · simp only [wire, Msg.appendContent, hcl]
            rw [← hhb, show (readHeader hd).content = [] from rfl]; simp
          · simp only [Msg.appendContent]; exact hcl
          · simp only [Msg.appendContent, hcl]
            rw [← hsz]; simp
      · rename_i hf hz
        simp only [Res.out.injEq] at h
        obtain ⟨rfl, rfl⟩ := h
        have h0 : announced hd = 0 := by omega
        refine ⟨?_, ?_, hsz⟩
        · have h1 : (readHeader hd).content = [] := rfl
          unfold wire
          rw [h1, List.append_nil, List.length_nil, ← h0, ← hhb]
        · rw [h0]; rfl

/-- **C09, which inputs crash.** The decoder leaves the buffer (or throws) exactly on headers whose
announced length wraps the 64-bit frame size. (`hlen`: a buffer is smaller than the address
space.) -/
theorem c09_crash_iff (b : List Byte) (hlen : b.length < 2^63) :
    decode b = .crash ↔ 24 ≤ b.length ∧ 2^64 ≤ announced b + 24 ∧ announced b + 24 ≤ 2^64 + b.length := by
  have hsz : ((readHeader b).contentSize).toNat = announced b := by
    simp only [readHeader, announced]
    rw [UInt64.toNat_ofNat', Nat.mod_eq_of_lt]
    have := leVal_lt ((b.drop 8).take 8)
    refine Nat.lt_of_lt_of_le this ?_
    have : ((b.drop 8).take 8).length ≤ 8 := by simp; omega
    calc 256 ^ ((b.drop 8).take 8).length ≤ 256 ^ 8 := Nat.pow_le_pow_right (by decide) this
      _ ≤ 2^64 := by decide
  have hlt := (readHeader b).contentSize.toNat_lt
  rw [hsz] at hlt
  unfold decode decodeBody
  simp only [kHeaderSize, UInt64.toNat_add, hsz, stringMax, List.length_drop]
  have h24 : (UInt64.ofNat 24).toNat = 24 := rfl
  rw [h24]
  constructor
  · intro h
    split at h
    · simp at h
    · split at h
      · simp at h
      · split at h
        · split at h
          · rename_i h1 h2 h3 h4
            refine ⟨by omega, ?_, ?_⟩ <;> omega
          · simp at h
        · simp at h
  · rintro ⟨h1, h2, h3⟩
    rw [if_neg (by omega), if_neg (by omega), if_pos (by omega), if_pos (by omega)]

/-- **C09 (partial).** Over a whole connection: unless some header announces a length within 24 of
2^64, every byte received is either part of exactly one delivered message or kept. Missing from the
full property: the hostile lengths, see `c09_hostile_length_violated`. -/
theorem c09_stream_safe_partial (chunks : List (List Byte)) (hlen : chunks.flatten.length < 2^63)
    (hsafe : ∀ (k : Nat), announced (chunks.flatten.drop k) + 24 < 2^64) :
    ∃ k, (decoder.feed [] chunks).rest = some k ∧
      (decoder.feed [] chunks).items.flatMap wire ++ k = chunks.flatten := by
  rw [feed_flat decoder decoder_stable [] (by simp [decoder, decode, kHeaderSize]), List.nil_append]
  generalize chunks.flatten = b at hsafe hlen
  induction hn : b.length using Nat.strongRecOn generalizing b with
  | ind n ih =>
    cases hd : decoder.dec b with
    | more => rw [drain_more _ hd]; simp
    | crash =>
      have h0 := hsafe 0
      have := (c09_crash_iff b hlen).1 hd
      simp only [List.drop_zero] at h0
      omega
    | out e r =>
      rw [drain_out _ hd]
      obtain ⟨hb, _, _⟩ := c09_delivered_exact b e r hd
      have hsh := decoder.shrinks hd
      obtain ⟨k, h1, h2⟩ := ih r.length (by omega) r (by
        intro j
        have := hsafe ((wire e).length + j)
        rw [hb, ← List.drop_drop, List.drop_left] at this
        exact this) (by omega) rfl
      refine ⟨k, h1, ?_⟩
      simp only [List.flatMap_cons, List.append_assoc, h2]
      exact hb.symm

/-- **C09 is violated**: 24 bytes from any peer (all bytes arbitrary except the length field
2^64-24) make the decoder leave the receive buffer / terminate the process. -/
theorem c09_hostile_length_violated (code method : Byte) (pad : List Byte) (hp : pad.length = 6) (seq : UInt64)
    (server handler : Bool) (pad' : List Byte) :
    serve server handler pad'
      [code :: method :: pad ++ leBytes 8 (2^64 - 24) ++ leBytes 8 seq.toNat] = ([], none) := by
  have hc : decode (code :: method :: pad ++ leBytes 8 (2^64 - 24) ++ leBytes 8 seq.toNat) = .crash := by
    rw [c09_crash_iff _ (by simp [hp])]
    have : announced (code :: method :: pad ++ leBytes 8 (2^64 - 24) ++ leBytes 8 seq.toNat) = 2^64 - 24 := by
      match pad, hp with
      | [p0,p1,p2,p3,p4,p5], _ =>
        unfold announced
        rw [show ([code, method, p0, p1, p2, p3, p4, p5] ++ leBytes 8 (2^64 - 24) ++ leBytes 8 seq.toNat).drop 8
          = leBytes 8 (2^64 - 24) ++ leBytes 8 seq.toNat by simp]
        rw [List.take_append_of_le_length (by simp), List.take_of_length_le (by simp)]
        exact leVal_leBytes 8 _ (by decide)
    rw [this]; simp [hp]
  simp only [serve]
  rw [feed_flat decoder decoder_stable [] (by simp [decoder, decode, kHeaderSize])]
  simp only [List.flatten_cons, List.flatten_nil, List.append_nil, List.nil_append]
  rw [drain_crash decoder hc]; rfl

/-- **Answers.** The response a handler makes for a request carries the request's method and sequence
number, success as its code and no content; it is a heartbeat's answer exactly when the request asks
for the heartbeat method. -/
theorem createResponse_fields (pad : List Byte) (req : Msg) :
    (Msg.createResponse pad req).seq = req.seq ∧ (Msg.createResponse pad req).method = req.method ∧
    (Msg.createResponse pad req).code = 0 ∧ (Msg.createResponse pad req).content = [] ∧
    ((Msg.createResponse pad req).isHeartbeat = true ↔ req.method = 255) := by
  refine ⟨rfl, rfl, rfl, rfl, ?_⟩
  simp [Msg.createResponse, Msg.isHeartbeat, kHeartbeatMethodId]

/-- A new message is numbered zero, not marked failed, empty, and not a heartbeat until made one. -/
theorem create_fields (pad : List Byte) :
    (Msg.create pad).seq = 0 ∧ (Msg.create pad).code = 0 ∧ (Msg.create pad).method = 0 ∧
    (Msg.create pad).content = [] ∧ (Msg.create pad).isHeartbeat = false ∧
    (Msg.create pad).asHeartbeat.isHeartbeat = true := ⟨rfl, rfl, rfl, rfl, rfl, rfl⟩

/-- **Request ids.** Fewer than 2^64 requests in a row get pairwise different sequence ids. -/
theorem sendRequest_ids_distinct (c : UInt64) (ms : Nat → Msg) (i j : Nat) (hij : i < j) (hj : j - i < 2^64) :
    let ctr := fun n => (Nat.rec c (fun n k => (sendRequest k (ms n)).1) n : UInt64)
    (sendRequest (ctr i) (ms i)).2.1.seq ≠ (sendRequest (ctr j) (ms j)).2.1.seq := by
  intro ctr
  have h : ∀ n, ctr n = c + UInt64.ofNat n := by
    intro n
    induction n with
    | zero => show c = c + 0; simp
    | succ n ih =>
      show (ctr n) + 1 = _
      rw [ih]; simp [UInt64.ofNat_add, UInt64.add_assoc]
  simp only [sendRequest, h]
  intro he
  have h2 : UInt64.ofNat i = UInt64.ofNat j := by
    have := congrArg (fun x => x - c) he
    simpa [UInt64.add_comm] using this
  have h3 := congrArg UInt64.toNat h2
  simp only [UInt64.toNat_ofNat'] at h3
  omega

end Ltio.Raw
