import Verif.WebSocket.Lemmas
namespace Ltio.WebSocket

theorem lenLoop_exact (p : Parser) (bs tl : List Byte) (h : bs.length = p.require) :
    lenLoop p (bs ++ tl) = (bs.foldl pushLen p, tl) := by
  induction bs generalizing p with
  | nil =>
    simp at h
    cases tl with
    | nil => rfl
    | cons t tl => simp [lenLoop, ← h]
  | cons b bs ih =>
    have h0 : p.require ≠ 0 := by rw [← h]; simp
    rw [List.cons_append, lenLoop, if_neg h0, ih _ (by simp [pushLen, ← h])]
    rfl

theorem foldl_pushLen_length (p : Parser) (bs : List Byte) (j : Nat) (h : p.length < 256 ^ j)
    (hj : j + bs.length ≤ 8) :
    (bs.foldl pushLen p).length = bs.foldl (fun a c => a * 256 + c.toNat) p.length := by
  induction bs generalizing p j with
  | nil => rfl
  | cons b bs ih =>
    simp only [List.length_cons] at hj
    have hp : p.length < 2^56 := by
      refine Nat.lt_of_lt_of_le h ?_
      have : (256:Nat) ^ j ≤ 256 ^ 7 := Nat.pow_le_pow_right (by omega) (by omega)
      simpa using this
    have hl : (pushLen p b).length = p.length * 256 + b.toNat := or_push _ _ hp
    simp only [List.foldl_cons]
    rw [ih (pushLen p b) (j+1) ?_ (by omega), hl]
    rw [hl, Nat.pow_succ]
    have := b.toNat_lt
    omega

theorem foldl_pushLen_fields (p : Parser) (bs : List Byte) :
    (bs.foldl pushLen p).require = p.require - bs.length ∧ (bs.foldl pushLen p).flags = p.flags ∧
    (bs.foldl pushLen p).mask = p.mask ∧ (bs.foldl pushLen p).maskOffset = p.maskOffset := by
  induction bs generalizing p with
  | nil => simp
  | cons b bs ih =>
    have := ih (pushLen p b)
    simp only [List.foldl_cons, this, List.length_cons]
    simp [pushLen]; omega

/-- After the length field is complete. -/
theorem execF_length_field {p : Parser} (hs : p.state = .length) (bs tl : List Byte)
    (h : bs.length = p.require) (hb : bs ≠ []) :
    execF p (bs ++ tl) =
      (execF (afterLength (bs.foldl pushLen p)).1 tl).map
        (fun r => (r.1, flatten (afterLength (bs.foldl pushLen p)).2 ++ r.2)) := by
  cases bs with
  | nil => simp at hb
  | cons b bs =>
    have : iter p b (bs ++ tl) = some ((afterLength ((b :: bs).foldl pushLen p)).1, tl,
        (afterLength ((b :: bs).foldl pushLen p)).2) := by
      have hl := lenLoop_exact p (b :: bs) tl h
      rw [List.cons_append] at hl
      have hr := (foldl_pushLen_fields p (b :: bs)).1
      simp only [iter, hs, hl, if_pos (show ((b :: bs).foldl pushLen p).require = 0 by omega)]
    rw [List.cons_append, execF_cons_some this]

theorem execF_head_short {p : Parser} (hs : p.state = .head) (c : Byte) (tl : List Byte)
    (hl : ¬ (c &&& 0x7F).toNat ≥ 126) :
    execF p (c :: tl) = (execF (afterLength { p with
      length := (c &&& 0x7F).toNat, state := .head,
      flags := p.flags ||| (if c &&& 0x80 ≠ 0 then WS_HAS_MASK else 0) }).1 tl).map
        (fun r => (r.1, flatten (afterLength { p with
      length := (c &&& 0x7F).toNat, state := .head,
      flags := p.flags ||| (if c &&& 0x80 ≠ 0 then WS_HAS_MASK else 0) }).2 ++ r.2)) := by
  have : iter p c tl = some ((afterLength { p with
      length := (c &&& 0x7F).toNat, state := .head,
      flags := p.flags ||| (if c &&& 0x80 ≠ 0 then WS_HAS_MASK else 0) }).1, tl, (afterLength { p with
      length := (c &&& 0x7F).toNat, state := .head,
      flags := p.flags ||| (if c &&& 0x80 ≠ 0 then WS_HAS_MASK else 0) }).2) := by
    simp only [iter, hs, if_neg hl]
  rw [execF_cons_some this]

theorem execF_head_long {p : Parser} (hs : p.state = .head) (c : Byte) (tl : List Byte)
    (hl : (c &&& 0x7F).toNat ≥ 126) :
    execF p (c :: tl) = execF { p with
      require := if (c &&& 0x7F).toNat = 127 then 8 else 2, length := 0, state := .length,
      flags := p.flags ||| (if c &&& 0x80 ≠ 0 then WS_HAS_MASK else 0) } tl := by
  have : iter p c tl = some ({ p with
      require := if (c &&& 0x7F).toNat = 127 then 8 else 2, length := 0, state := .length,
      flags := p.flags ||| (if c &&& 0x80 ≠ 0 then WS_HAS_MASK else 0) }, tl, []) := by
    simp only [iter, hs, if_pos hl]
  rw [execF_cons_some this]
  simp

theorem lengthBytes_lt (n : Nat) : ∃ x xs, lengthBytes n = x :: xs ∧ x.toNat < 128 := by
  unfold lengthBytes
  split
  · rename_i h; exact ⟨_, _, rfl, by rw [UInt8.toNat_ofNat']; omega⟩
  · split
    · exact ⟨_, _, rfl, by decide⟩
    · exact ⟨_, _, rfl, by decide⟩

theorem foldl_pushLen_state (p : Parser) (bs : List Byte) : (bs.foldl pushLen p).state = p.state := by
  induction bs generalizing p with
  | nil => rfl
  | cons b bs ih => simp [ih (pushLen p b)]; rfl

theorem execF_len_aux {p : Parser} (hs : p.state = .length) (h0 : p.length = 0) (bs tl : List Byte)
    (h : bs.length = p.require) (hb : bs ≠ []) (h8 : bs.length ≤ 8) (n : Nat)
    (hv : bs.foldl (fun a c => a * 256 + c.toNat) 0 = n) :
    execF p (bs ++ tl) =
      (execF (afterLength { p with length := n, require := 0 }).1 tl).map
        (fun r => (r.1, flatten (afterLength { p with length := n, require := 0 }).2 ++ r.2)) := by
  rw [execF_length_field hs bs tl h hb]
  have : bs.foldl pushLen p = { p with length := n, require := 0 } := by
    have h1 := foldl_pushLen_length p bs 0 (by simp [h0]) (by omega)
    have h2 := foldl_pushLen_fields p bs
    have h3 := foldl_pushLen_state p bs
    rw [h0, hv] at h1
    rw [h, Nat.sub_self] at h2
    generalize bs.foldl pushLen p = q at *
    cases q; simp at *; exact ⟨h3, h2.2.1, h2.2.2.1, h2.2.2.2, h1, h2.1⟩
  rw [this]

/-- The head byte and the length field together. -/
theorem execF_len {p : Parser} (hs : p.state = .head) (m : Bool) (n : Nat) (hn : n < 2^64)
    (tl : List Byte) :
    ∃ p1 : Parser, p1.length = n ∧ p1.flags = p.flags ||| (if m then WS_HAS_MASK else 0) ∧
      p1.mask = p.mask ∧ p1.maskOffset = p.maskOffset ∧
      execF p (orHead (if m then 0x80 else 0) (lengthBytes n) ++ tl) =
        (execF (afterLength p1).1 tl).map (fun r => (r.1, flatten (afterLength p1).2 ++ r.2)) := by
  by_cases h : n < 126
  · have hx : (UInt8.ofNat n).toNat = n := by rw [UInt8.toNat_ofNat']; omega
    have hb := head_bits (UInt8.ofNat n) (by omega) m
    simp only at hb
    refine ⟨{ p with length := n, state := .head, flags := p.flags ||| (if m then WS_HAS_MASK else 0) }, rfl, rfl, rfl, rfl, ?_⟩
    simp only [lengthBytes, if_pos h, orHead, List.cons_append, List.nil_append]
    rw [execF_head_short hs _ tl (by rw [hb.1]; omega)]
    simp only [hb.1, hb.2, hx]
  · by_cases h2 : n ≤ 0xFFFF
    · have hb := head_bits 126 (by decide) m
      simp only at hb
      refine ⟨{ p with length := n, require := 0, state := .length, flags := p.flags ||| (if m then WS_HAS_MASK else 0) }, rfl, rfl, rfl, rfl, ?_⟩
      simp only [lengthBytes, if_neg h, if_pos h2, orHead, List.cons_append, List.nil_append]
      rw [execF_head_long hs _ _ (by rw [hb.1]; decide)]
      simp only [hb.1, hb.2]
      have := execF_len_aux (p := { p with require := 2, length := 0, state := .length, flags := p.flags ||| (if m then WS_HAS_MASK else 0) })
        rfl rfl [UInt8.ofNat (n >>> 8), UInt8.ofNat (n &&& 0xFF)] tl rfl (by simp) (by simp) n (by
          simp only [List.foldl_cons, List.foldl_nil, ofNat_toNat_and, ofNat_toNat_shift]; omega)
      exact this
    · have hb := head_bits 127 (by decide) m
      simp only at hb
      refine ⟨{ p with length := n, require := 0, state := .length, flags := p.flags ||| (if m then WS_HAS_MASK else 0) }, rfl, rfl, rfl, rfl, ?_⟩
      simp only [lengthBytes, if_neg h, if_neg h2, orHead, List.cons_append, List.nil_append]
      rw [execF_head_long hs _ _ (by rw [hb.1]; decide)]
      simp only [hb.1, hb.2]
      have := execF_len_aux (p := { p with require := 8, length := 0, state := .length, flags := p.flags ||| (if m then WS_HAS_MASK else 0) })
        rfl rfl [UInt8.ofNat ((n >>> 56) &&& 0xFF), UInt8.ofNat ((n >>> 48) &&& 0xFF),
          UInt8.ofNat ((n >>> 40) &&& 0xFF), UInt8.ofNat ((n >>> 32) &&& 0xFF),
          UInt8.ofNat ((n >>> 24) &&& 0xFF), UInt8.ofNat ((n >>> 16) &&& 0xFF),
          UInt8.ofNat ((n >>> 8) &&& 0xFF), UInt8.ofNat (n &&& 0xFF)] tl rfl (by simp) (by simp) n (by
          simp only [List.foldl_cons, List.foldl_nil, ofNat_toNat_and, Nat.shiftRight_eq_div_pow]; omega)
      exact this

theorem maskLoop_exact (p : Parser) (bs tl : List Byte) (h : bs.length = p.require) :
    maskLoop p (bs ++ tl) = (bs.foldl pushMask p, tl) := by
  induction bs generalizing p with
  | nil =>
    simp at h
    cases tl with
    | nil => rfl
    | cons t tl => simp [maskLoop, ← h]
  | cons b bs ih =>
    have h0 : p.require ≠ 0 := by rw [← h]; simp
    rw [List.cons_append, maskLoop, if_neg h0, ih _ (by simp [pushMask, ← h])]
    rfl

theorem execF_mask_field {p : Parser} (hs : p.state = .mask) (hr : p.require = 4)
    (hm : p.mask.length = 4) (mask tl : List Byte) (hml : mask.length = 4) :
    let p1 : Parser := { p with mask := mask, require := 0 }
    execF p (mask ++ tl) =
      (execF (enterBody p1).1 tl).map (fun r => (r.1, flatten (enterBody p1).2 ++ r.2)) := by
  intro p1
  have hf : mask.foldl pushMask p = p1 := by
    match hmk : mask, hml, hmm : p.mask, hm with
    | [a, b, c, d], _, [x, y, z, w], _ =>
      simp [pushMask, hmm, hr, p1, hmk]
  have hl := maskLoop_exact p mask tl (by omega)
  cases mask with
  | nil => simp at hml
  | cons b bs =>
    have : iter p b (bs ++ tl) = some ((enterBody p1).1, tl, (enterBody p1).2) := by
      rw [List.cons_append] at hl
      simp only [iter, hs, hl, hf]
      rw [if_pos rfl]
    rw [List.cons_append, execF_cons_some this]

/-- Parsing the payload once `enterBody` has been reached. -/
theorem execF_payload {p : Parser} (hi : p.mask.length = 4 ∧ p.maskOffset < 4) (wire data : List Byte)
    (hwl : wire.length = data.length) (hlen : p.length = data.length) (hl : data.length < 2^63)
    (hu : (unmaskBody p wire).2 = data) :
    ∃ q : Parser, q.state = .start ∧ q.Inv ∧
      (execF (enterBody p).1 wire).map (fun r => (r.1, flatten (enterBody p).2 ++ r.2)) =
        some (q, .header p.flags data.length :: data.map .byte ++ [.frameEnd p.flags]) := by
  unfold enterBody
  cases wire with
  | nil =>
    have h0 : data = [] := List.length_eq_zero_iff.1 (by rw [← hwl]; rfl)
    subst h0
    rw [if_neg (by simp [hlen])]
    refine ⟨{ p with state := .start }, rfl, ⟨hi.1, hi.2, by simp⟩, ?_⟩
    simp [execF_nil, flatten1, hlen]
  | cons w ws =>
    rw [if_pos (by rw [hlen, ← hwl]; simp)]
    have hit := iter_body_full (p := { p with state := .body, require := p.length }) rfl
      (by simp only; rw [hlen, ← hwl]; simp) (by simp only; omega) w ws (by simp only; omega)
    rw [execF_cons_some hit]
    have hd : (w :: ws).drop p.length = [] := by
      rw [List.drop_eq_nil_iff]; omega
    have ht : (w :: ws).take p.length = w :: ws := List.take_of_length_le (by omega)
    have hub : (unmaskBody ({ p with state := .body, require := p.length } : Parser) (w :: ws)).2 = data := by
      rw [← hu]; unfold unmaskBody; split <;> simp
    simp only [hd, ht, execF_nil, Option.map_some, hub]
    refine ⟨_, ?_, ?_, by rw [← hlen]; simp [flatten1]; rfl⟩
    · rfl
    · refine ⟨by simp [unmaskBody_fields, hi.1], ?_, by simp⟩
      exact unmaskBody_off (p := { p with state := .body, require := p.length }) _ hi.2

/-- Parsing a built frame. -/
theorem execF_build {p : Parser} (hi : p.Inv) (hs : p.state = .start) (op : Byte) (hop : op.toNat < 16)
    (m fin : Bool) (mask : List Byte) (hm : mask.length = 4) (data : List Byte)
    (hl : data.length < 2^63) :
    ∃ q : Parser, q.state = .start ∧ q.Inv ∧
      execF p (buildFrame (mkFlags op m fin) mask data) =
        some (q, .header (mkFlags op m fin) data.length :: data.map .byte ++
          [.frameEnd (mkFlags op m fin)]) := by
  have hfb := flag_bits op hop fin m
  simp only at hfb
  obtain ⟨hf1, hf2, hf3, hf4⟩ := hfb
  -- shape of the frame
  have hshape : buildFrame (mkFlags op m fin) mask data =
      ((if mkFlags op m fin &&& WS_FIN ≠ 0 then 0x80 else 0) ||| (mkFlags op m fin &&& WS_OP_MASK)) ::
        (orHead (if m then 0x80 else 0) (lengthBytes data.length) ++
          (if m then mask ++ (decode mask 0 data).1 else data)) := by
    unfold buildFrame
    cases m
    · simp [hf2]
    · simp [hf2]
  rw [hshape, execF_cons_start hs]
  generalize hp1 : ({ p with
      length := 0, maskOffset := 0, flags := _, state := .head } : Parser) = p1
  have h1s : p1.state = .head := by rw [← hp1]
  have h1m : p1.mask.length = 4 := by rw [← hp1]; exact hi.1
  have h1o : p1.maskOffset = 0 := by rw [← hp1]
  have h1f : p1.flags ||| (if m then WS_HAS_MASK else 0) = mkFlags op m fin := by
    rw [← hp1]; exact hf1
  obtain ⟨p2, e1, e2, e3, e4, e5⟩ := execF_len h1s m data.length (by omega)
    (if m then mask ++ (decode mask 0 data).1 else data)
  rw [e5]
  rw [h1f] at e2
  cases m with
  | false =>
    have ha : afterLength p2 = enterBody p2 := by
      unfold afterLength; rw [if_neg (by rw [e2, hf2]; simp)]
    rw [ha]
    have := execF_payload (p := p2) ⟨by rw [e3, h1m], by rw [e4, h1o]; omega⟩ data data rfl e1 hl
      (by unfold unmaskBody; rw [if_neg (by rw [e2, hf2]; simp)])
    rw [e2] at this
    simpa using this
  | true =>
    have ha : afterLength p2 = ({ p2 with state := .mask, require := 4 }, []) := by
      unfold afterLength; rw [if_pos (by rw [e2, hf2])]
    rw [ha]
    simp only [if_true, flatten_nil, List.nil_append]
    rw [execF_mask_field rfl rfl (by simp [e3, h1m]) mask _ hm]
    have := execF_payload (p := { p2 with state := .mask, mask := mask, require := 0 })
      ⟨hm, by rw [e4, h1o]; omega⟩ (decode mask 0 data).1 data (decode_length _ _ _) e1 hl
      (by unfold unmaskBody; simp only; rw [if_pos (by rw [e2, hf2]), e4, h1o]; exact decode_decode _ _ _)
    simp only [e2] at this
    obtain ⟨q, q1, q2, q3⟩ := this
    refine ⟨q, q1, q2, ?_⟩
    rw [← q3]
    simp [Function.comp_def, e2]

end Ltio.WebSocket
