import Verif.Base64.Model
import Verif.Base64.Spec
/- Property C11. -/
namespace Ltio.Base64

/-- transport a fact checked on all 256 byte values -/
theorem forall_byte {P : Byte → Prop} (h : ∀ k : Fin 256, P (UInt8.ofNat k.val)) (b : Byte) : P b := by
  have := h ⟨b.toNat, b.toNat_lt⟩
  simpa using this

theorem f_fc (a : Byte) : (a &&& 0xfc) >>> 2 = UInt8.ofNat (a.toNat / 4) :=
  forall_byte (P := fun a => (a &&& 0xfc) >>> 2 = UInt8.ofNat (a.toNat / 4)) (by decide +kernel) a
theorem f_03 (a : Byte) : (a &&& 0x03) <<< 4 = UInt8.ofNat (a.toNat % 4 * 16) :=
  forall_byte (P := fun a => (a &&& 0x03) <<< 4 = UInt8.ofNat (a.toNat % 4 * 16)) (by decide +kernel) a
theorem f_f0 (a : Byte) : (a &&& 0xf0) >>> 4 = UInt8.ofNat (a.toNat / 16) :=
  forall_byte (P := fun a => (a &&& 0xf0) >>> 4 = UInt8.ofNat (a.toNat / 16)) (by decide +kernel) a
theorem f_0f (a : Byte) : (a &&& 0x0f) <<< 2 = UInt8.ofNat (a.toNat % 16 * 4) :=
  forall_byte (P := fun a => (a &&& 0x0f) <<< 2 = UInt8.ofNat (a.toNat % 16 * 4)) (by decide +kernel) a
theorem f_c0 (a : Byte) : (a &&& 0xc0) >>> 6 = UInt8.ofNat (a.toNat / 64) :=
  forall_byte (P := fun a => (a &&& 0xc0) >>> 6 = UInt8.ofNat (a.toNat / 64)) (by decide +kernel) a
theorem f_3f (a : Byte) : a &&& 0x3f = UInt8.ofNat (a.toNat % 64) :=
  forall_byte (P := fun a => a &&& 0x3f = UInt8.ofNat (a.toNat % 64)) (by decide +kernel) a

theorem tab_digit (v : Nat) (h : v < 64) : tab (UInt8.ofNat v) = Spec.digit v := by
  have : ∀ k : Fin 64, tab (UInt8.ofNat k.val) = Spec.digit k.val := by decide +kernel
  exact this ⟨v, h⟩

theorem ofNat_add (a b : Nat) : UInt8.ofNat a + UInt8.ofNat b = UInt8.ofNat (a + b) :=
  (UInt8.ofNat_add a b).symm

/-- **C11, encoder.** The encoder produces exactly the RFC 4648 encoding, for every byte string. -/
theorem c11_encode_rfc (s : List Byte) : encode s = Spec.encode s := by
  fun_induction encode s with
  | case1 a b c rest ih =>
    have ha := a.toNat_lt; have hb := b.toNat_lt; have hc := c.toNat_lt
    simp only [Spec.encode, f_fc, f_03, f_f0, f_c0, f_0f, f_3f, ofNat_add, ih]
    rw [tab_digit _ (by omega), tab_digit _ (by omega), tab_digit _ (by omega), tab_digit _ (by omega)]
    congr 1
    · congr 1; omega
    congr 1
    · congr 1; omega
    congr 1
    · congr 1; omega
    congr 2; omega
  | case2 a b =>
    have ha := a.toNat_lt; have hb := b.toNat_lt
    simp only [Spec.encode, f_fc, f_03, f_f0, f_0f, ofNat_add]
    rw [tab_digit _ (by omega), tab_digit _ (by omega), tab_digit _ (by omega)]
    congr 1
    · congr 1; omega
    congr 1
    · congr 1; omega
    congr 1
    congr 1; omega
  | case3 a =>
    have ha := a.toNat_lt
    simp only [Spec.encode, f_fc, f_03]
    rw [tab_digit _ (by omega), tab_digit _ (by omega)]
    congr 1
    · congr 1; omega
    congr 1
    congr 1; omega
  | case4 => rfl

/-- **C11, length.** The encoding has length `4 * ceil(n/3)`, so the encoder never stores outside
the string it allocated. -/
theorem c11_encode_length (s : List Byte) :
    (encode s).length = 4 * ((s.length + 2) / 3) ∧ base64Encode s = some (encode s) := by
  have h : (encode s).length = 4 * ((s.length + 2) / 3) := by
    fun_induction encode s with
    | case1 a b c rest ih => simp only [List.length_cons, ih]; omega
    | case2 => simp
    | case3 => simp
    | case4 => simp
  refine ⟨h, ?_⟩
  unfold base64Encode encodedSize
  rw [if_pos (by omega)]

theorem digit_inverse (v : Nat) (h : v < 64) :
    Spec.digit v ≠ eqSign ∧ inverse.getD (Spec.digit v).toNat (-1) = v := by
  have : ∀ k : Fin 64, Spec.digit k.val ≠ eqSign ∧ inverse.getD (Spec.digit k.val).toNat (-1) = k.val := by
    decide +kernel
  exact this ⟨v, h⟩

theorem loop_digit (s : St) (v : Nat) (h : v < 64) (rest : List Byte) :
    loop s (Spec.digit v :: rest) = loop (accept s (UInt8.ofNat v)) rest := by
  obtain ⟨h1, h2⟩ := digit_inverse v h
  rw [loop, if_neg h1, h2, if_neg (by omega)]
  simp

theorem g_shl2 (v : Nat) : UInt8.ofNat v <<< 2 = UInt8.ofNat (v * 4) := by
  apply UInt8.toNat_inj.1
  simp [UInt8.toNat_shiftLeft, Nat.shiftLeft_eq]

theorem fin64 {P : Nat → Prop} (h : ∀ k : Fin 64, P k.val) (v : Nat) (hv : v < 64) : P v := h ⟨v, hv⟩

theorem g_30 (v : Nat) (h : v < 64) : (UInt8.ofNat v &&& 0x30) >>> 4 = UInt8.ofNat (v / 16) :=
  fin64 (P := fun v => (UInt8.ofNat v &&& 0x30) >>> 4 = UInt8.ofNat (v / 16)) (by decide +kernel) v h
theorem g_f (v : Nat) (h : v < 64) : (UInt8.ofNat v &&& 0xf) <<< 4 = UInt8.ofNat (v % 16 * 16) :=
  fin64 (P := fun v => (UInt8.ofNat v &&& 0xf) <<< 4 = UInt8.ofNat (v % 16 * 16)) (by decide +kernel) v h
theorem g_3c (v : Nat) (h : v < 64) : (UInt8.ofNat v &&& 0x3c) >>> 2 = UInt8.ofNat (v / 4) :=
  fin64 (P := fun v => (UInt8.ofNat v &&& 0x3c) >>> 2 = UInt8.ofNat (v / 4)) (by decide +kernel) v h
theorem g_3 (v : Nat) (h : v < 64) : (UInt8.ofNat v &&& 0x3) <<< 6 = UInt8.ofNat (v % 4 * 64) :=
  fin64 (P := fun v => (UInt8.ofNat v &&& 0x3) <<< 6 = UInt8.ofNat (v % 4 * 64)) (by decide +kernel) v h

theorem ofNat_eq (b : Byte) (n : Nat) (h : n % 256 = b.toNat) : UInt8.ofNat n = b := by
  apply UInt8.toNat_inj.1; simpa using h

theorem c3_group (n0 n1 n2 n3 : Nat) (h0 : n0 < 64) (h1 : n1 < 64) (h2 : n2 < 64) (h3 : n3 < 64)
    (a b c : Byte) (ha : a.toNat = n0 * 4 + n1 / 16) (hb : b.toNat = n1 % 16 * 16 + n2 / 4)
    (hc : c.toNat = n2 % 4 * 64 + n3) :
    c3 (UInt8.ofNat n0) (UInt8.ofNat n1) (UInt8.ofNat n2) (UInt8.ofNat n3) = [a, b, c] := by
  unfold c3
  rw [g_shl2, g_30 _ h1, g_f _ h1, g_3c _ h2, g_3 _ h2, ofNat_add, ofNat_add, ofNat_add]
  rw [ofNat_eq a _ (by omega), ofNat_eq b _ (by omega), ofNat_eq c _ (by omega)]

/-- four digits in a row -/
theorem loop_group (g out : List Byte) (rd : Nat) (hg : g.length = 4) (n0 n1 n2 n3 : Nat)
    (h0 : n0 < 64) (h1 : n1 < 64) (h2 : n2 < 64) (h3 : n3 < 64) (rest : List Byte) :
    loop ⟨g, 0, out, rd⟩ (Spec.digit n0 :: Spec.digit n1 :: Spec.digit n2 :: Spec.digit n3 :: rest) =
    loop ⟨[UInt8.ofNat n0, UInt8.ofNat n1, UInt8.ofNat n2, UInt8.ofNat n3], 0,
      out ++ c3 (UInt8.ofNat n0) (UInt8.ofNat n1) (UInt8.ofNat n2) (UInt8.ofNat n3), rd + 4⟩ rest := by
  match g, hg with
  | [x0, x1, x2, x3], _ =>
    rw [loop_digit _ _ h0, loop_digit _ _ h1, loop_digit _ _ h2, loop_digit _ _ h3]
    rfl

theorem loop_spec (s : List Byte) (g out : List Byte) (rd : Nat) (hg : g.length = 4) :
    finish (loop ⟨g, 0, out, rd⟩ (Spec.encode s)) = out ++ s := by
  fun_induction Spec.encode s generalizing g out rd with
  | case1 a b c rest n ih =>
    have ha := a.toNat_lt; have hb := b.toNat_lt; have hc := c.toNat_lt
    have hn : n = a.toNat * 65536 + b.toNat * 256 + c.toNat := rfl
    clear_value n
    rw [loop_group _ _ _ hg _ _ _ _ (by omega) (by omega) (by omega) (by omega), ih _ _ _ rfl,
      c3_group _ _ _ _ (by omega) (by omega) (by omega) (by omega) a b c (by omega) (by omega) (by omega)]
    simp
  | case2 a b n =>
    have ha := a.toNat_lt; have hb := b.toNat_lt
    have hn : n = a.toNat * 65536 + b.toNat * 256 := rfl
    clear_value n
    match g, hg with
    | [x0, x1, x2, x3], _ =>
      rw [loop_digit _ _ (by omega), loop_digit _ _ (by omega), loop_digit _ _ (by omega), loop, if_pos (show (61 : Byte) = eqSign from rfl)]
      have := c3_group (n / 262144) (n / 4096 % 64) (n / 64 % 64) 0 (by omega) (by omega) (by omega) (by omega)
        a b (UInt8.ofNat (n / 64 % 64 % 4 * 64)) (by omega) (by omega) (by simp; omega)
      simp only [c3, List.cons.injEq] at this
      simp [accept, finish, c3, this.1, this.2.1]
  | case3 a n =>
    have ha := a.toNat_lt
    have hn : n = a.toNat * 65536 := rfl
    clear_value n
    match g, hg with
    | [x0, x1, x2, x3], _ =>
      rw [loop_digit _ _ (by omega), loop_digit _ _ (by omega), loop, if_pos (show (61 : Byte) = eqSign from rfl)]
      have := c3_group (n / 262144) (n / 4096 % 64) 0 0 (by omega) (by omega) (by omega) (by omega)
        a (UInt8.ofNat (n / 4096 % 64 % 16 * 16)) 0 (by omega) (by simp; omega) (by simp)
      simp only [c3, List.cons.injEq] at this
      simp [accept, finish, c3, this.1]
  | case4 => simp [loop, finish]

/-- **C11.** Decoding the encoding of any byte string returns it, without storing outside the
result buffer, whatever the uninitialised temporaries contain. -/
theorem c11_roundtrip (g : List Byte) (hg : g.length = 4) (s : List Byte) :
    ∃ e, base64Encode s = some e ∧ base64Decode g e = some s := by
  refine ⟨encode s, (c11_encode_length s).2, ?_⟩
  unfold base64Decode decodedSize decode
  simp only
  rw [(c11_encode_length s).1]
  have := loop_spec s g [] 0 hg
  rw [c11_encode_rfc, this, List.nil_append, if_pos]
  omega

/-- e.g. "Man" -> "TWFu", "Ma" -> "TWE=" (sanity of the statement on literals). -/
example : base64Encode [77, 97, 110] = some [84, 87, 70, 117] ∧ base64Encode [77, 97] = some [84, 87, 69, 61] := by
  decide +kernel

/-- amount of output after accepting `k` characters -/
theorem loop_inv (s : St) (src : List Byte) (hi : s.i < 4) (ho : s.out.length = s.read / 4 * 3)
    (hr : s.read % 4 = s.i) (h4 : s.c4.length = 4) :
    let t := loop s src
    t.i < 4 ∧ t.out.length = t.read / 4 * 3 ∧ t.read % 4 = t.i ∧ t.read ≤ s.read + src.length ∧ t.c4.length = 4 := by
  induction src generalizing s with
  | nil => exact ⟨hi, ho, hr, by simp [loop], h4⟩
  | cons ch rest ih =>
    simp only [loop]
    split
    · exact ⟨hi, ho, hr, by simp, h4⟩
    · split
      · exact ⟨hi, ho, hr, by simp, h4⟩
      · rename_i v _
        generalize UInt8.ofNat (inverse.getD ch.toNat (-1)).toNat = v
        have hacc : (accept s v).i < 4 ∧ (accept s v).out.length = (accept s v).read / 4 * 3 ∧
            (accept s v).read % 4 = (accept s v).i ∧ (accept s v).read = s.read + 1 ∧ (accept s v).c4.length = 4 := by
          unfold accept
          split
          · refine ⟨?_, ?_, ?_, ?_, ?_⟩ <;> simp [c3, h4] <;> omega
          · refine ⟨?_, ?_, ?_, ?_, ?_⟩ <;> simp [h4] <;> omega
        obtain ⟨a1, a2, a3, a4, a5⟩ := hacc
        have := ih (accept s v) a1 a2 a3 a5
        simp only [List.length_cons]
        simp only [a4] at this
        omega

theorem finish_length (g src : List Byte) (hg : g.length = 4) :
    (decode g src).1.length = (decode g src).2 / 4 * 3 + ((decode g src).2 % 4 - 1) ∧
    (decode g src).2 ≤ src.length := by
  have := loop_inv ⟨g, 0, [], 0⟩ src (by simp) (by simp) (by simp) hg
  simp only [decode]
  generalize loop ⟨g, 0, [], 0⟩ src = t at this
  obtain ⟨h1, h2, h3, h4, h5⟩ := this
  constructor
  · unfold finish
    split
    · simp only [List.length_append, List.length_take, c3, List.length_cons, List.length_nil]
      omega
    · omega
  · simpa using h4

/-- **C11, memory safety (partial).** Decoding any byte string -- valid base64 or not -- whose length
is 0 or 1 modulo 4 stays inside the result buffer. Missing: lengths 2 and 3 modulo 4, where the
claim is false, see `c11_unpadded_violated`. -/
theorem c11_decode_safe_partial (g src : List Byte) (hg : g.length = 4) (h : src.length % 4 ≤ 1) :
    base64Decode g src ≠ none := by
  obtain ⟨h1, h2⟩ := finish_length g src hg
  unfold base64Decode decodedSize
  rw [if_pos]
  · simp
  · omega

/-- **C11, memory safety violated**: unpadded base64 (as used by JWT and base64url) of length 2 or 3
modulo 4 makes `base64_decode` store past the end of the string it allocated. -/
theorem c11_unpadded_violated (g : List Byte) (hg : g.length = 4) (vs : List Nat) (hv : ∀ v ∈ vs, v < 64)
    (hl : vs.length % 4 = 2 ∨ vs.length % 4 = 3) :
    base64Decode g (vs.map Spec.digit) = none := by
  have key : ∀ (vs : List Nat) (s : St), (∀ v ∈ vs, v < 64) → (loop s (vs.map Spec.digit)).read = s.read + vs.length := by
    intro vs
    induction vs with
    | nil => intro s _; simp [loop]
    | cons v vs ih =>
      intro s hv
      rw [List.map_cons, loop_digit _ _ (hv v (by simp)), ih _ (fun x hx => hv x (by simp [hx]))]
      have : (accept s (UInt8.ofNat v)).read = s.read + 1 := by unfold accept; split <;> rfl
      rw [this, List.length_cons]; omega
  obtain ⟨h1, h2⟩ := finish_length g (vs.map Spec.digit) hg
  have h3 := key vs ⟨g, 0, [], 0⟩ hv
  have h4 : (decode g (vs.map Spec.digit)).2 = vs.length := by simpa [decode] using h3
  unfold base64Decode decodedSize
  rw [if_neg]
  rw [h4] at h1
  simp only [List.length_map]
  omega

end Ltio.Base64
