import Verif.Base64.Props
/-
Model of thirdparty/urlsafe64/urlsafe64.c and urlsafe64.h: base64 with the URL-safe alphabet and no
padding. Properties C136, C137, C138.
-/
namespace Ltio.Base64.UrlSafe

/-- urlsafe64.c:4-10 `_t64`. -/
def t64 : List Byte :=
  "ABCDEFGHIJKLMNOPQRSTUVWXYZabcdefghijklmnopqrstuvwxyz0123456789-_".toList.map (fun c => UInt8.ofNat c.toNat)

/-- `_t64[i]`; an index outside the table would show as NUL. -/
def enc (i : Nat) : Byte := t64.getD i 0

/-- urlsafe64.c:3-31 `urlsafe64_encode`: the characters written to `dst`. `uint8_t` is promoted to
`int` (here a natural number: all values are non-negative). The returned number `dst - mark` is the
number of characters written. -/
def encode : List Byte → List Byte
  | a :: b :: c :: rest =>                                                        -- 13-18
    enc (a.toNat >>> 2) ::
    enc (((a.toNat &&& 0x03) <<< 4) ||| (b.toNat >>> 4)) ::
    enc (((b.toNat &&& 0x0f) <<< 2) ||| (c.toNat >>> 6)) ::
    enc (c.toNat &&& 0x3f) :: encode rest
  | [a, b] =>                                                                     -- 20-24
    [enc (a.toNat >>> 2), enc (((a.toNat &&& 0x03) <<< 4) ||| (b.toNat >>> 4)),
     enc ((b.toNat &&& 0x0f) <<< 2)]
  | [a] => [enc (a.toNat >>> 2), enc ((a.toNat &&& 0x03) <<< 4)]                  -- 25-28
  | [] => []

/-- urlsafe64.h:10 `urlsafe64_get_encoded_size` (without `int` overflow, i.e. below 2^29 bytes). -/
def encodedSize (n : Nat) : Nat := (4 * n + 2) / 3

/-- urlsafe64.c:35-48: the initialisers of `_t256`, copied from the source: there are 14 rows of 16. -/
def t256rows : List Int :=
  [-1,-1,-1,-1,-1,-1,-1,-1,-1,-1,-1,-1,-1,-1,-1,-1,
   -1,-1,-1,-1,-1,-1,-1,-1,-1,-1,-1,-1,-1,-1,-1,-1,
   -1,-1,-1,-1,-1,-1,-1,-1,-1,-1,-1,-1,-1,62,-1,-1,
   52,53,54,55,56,57,58,59,60,61,-1,-1,-1,64,-1,-1,
   -1, 0, 1, 2, 3, 4, 5, 6, 7, 8, 9,10,11,12,13,14,
   15,16,17,18,19,20,21,22,23,24,25,-1,-1,-1,-1,63,
   -1,26,27,28,29,30,31,32,33,34,35,36,37,38,39,40,
   41,42,43,44,45,46,47,48,49,50,51,-1,-1,-1,-1,-1,
   -1,-1,-1,-1,-1,-1,-1,-1,-1,-1,-1,-1,-1,-1,-1,-1,
   -1,-1,-1,-1,-1,-1,-1,-1,-1,-1,-1,-1,-1,-1,-1,-1,
   -1,-1,-1,-1,-1,-1,-1,-1,-1,-1,-1,-1,-1,-1,-1,-1,
   -1,-1,-1,-1,-1,-1,-1,-1,-1,-1,-1,-1,-1,-1,-1,-1,
   -1,-1,-1,-1,-1,-1,-1,-1,-1,-1,-1,-1,-1,-1,-1,-1,
   -1,-1,-1,-1,-1,-1,-1,-1,-1,-1,-1,-1,-1,-1,-1,-1]

/-- urlsafe64.c:34 `static const char _t256[256]`: the elements without an initialiser are 0 (C11
6.7.9p21). `_t256[c]` for a `uint8_t` c. -/
def t256 (c : Byte) : Int := t256rows.getD c.toNat 0

/-- the non-negative table value used in the arithmetic of lines 59-77 -/
def dv (c : Byte) : Nat := (t256 c).toNat

/-- the result: the bytes stored at `dst` and the value returned -/
structure Out where
  buf : List Byte
  ret : Int
deriving DecidableEq, Repr

/-- lines 59, 70, 77: `*dst++ = (p0 << 2) | (p1 >> 4)`, stored in a `uint8_t` -/
def o1 (p0 p1 : Nat) : Byte := UInt8.ofNat ((p0 <<< 2) ||| (p1 >>> 4))
/-- lines 60, 71: `if (p2 != 64) *dst++ = ((p1 << 4) & 0xf0) | (p2 >> 2)` -/
def o2 (p1 p2 : Nat) : List Byte :=
  if p2 ≠ 64 then [UInt8.ofNat (((p1 <<< 4) &&& 0xf0) ||| (p2 >>> 2))] else []
/-- line 61: `if (p3 != 64) *dst++ = ((p2 << 6) & 0xc0) | (p3)` -/
def o3 (p2 p3 : Nat) : List Byte :=
  if p3 ≠ 64 then [UInt8.ofNat (((p2 <<< 6) &&& 0xc0) ||| p3)] else []

/-- urlsafe64.c:33-84 `urlsafe64_decode` with `out` already written (`dst - mark = out.length`).
The checks `< 0` of one group do not write anything, their order is not observable. -/
def decodeFrom (out : List Byte) : List Byte → Out
  | a :: b :: c :: d :: rest =>                                                   -- 54-62
    if t256 a < 0 ∨ t256 b < 0 ∨ t256 c < 0 ∨ t256 d < 0 then ⟨out, -1⟩
    else decodeFrom (out ++ (o1 (dv a) (dv b) :: (o2 (dv b) (dv c) ++ o3 (dv c) (dv d)))) rest
  | [] => ⟨out, out.length⟩                                                       -- 64, 83
  | [a, b, c] =>                                                                  -- 66-73
    if t256 a < 0 ∨ t256 b < 0 ∨ t256 c < 0 then ⟨out, -1⟩
    else if dv c &&& 0x3 ≠ 0 then ⟨out ++ (o1 (dv a) (dv b) :: o2 (dv b) (dv c)), -1⟩
    else ⟨out ++ (o1 (dv a) (dv b) :: o2 (dv b) (dv c)),
      (out ++ (o1 (dv a) (dv b) :: o2 (dv b) (dv c))).length⟩
  | [a, b] =>                                                                     -- 74-79
    if t256 a < 0 ∨ t256 b < 0 then ⟨out, -1⟩
    else if dv b &&& 0xf ≠ 0 then ⟨out ++ [o1 (dv a) (dv b)], -1⟩
    else ⟨out ++ [o1 (dv a) (dv b)], (out ++ [o1 (dv a) (dv b)]).length⟩
  | [_] => ⟨out, -2⟩                                                              -- 80-81

/-- urlsafe64.c:33-84. -/
def decode (s : List Byte) : Out := decodeFrom [] s

/-! ### Specification -/

/-- RFC 4648 section 5: the URL-safe alphabet differs from the standard one in 62 and 63. -/
def urlChar (c : Byte) : Byte := if c = 43 then 45 else if c = 47 then 95 else c

/-- RFC 4648 section 5 without padding (3.2): the standard encoding, the padding left out, `+` and
`/` replaced by `-` and `_`. -/
def specEncode (s : List Byte) : List Byte := ((Spec.encode s).filter (· ≠ 61)).map urlChar

/-- the same with the padding kept -/
def specPadded (s : List Byte) : List Byte := (Spec.encode s).map urlChar

/-- `A`-`Z`, `a`-`z`, `0`-`9`, `-`, `_` -/
abbrev isUrlSafe (c : Byte) : Prop :=
  (65 ≤ c.toNat ∧ c.toNat ≤ 90) ∨ (97 ≤ c.toNat ∧ c.toNat ≤ 122) ∨ (48 ≤ c.toNat ∧ c.toNat ≤ 57) ∨
  c.toNat = 45 ∨ c.toNat = 95

/-! ### Bytes -/

theorem d_val (v : Nat) (h : v < 64) :
    enc v = urlChar (Spec.digit v) ∧ Spec.digit v ≠ 61 ∧ t256 (enc v) = v ∧ dv (enc v) = v ∧ isUrlSafe (enc v) := by
  have : ∀ k : Fin 64, enc k.val = urlChar (Spec.digit k.val) ∧ Spec.digit k.val ≠ 61 ∧ t256 (enc k.val) = k.val ∧
      dv (enc k.val) = k.val ∧ isUrlSafe (enc k.val) := by decide +kernel
  exact this ⟨v, h⟩

theorem safe_val (c : Byte) : isUrlSafe c → 0 ≤ t256 c ∧ dv c < 64 ∧ enc (dv c) = c :=
  forall_byte (P := fun c => isUrlSafe c → 0 ≤ t256 c ∧ dv c < 64 ∧ enc (dv c) = c) (by decide +kernel) c

theorem unsafe_val (c : Byte) : ¬ isUrlSafe c → c ≠ 61 → c.toNat < 224 → t256 c = -1 :=
  forall_byte (P := fun c => ¬ isUrlSafe c → c ≠ 61 → c.toNat < 224 → t256 c = -1) (by decide +kernel) c

theorem nonneg_val (c : Byte) : 0 ≤ t256 c → dv c ≤ 64 :=
  forall_byte (P := fun c => 0 ≤ t256 c → dv c ≤ 64) (by decide +kernel) c

theorem e_shr2 (n : Nat) : n >>> 2 = n / 4 := by simp [Nat.shiftRight_eq_div_pow]
theorem e_shr4 (n : Nat) : n >>> 4 = n / 16 := by simp [Nat.shiftRight_eq_div_pow]
theorem e_shr6 (n : Nat) : n >>> 6 = n / 64 := by simp [Nat.shiftRight_eq_div_pow]
theorem e_and3 (n : Nat) : n &&& 0x03 = n % 4 := Nat.and_two_pow_sub_one_eq_mod n 2
theorem e_andf (n : Nat) : n &&& 0x0f = n % 16 := Nat.and_two_pow_sub_one_eq_mod n 4
theorem e_and3f (n : Nat) : n &&& 0x3f = n % 64 := Nat.and_two_pow_sub_one_eq_mod n 6
theorem e_or4 (x y : Nat) (h : y < 16) : (x <<< 4) ||| y = x * 16 + y := by
  rw [← Nat.shiftLeft_add_eq_or_of_lt (i := 4) (by simpa using h), Nat.shiftLeft_eq]
theorem e_or2 (x y : Nat) (h : y < 4) : (x <<< 2) ||| y = x * 4 + y := by
  rw [← Nat.shiftLeft_add_eq_or_of_lt (i := 2) (by simpa using h), Nat.shiftLeft_eq]
theorem e_or6 (x y : Nat) (h : y < 64) : (x <<< 6) ||| y = x * 64 + y := by
  rw [← Nat.shiftLeft_add_eq_or_of_lt (i := 6) (by simpa using h), Nat.shiftLeft_eq]
theorem e_shl4 (n : Nat) : n <<< 4 = n * 16 := by simp [Nat.shiftLeft_eq]
theorem e_shl2 (n : Nat) : n <<< 2 = n * 4 := by simp [Nat.shiftLeft_eq]

/-- digits of an encoded group as numbers -/
theorem enc_group (a b c : Byte) (rest : List Byte) :
    encode (a :: b :: c :: rest) =
      enc (a.toNat / 4) :: enc (a.toNat % 4 * 16 + b.toNat / 16) :: enc (b.toNat % 16 * 4 + c.toNat / 64) ::
      enc (c.toNat % 64) :: encode rest := by
  have hb := b.toNat_lt; have hc := c.toNat_lt
  rw [encode, e_shr2, e_shr4, e_shr6, e_and3, e_andf, e_and3f, e_or4 _ _ (by omega), e_or2 _ _ (by omega)]

theorem enc_two (a b : Byte) :
    encode [a, b] = [enc (a.toNat / 4), enc (a.toNat % 4 * 16 + b.toNat / 16), enc (b.toNat % 16 * 4)] := by
  have hb := b.toNat_lt
  rw [encode, e_shr2, e_shr4, e_and3, e_andf, e_or4 _ _ (by omega), e_shl2]

theorem enc_one (a : Byte) : encode [a] = [enc (a.toNat / 4), enc (a.toNat % 4 * 16)] := by
  rw [encode, e_shr2, e_and3, e_shl4]

theorem o1_eq (p0 p1 : Nat) (h1 : p1 < 64) : o1 p0 p1 = UInt8.ofNat (p0 * 4 + p1 / 16) := by
  unfold o1; rw [e_shr4, e_or2 _ _ (by omega)]

theorem o2_eq (p1 p2 : Nat) (h1 : p1 < 64) (h2 : p2 < 64) :
    o2 p1 p2 = [UInt8.ofNat (p1 % 16 * 16 + p2 / 4)] := by
  unfold o2
  rw [if_pos (by omega), e_shr2]
  have e : (p1 <<< 4) &&& 0xf0 = (p1 % 16) <<< 4 := by
    have : ∀ k : Fin 64, (k.val <<< 4) &&& 0xf0 = (k.val % 16) <<< 4 := by decide +kernel
    exact this ⟨p1, h1⟩
  rw [e, e_or4 _ _ (by omega)]

theorem o3_eq (p2 p3 : Nat) (h1 : p2 < 64) (h2 : p3 < 64) :
    o3 p2 p3 = [UInt8.ofNat (p2 % 4 * 64 + p3)] := by
  unfold o3
  rw [if_pos (by omega)]
  have e : (p2 <<< 6) &&& 0xc0 = (p2 % 4) <<< 6 := by
    have : ∀ k : Fin 64, (k.val <<< 6) &&& 0xc0 = (k.val % 4) <<< 6 := by decide +kernel
    exact this ⟨p2, h1⟩
  rw [e, e_or6 _ _ (by omega)]

/-! ### The encoder -/

/-- **C136.** The encoder writes exactly the RFC 4648 section 5 encoding without padding. -/
theorem c136_rfc (s : List Byte) : encode s = specEncode s := by
  fun_induction encode s with
  | case1 a b c rest ih =>
    have ha := a.toNat_lt; have hb := b.toNat_lt; have hc := c.toNat_lt
    rw [← encode, enc_group, ih]
    unfold specEncode
    simp only [Spec.encode]
    rw [List.filter_cons_of_pos (by simpa using (d_val _ (by omega)).2.1),
      List.filter_cons_of_pos (by simpa using (d_val _ (by omega)).2.1),
      List.filter_cons_of_pos (by simpa using (d_val _ (by omega)).2.1),
      List.filter_cons_of_pos (by simpa using (d_val _ (by omega)).2.1)]
    simp only [List.map_cons]
    rw [(d_val _ (show a.toNat / 4 < 64 by omega)).1, (d_val _ (show a.toNat % 4 * 16 + b.toNat / 16 < 64 by omega)).1,
      (d_val _ (show b.toNat % 16 * 4 + c.toNat / 64 < 64 by omega)).1, (d_val _ (show c.toNat % 64 < 64 by omega)).1]
    congr 1
    · congr 2; omega
    congr 1
    · congr 2; omega
    congr 1
    · congr 2; omega
    congr 3; omega
  | case2 a b =>
    have ha := a.toNat_lt; have hb := b.toNat_lt
    rw [← encode, enc_two]
    unfold specEncode
    simp only [Spec.encode]
    rw [List.filter_cons_of_pos (by simpa using (d_val _ (by omega)).2.1),
      List.filter_cons_of_pos (by simpa using (d_val _ (by omega)).2.1),
      List.filter_cons_of_pos (by simpa using (d_val _ (by omega)).2.1)]
    rw [(d_val _ (show a.toNat / 4 < 64 by omega)).1, (d_val _ (show a.toNat % 4 * 16 + b.toNat / 16 < 64 by omega)).1,
      (d_val _ (show b.toNat % 16 * 4 < 64 by omega)).1]
    simp only [List.map_cons, List.filter_cons, List.filter_nil]
    congr 1
    · congr 2; omega
    congr 1
    · congr 2; omega
    congr 1
    congr 2; omega
  | case3 a =>
    have ha := a.toNat_lt
    rw [← encode, enc_one]
    unfold specEncode
    simp only [Spec.encode]
    rw [List.filter_cons_of_pos (by simpa using (d_val _ (by omega)).2.1),
      List.filter_cons_of_pos (by simpa using (d_val _ (by omega)).2.1)]
    rw [(d_val _ (show a.toNat / 4 < 64 by omega)).1, (d_val _ (show a.toNat % 4 * 16 < 64 by omega)).1]
    simp only [List.map_cons, List.filter_cons, List.filter_nil]
    congr 1
    · congr 2; omega
    congr 1
    congr 2; omega
  | case4 => rfl

/-- **C136, size.** The encoding has exactly the size announced by the macro, and only characters
that need no escaping in a URL. -/
theorem c136_size (s : List Byte) :
    (encode s).length = encodedSize s.length ∧ ∀ c ∈ encode s, isUrlSafe c := by
  fun_induction encode s with
  | case1 a b c rest ih =>
    have ha := a.toNat_lt; have hb := b.toNat_lt; have hc := c.toNat_lt
    rw [← encode, enc_group]
    refine ⟨?_, ?_⟩
    · simp only [List.length_cons, ih.1]; unfold encodedSize; omega
    · simp only [List.mem_cons]
      rintro x (rfl | rfl | rfl | rfl | h)
      · exact (d_val _ (by omega)).2.2.2.2
      · exact (d_val _ (by omega)).2.2.2.2
      · exact (d_val _ (by omega)).2.2.2.2
      · exact (d_val _ (by omega)).2.2.2.2
      · exact ih.2 x h
  | case2 a b =>
    have ha := a.toNat_lt; have hb := b.toNat_lt
    rw [← encode, enc_two]
    refine ⟨by simp [encodedSize], ?_⟩
    simp only [List.mem_cons, List.not_mem_nil, or_false]
    rintro x (rfl | rfl | rfl)
    · exact (d_val _ (by omega)).2.2.2.2
    · exact (d_val _ (by omega)).2.2.2.2
    · exact (d_val _ (by omega)).2.2.2.2
  | case3 a =>
    have ha := a.toNat_lt
    rw [← encode, enc_one]
    refine ⟨by simp [encodedSize], ?_⟩
    simp only [List.mem_cons, List.not_mem_nil, or_false]
    rintro x (rfl | rfl)
    · exact (d_val _ (by omega)).2.2.2.2
    · exact (d_val _ (by omega)).2.2.2.2
  | case4 => exact ⟨rfl, by simp⟩

/-! ### The decoder -/

theorem dec_group (out : List Byte) (p0 p1 p2 p3 : Nat) (h0 : p0 < 64) (h1 : p1 < 64) (h2 : p2 < 64) (h3 : p3 < 64)
    (rest : List Byte) :
    decodeFrom out (enc p0 :: enc p1 :: enc p2 :: enc p3 :: rest) =
    decodeFrom (out ++ [UInt8.ofNat (p0 * 4 + p1 / 16), UInt8.ofNat (p1 % 16 * 16 + p2 / 4),
      UInt8.ofNat (p2 % 4 * 64 + p3)]) rest := by
  have d0 := d_val p0 h0; have d1 := d_val p1 h1; have d2 := d_val p2 h2; have d3 := d_val p3 h3
  rw [decodeFrom, if_neg (by omega), d0.2.2.2.1, d1.2.2.2.1, d2.2.2.2.1, d3.2.2.2.1, o1_eq _ _ h1, o2_eq _ _ h1 h2,
    o3_eq _ _ h2 h3]
  rfl

theorem roundtrip_from (s out : List Byte) : decodeFrom out (encode s) = ⟨out ++ s, (out ++ s).length⟩ := by
  fun_induction encode s generalizing out with
  | case1 a b c rest ih =>
    have ha := a.toNat_lt; have hb := b.toNat_lt; have hc := c.toNat_lt
    rw [← encode, enc_group, dec_group _ _ _ _ _ (by omega) (by omega) (by omega) (by omega), ih,
      ofNat_eq a _ (by omega), ofNat_eq b _ (by omega), ofNat_eq c _ (by omega)]
    simp
  | case2 a b =>
    have ha := a.toNat_lt; have hb := b.toNat_lt
    rw [← encode, enc_two]
    have d0 := d_val (a.toNat / 4) (by omega)
    have d1 := d_val (a.toNat % 4 * 16 + b.toNat / 16) (by omega)
    have d2 := d_val (b.toNat % 16 * 4) (by omega)
    rw [decodeFrom, if_neg (by omega), d0.2.2.2.1, d1.2.2.2.1, d2.2.2.2.1, if_neg (by rw [e_and3]; omega),
      o1_eq _ _ (by omega), o2_eq _ _ (by omega) (by omega), ofNat_eq a _ (by omega), ofNat_eq b _ (by omega)]
  | case3 a =>
    have ha := a.toNat_lt
    rw [← encode, enc_one]
    have d0 := d_val (a.toNat / 4) (by omega)
    have d1 := d_val (a.toNat % 4 * 16) (by omega)
    rw [decodeFrom, if_neg (by omega), d0.2.2.2.1, d1.2.2.2.1, if_neg (by rw [e_andf]; omega),
      o1_eq _ _ (by omega), ofNat_eq a _ (by omega)]
  | case4 => rw [decodeFrom]; simp

/-- **C136.** Decoding an encoding gives the bytes back and returns their number. -/
theorem c136_roundtrip (s : List Byte) : decode (encode s) = ⟨s, s.length⟩ := by
  have := roundtrip_from s []
  simpa [decode] using this

example : encode [0xfb, 0xff, 0xfe, 0x4d] = [45, 95, 95, 45, 84, 81] ∧ encodedSize 4 = 6 := by decide +kernel

theorem sound_from (t out : List Byte) (hs : ∀ c ∈ t, isUrlSafe c) (hr : 0 ≤ (decodeFrom out t).ret) :
    ∃ s, decodeFrom out t = ⟨out ++ s, (out ++ s).length⟩ ∧ encode s = t := by
  fun_induction decodeFrom out t with
  | case1 => simp at hr
  | case2 out a b c d rest h ih =>
    have sa := safe_val a (hs a (by simp)); have sb := safe_val b (hs b (by simp))
    have sc := safe_val c (hs c (by simp)); have sd := safe_val d (hs d (by simp))
    obtain ⟨s, e1, e2⟩ := ih (fun x hx => hs x (by simp [hx])) hr
    rw [o1_eq _ _ sb.2.1, o2_eq _ _ sb.2.1 sc.2.1, o3_eq _ _ sc.2.1 sd.2.1] at e1
    refine ⟨UInt8.ofNat (dv a * 4 + dv b / 16) :: UInt8.ofNat (dv b % 16 * 16 + dv c / 4) ::
      UInt8.ofNat (dv c % 4 * 64 + dv d) :: s, ?_, ?_⟩
    · rw [o1_eq _ _ sb.2.1, o2_eq _ _ sb.2.1 sc.2.1, o3_eq _ _ sc.2.1 sd.2.1, e1]; simp
    · rw [enc_group, e2]
      simp only [UInt8.toNat_ofNat']
      have := sa.2.1; have := sb.2.1; have := sc.2.1; have := sd.2.1
      rw [show (dv a * 4 + dv b / 16) % 2 ^ 8 / 4 = dv a by omega,
        show (dv a * 4 + dv b / 16) % 2 ^ 8 % 4 * 16 + (dv b % 16 * 16 + dv c / 4) % 2 ^ 8 / 16 = dv b by omega,
        show (dv b % 16 * 16 + dv c / 4) % 2 ^ 8 % 16 * 4 + (dv c % 4 * 64 + dv d) % 2 ^ 8 / 64 = dv c by omega,
        show (dv c % 4 * 64 + dv d) % 2 ^ 8 % 64 = dv d by omega, sa.2.2, sb.2.2, sc.2.2, sd.2.2]
  | case3 => exact ⟨[], by simp, rfl⟩
  | case4 => simp at hr
  | case5 => simp at hr
  | case6 out a b c h1 h2 =>
    have sa := safe_val a (hs a (by simp)); have sb := safe_val b (hs b (by simp))
    have sc := safe_val c (hs c (by simp))
    have := sa.2.1; have := sb.2.1; have := sc.2.1
    rw [e_and3] at h2
    refine ⟨_, rfl, ?_⟩
    rw [o1_eq _ _ sb.2.1, o2_eq _ _ sb.2.1 sc.2.1, enc_two]
    simp only [UInt8.toNat_ofNat']
    rw [show (dv a * 4 + dv b / 16) % 2 ^ 8 / 4 = dv a by omega,
        show (dv a * 4 + dv b / 16) % 2 ^ 8 % 4 * 16 + (dv b % 16 * 16 + dv c / 4) % 2 ^ 8 / 16 = dv b by omega,
        show (dv b % 16 * 16 + dv c / 4) % 2 ^ 8 % 16 * 4 = dv c by omega, sa.2.2, sb.2.2, sc.2.2]
  | case7 => simp at hr
  | case8 => simp at hr
  | case9 out a b h1 h2 =>
    have sa := safe_val a (hs a (by simp)); have sb := safe_val b (hs b (by simp))
    have := sa.2.1; have := sb.2.1
    rw [e_andf] at h2
    refine ⟨_, rfl, ?_⟩
    rw [o1_eq _ _ sb.2.1, enc_one]
    simp only [UInt8.toNat_ofNat']
    rw [show (dv a * 4 + dv b / 16) % 2 ^ 8 / 4 = dv a by omega,
        show (dv a * 4 + dv b / 16) % 2 ^ 8 % 4 * 16 = dv b by omega, sa.2.2, sb.2.2]
  | case10 => simp at hr

/-- **C138.** A text of URL-safe characters is accepted exactly if it is the encoding of some bytes,
and then these are the bytes written and counted. So no two such texts decode to the same bytes. -/
theorem c138_exact (t : List Byte) (hs : ∀ c ∈ t, isUrlSafe c) :
    0 ≤ (decode t).ret ↔ ∃ s, encode s = t ∧ decode t = ⟨s, s.length⟩ := by
  constructor
  · intro h
    obtain ⟨s, e1, e2⟩ := sound_from t [] hs h
    exact ⟨s, e2, by simpa [decode] using e1⟩
  · rintro ⟨s, _, e⟩; rw [e]; simp

example : (decode [84, 87, 70, 117]).ret = 3 ∧ (decode [84, 87, 70]).ret = -1 ∧ (decode [84]).ret = -2 := by
  decide +kernel

theorem bad_from (t out : List Byte) (c : Byte) (hc : c ∈ t) (h1 : ¬ isUrlSafe c) (h2 : c ≠ 61) (h3 : c.toNat < 224) :
    (decodeFrom out t).ret < 0 := by
  have hv := unsafe_val c h1 h2 h3
  fun_induction decodeFrom out t with
  | case1 => simp
  | case2 out a b c' d rest h ih =>
    apply ih
    simp only [List.mem_cons] at hc
    rcases hc with rfl | rfl | rfl | rfl | hc
    · omega
    · omega
    · omega
    · omega
    · exact hc
  | case3 => simp at hc
  | case4 => simp
  | case5 => simp
  | case6 out a b c' h =>
    simp only [List.mem_cons, List.not_mem_nil, or_false] at hc
    rcases hc with rfl | rfl | rfl <;> omega
  | case7 => simp
  | case8 => simp
  | case9 out a b h =>
    simp only [List.mem_cons, List.not_mem_nil, or_false] at hc
    rcases hc with rfl | rfl <;> omega
  | case10 => simp

/-- **C138.** A text with a byte below 224 that is neither URL-safe nor `=` is refused. -/
theorem c138_refused (t : List Byte) (c : Byte) (hc : c ∈ t) (h1 : ¬ isUrlSafe c) (h2 : c ≠ 61) (h3 : c.toNat < 224) :
    (decode t).ret < 0 := bad_from t [] c hc h1 h2 h3

theorem o2_len (p q : Nat) : (o2 p q).length ≤ 1 := by unfold o2; split <;> simp
theorem o3_len (p q : Nat) : (o3 p q).length ≤ 1 := by unfold o3; split <;> simp

theorem bound_from (t out : List Byte) :
    4 * (decodeFrom out t).buf.length ≤ 4 * out.length + 3 * t.length ∧
    ((decodeFrom out t).ret = (decodeFrom out t).buf.length ∨ (decodeFrom out t).ret = -1 ∨
      ((decodeFrom out t).ret = -2 ∧ t.length % 4 = 1)) ∧ out <+: (decodeFrom out t).buf := by
  fun_induction decodeFrom out t with
  | case1 => exact ⟨by simp, by simp, by simp⟩
  | case2 out a b c d rest h ih =>
    have := o2_len (dv b) (dv c); have := o3_len (dv c) (dv d)
    obtain ⟨i1, i2, i3⟩ := ih
    simp only [List.length_append, List.length_cons] at i1 ⊢
    refine ⟨by omega, ?_, (List.prefix_append _ _).trans i3⟩
    rcases i2 with i | i | ⟨i, j⟩
    · exact Or.inl i
    · exact Or.inr (Or.inl i)
    · exact Or.inr (Or.inr ⟨i, by omega⟩)
  | case3 => exact ⟨by simp, by simp, by simp⟩
  | case4 => exact ⟨by simp, by simp, by simp⟩
  | case5 out a b c =>
    have := o2_len (dv b) (dv c)
    refine ⟨?_, by simp, by simp⟩
    simp only [List.length_append, List.length_cons, List.length_nil]; omega
  | case6 out a b c =>
    have := o2_len (dv b) (dv c)
    refine ⟨?_, by simp, by simp⟩
    simp only [List.length_append, List.length_cons, List.length_nil]; omega
  | case7 => exact ⟨by simp, by simp, by simp⟩
  | case8 => refine ⟨?_, by simp, by simp⟩; simp only [List.length_append, List.length_cons, List.length_nil]; omega
  | case9 => refine ⟨?_, by simp, by simp⟩; simp only [List.length_append, List.length_cons, List.length_nil]; omega
  | case10 => exact ⟨by simp, by simp, by simp⟩

/-- **C138.** Whatever the input, also if it is refused, at most three quarters of its length are
written, and the return value is the number of bytes written or an error code. -/
theorem c138_bound (t : List Byte) :
    (decode t).buf.length ≤ t.length * 3 / 4 ∧
    ((decode t).ret = (decode t).buf.length ∨ (decode t).ret = -1 ∨ ((decode t).ret = -2 ∧ t.length % 4 = 1)) := by
  have := bound_from t []
  simp only [List.length_nil, Nat.mul_zero, Nat.zero_add] at this
  exact ⟨by unfold decode; omega, this.2.1⟩

theorem url61 : urlChar 61 = 61 := by decide

theorem padded_from (s out : List Byte) : decodeFrom out (specPadded s) = ⟨out ++ s, (out ++ s).length⟩ := by
  unfold specPadded
  fun_induction Spec.encode s generalizing out with
  | case1 a b c rest n ih =>
    have ha := a.toNat_lt; have hb := b.toNat_lt; have hc := c.toNat_lt
    have hn : n = a.toNat * 65536 + b.toNat * 256 + c.toNat := rfl
    clear_value n
    simp only [List.map_cons]
    rw [← (d_val _ (show n / 262144 < 64 by omega)).1, ← (d_val _ (show n / 4096 % 64 < 64 by omega)).1,
      ← (d_val _ (show n / 64 % 64 < 64 by omega)).1, ← (d_val _ (show n % 64 < 64 by omega)).1,
      dec_group _ _ _ _ _ (by omega) (by omega) (by omega) (by omega), ih,
      ofNat_eq a _ (by omega), ofNat_eq b _ (by omega), ofNat_eq c _ (by omega)]
    simp
  | case2 a b n =>
    have ha := a.toNat_lt; have hb := b.toNat_lt
    have hn : n = a.toNat * 65536 + b.toNat * 256 := rfl
    clear_value n
    simp only [List.map_cons, List.map_nil, url61]
    have d0 := d_val (n / 262144) (by omega)
    have d1 := d_val (n / 4096 % 64) (by omega)
    have d2 := d_val (n / 64 % 64) (by omega)
    have t61 : t256 61 = 64 := by decide +kernel
    have v61 : dv 61 = 64 := by decide +kernel
    rw [← d0.1, ← d1.1, ← d2.1, decodeFrom, if_neg (by omega), d0.2.2.2.1, d1.2.2.2.1, d2.2.2.2.1, v61,
      o1_eq _ _ (by omega), o2_eq _ _ (by omega) (by omega), ofNat_eq a _ (by omega), ofNat_eq b _ (by omega), decodeFrom]
    simp [o3]
  | case3 a n =>
    have ha := a.toNat_lt
    have hn : n = a.toNat * 65536 := rfl
    clear_value n
    simp only [List.map_cons, List.map_nil, url61]
    have d0 := d_val (n / 262144) (by omega)
    have d1 := d_val (n / 4096 % 64) (by omega)
    have t61 : t256 61 = 64 := by decide +kernel
    have v61 : dv 61 = 64 := by decide +kernel
    rw [← d0.1, ← d1.1, decodeFrom, if_neg (by omega), d0.2.2.2.1, d1.2.2.2.1, v61,
      o1_eq _ _ (by omega), ofNat_eq a _ (by omega), decodeFrom]
    simp [o2, o3]
  | case4 => rw [List.map_nil, decodeFrom]; simp

/-- **C138.** The decoder also takes the encoding with padding. -/
theorem c138_padded (s : List Byte) : decode (specPadded s) = ⟨s, s.length⟩ := by
  have := padded_from s []
  simpa [decode] using this

theorem map_from (f : Byte → Byte) (hf : ∀ c, t256 (f c) = t256 c) (t out : List Byte) :
    decodeFrom out (t.map f) = decodeFrom out t := by
  have hd : ∀ c, dv (f c) = dv c := by intro c; unfold dv; rw [hf]
  fun_induction decodeFrom out t with
  | case1 out a b c d rest h => simp only [List.map_cons, decodeFrom, hf, if_pos h]
  | case2 out a b c d rest h ih => simp only [List.map_cons, decodeFrom, hf, hd, if_neg h, ih]
  | case3 => rfl
  | case4 out a b c h => simp only [List.map_cons, List.map_nil, decodeFrom, hf, if_pos h]
  | case5 out a b c h h2 => simp only [List.map_cons, List.map_nil, decodeFrom, hf, hd, if_neg h, if_pos h2]
  | case6 out a b c h h2 => simp only [List.map_cons, List.map_nil, decodeFrom, hf, hd, if_neg h, if_neg h2]
  | case7 out a b h => simp only [List.map_cons, List.map_nil, decodeFrom, hf, if_pos h]
  | case8 out a b h h2 => simp only [List.map_cons, List.map_nil, decodeFrom, hf, hd, if_neg h, if_pos h2]
  | case9 out a b h h2 => simp only [List.map_cons, List.map_nil, decodeFrom, hf, hd, if_neg h, if_neg h2]
  | case10 => rfl

theorem high_val (c : Byte) : 224 ≤ c.toNat → t256 c = 0 ∧ ¬ isUrlSafe c :=
  forall_byte (P := fun c => 224 ≤ c.toNat → t256 c = 0 ∧ ¬ isUrlSafe c) (by decide +kernel) c

/-- **C137 violation.** The decoding table has only 14 of its 16 rows, so every byte from 0xE0 to
0xFF is not refused but taken as `A`: with every `A` of an encoding replaced by such a byte, it
decodes to the same bytes. -/
theorem c137_high_bytes_violated (c : Byte) (h : 224 ≤ c.toNat) :
    ¬ isUrlSafe c ∧ ∀ s, decode ((encode s).map (fun x => if x = 65 then c else x)) = ⟨s, s.length⟩ := by
  obtain ⟨h0, h1⟩ := high_val c h
  refine ⟨h1, fun s => ?_⟩
  unfold decode
  rw [map_from, ← decode, c136_roundtrip]
  intro x
  by_cases hx : x = 65
  · rw [if_pos hx, h0, hx]; decide +kernel
  · rw [if_neg hx]

/-- **C137 violation.** A padding character is accepted everywhere and counted as a digit of value
64: `A=AA`, `====` and `A=` are accepted although they encode nothing. -/
theorem c137_padding_violated :
    decode [65, 61, 65, 65] = ⟨[4, 0, 0], 3⟩ ∧ decode [61, 61, 61, 61] = ⟨[4], 1⟩ ∧ decode [65, 61] = ⟨[4], 1⟩ ∧
    (∀ s, encode s ≠ [65, 61, 65, 65] ∧ specPadded s ≠ [65, 61, 65, 65]) := by
  refine ⟨by decide +kernel, by decide +kernel, by decide +kernel, fun s => ⟨fun h => ?_, fun h => ?_⟩⟩
  · have := (c136_size s).2 61 (by rw [h]; simp)
    exact absurd this (by decide)
  · have e : decode (specPadded s) = ⟨[4, 0, 0], 3⟩ := by rw [h]; decide +kernel
    rw [c138_padded] at e
    have e2 : s = [4, 0, 0] := by injection e
    rw [e2] at h
    exact absurd h (by decide +kernel)

end Ltio.Base64.UrlSafe
