import Verif.Redis.RespChunk2
/-
The RESP wire format, independent of the decoder, and the theorem that the decoder inverts it.
-/
namespace Ltio.Redis

/-- Decimal text of a natural number. -/
def decText (n : Nat) : List UInt8 :=
  if n < 10 then [UInt8.ofNat (48 + n)] else decText (n / 10) ++ [UInt8.ofNat (48 + n % 10)]
termination_by n

/-- Decimal text of an integer. -/
def intText (i : Int) : List UInt8 :=
  if i < 0 then 45 :: decText i.natAbs else decText i.natAbs

def crlf : List UInt8 := [13, 10]

mutual
/-- The RESP encoding of a value. -/
def enc : Val → List UInt8
  | .null => [36, 45, 49, 13, 10]
  | .str b => 43 :: (b ++ crlf)
  | .err b => 45 :: (b ++ crlf)
  | .int i => 58 :: (intText i ++ crlf)
  | .bulk b => 36 :: (decText b.length ++ crlf ++ (b ++ crlf))
  | .arr vs => 42 :: (decText vs.length ++ crlf ++ encs vs)
/-- The encodings of a list of values, one after the other. -/
def encs : List Val → List UInt8
  | [] => []
  | v :: vs => enc v ++ encs vs
end

mutual
/-- Values whose encoding the decoder is meant to accept: lines of printable ASCII, 64-bit
integers, lengths below 2^63. -/
def Wf : Val → Prop
  | .null => True
  | .str b => ∀ c ∈ b, 32 ≤ c.toNat ∧ c.toNat < 127
  | .err b => ∀ c ∈ b, 32 ≤ c.toNat ∧ c.toNat < 127
  | .int i => -(2 ^ 63) ≤ i ∧ i < 2 ^ 63
  | .bulk b => b.length < 2 ^ 63
  | .arr vs => vs.length < 2 ^ 63 ∧ Wfs vs
def Wfs : List Val → Prop
  | [] => True
  | v :: vs => Wf v ∧ Wfs vs
end

/-! ### Numbers -/

theorem toNat_digit (k : Nat) (h : k < 10) : (UInt8.ofNat (48 + k)).toNat = 48 + k := by
  rw [UInt8.toNat_ofNat']; omega

def IsDigits (b : List UInt8) : Prop := ∀ c ∈ b, 48 ≤ c.toNat ∧ c.toNat ≤ 57

theorem decText_digits (n : Nat) : IsDigits (decText n) := by
  induction n using Nat.strongRecOn with
  | ind n ih =>
    intro c hc
    rw [decText] at hc
    split at hc
    · simp only [List.mem_singleton] at hc
      subst hc
      rw [toNat_digit n (by assumption)]
      omega
    · rcases List.mem_append.1 hc with hc | hc
      · exact ih _ (by omega) c hc
      · simp only [List.mem_singleton] at hc
        subst hc
        rw [toNat_digit _ (Nat.mod_lt _ (by omega))]
        omega

theorem decText_ne (n : Nat) : decText n ≠ [] := by
  rw [decText]
  split <;> simp

theorem decText_len (k : Nat) : ∀ n, n < 10 ^ (k + 1) → (decText n).length ≤ k + 1 := by
  induction k with
  | zero =>
    intro n h
    rw [decText]
    have : n < 10 := by simpa using h
    simp [this]
  | succ k ih =>
    intro n h
    rw [decText]
    split
    · simp
    · have : n / 10 < 10 ^ (k + 1) := by
        rw [Nat.div_lt_iff_lt_mul (by omega)]
        rw [Nat.pow_succ] at h
        exact h
      have := ih _ this
      simp only [List.length_append, List.length_singleton]
      omega

theorem digitsVal_append (xs : List UInt8) (h : IsDigits xs) : ∀ (acc : Nat) (ys : List UInt8),
    digitsVal acc (xs ++ ys) = digitsVal (digitsVal acc xs) ys := by
  induction xs with
  | nil => intro acc ys; rfl
  | cons c cs ih =>
    intro acc ys
    have hc := h c List.mem_cons_self
    simp only [List.cons_append, digitsVal, hc, and_self, if_true]
    exact ih (fun c' hc' => h c' (List.mem_cons_of_mem _ hc')) _ _

theorem digitsVal_decText (n : Nat) : digitsVal 0 (decText n) = n := by
  induction n using Nat.strongRecOn with
  | ind n ih =>
    rw [decText]
    split
    · rename_i h
      simp only [digitsVal, toNat_digit n h]
      have : 48 ≤ 48 + n ∧ 48 + n ≤ 57 := by omega
      simp only [this, and_self, if_true]
      omega
    · rename_i h
      have hm : n % 10 < 10 := Nat.mod_lt _ (by omega)
      rw [digitsVal_append _ (decText_digits _), ih _ (by omega)]
      simp only [digitsVal, toNat_digit _ hm]
      have : 48 ≤ 48 + n % 10 ∧ 48 + n % 10 ≤ 57 := by omega
      simp only [this, and_self, if_true]
      omega

theorem strtol_decText (n : Nat) (h : n < 2 ^ 63) : strtol (decText n) = n := by
  have hv := digitsVal_decText n
  have hd := decText_digits n
  cases ht : decText n with
  | nil => exact absurd ht (decText_ne n)
  | cons c cs =>
    rw [ht] at hv hd
    have hc := hd c List.mem_cons_self
    have : ¬ c.toNat = 45 := by omega
    simp only [strtol, this, if_false, hv]
    omega

theorem strtol_intText (i : Int) (h1 : -(2 ^ 63) ≤ i) (h2 : i < 2 ^ 63) :
    strtol (intText i) = i := by
  unfold intText
  split
  · simp only [strtol, digitsVal_decText]
    rw [if_pos (by decide)]
    omega
  · rw [strtol_decText _ (by omega)]
    omega

/-- Whatever digits a server sends, the number read fits a 64-bit integer, and a number out of range
reads as the nearest one that fits. -/
theorem strtol_saturates (b : List UInt8) : -(2 ^ 63) ≤ strtol b ∧ strtol b < 2 ^ 63 := by
  unfold strtol
  cases b with
  | nil => simp
  | cons c cs => simp only; split <;> omega

theorem strtol_out_of_range (n : Nat) (h : 2 ^ 63 ≤ n) :
    strtol (decText n) = 2 ^ 63 - 1 ∧ strtol (45 :: decText n) = -(2 ^ 63) := by
  have hv := digitsVal_decText n
  have hd := decText_digits n
  constructor
  · cases ht : decText n with
    | nil => exact absurd ht (decText_ne n)
    | cons c cs =>
      rw [ht] at hv hd
      have hc := hd c List.mem_cons_self
      have : ¬ c.toNat = 45 := by omega
      simp only [strtol, this, if_false, hv]
      omega
  · simp only [strtol, hv]
    rw [if_pos (by decide)]
    omega

def IsNum (b : List UInt8) : Prop := ∀ c ∈ b, numChar c = true

theorem isNum_digits {b : List UInt8} (h : IsDigits b) : IsNum b := by
  intro c hc
  have := h c hc
  simp [numChar, this]

theorem intText_num (i : Int) : IsNum (intText i) := by
  unfold intText
  split
  · intro c hc
    rcases List.mem_cons.1 hc with rfl | hc
    · decide
    · exact isNum_digits (decText_digits _) c hc
  · exact isNum_digits (decText_digits _)

theorem intText_ne (i : Int) : intText i ≠ [] := by
  unfold intText
  split
  · simp
  · exact decText_ne _

theorem decText_lt32 (n : Nat) (h : n ≤ 2 ^ 63) : (decText n).length < 31 := by
  have : n < 10 ^ (18 + 1) := by
    have : (2 : Nat) ^ 63 < 10 ^ 19 := by decide
    omega
  have := decText_len 18 n this
  omega

theorem intText_lt32 (i : Int) (h1 : -(2 ^ 63) ≤ i) (h2 : i < 2 ^ 63) :
    (intText i).length < 32 := by
  unfold intText
  split
  · have := decText_lt32 i.natAbs (by omega)
    simp only [List.length_cons]
    omega
  · have := decText_lt32 i.natAbs (by omega)
    omega

/-! ### Lines -/

theorem scan_num (S L : Stat) (hS : notBulk S) (hact : ∀ b c, act S b c = numStep b c S L)
    (t : List UInt8) (ht : IsNum t) : ∀ (b0 : List UInt8) (i : Nat) (rest : List UInt8),
    b0 ++ t ≠ [] → scan ⟨S, b0⟩ i (t ++ 13 :: rest) = scan ⟨L, b0 ++ t⟩ (i + t.length + 1) rest := by
  induction t with
  | nil =>
    intro b0 i rest hne
    rw [List.nil_append, scan_act _ hS, hact]
    rw [List.append_nil] at hne
    have : b0.isEmpty = false := by cases b0 <;> simp_all
    simp [numStep, this]
  | cons c cs ih =>
    intro b0 i rest hne
    rw [List.cons_append, scan_act _ hS, hact]
    have hc : numChar c = true := ht c List.mem_cons_self
    have h13 : ¬ c.toNat = 13 := by
      intro h
      simp [numChar, h] at hc
    simp only [numStep, h13, hc, if_true, if_false]
    rw [ih (fun c' hc' => ht c' (List.mem_cons_of_mem _ hc')) (b0 ++ [c]) (i + 1) rest (by simp)]
    simp only [List.append_assoc, List.cons_append, List.nil_append, List.length_cons]
    congr 1
    omega

theorem scan_line (S L : Stat) (hS : notBulk S) (hact : ∀ b c, act S b c = lineStep b c S L)
    (t : List UInt8) (ht : ∀ c ∈ t, 32 ≤ c.toNat ∧ c.toNat < 127) :
    ∀ (b0 : List UInt8) (i : Nat) (rest : List UInt8),
    scan ⟨S, b0⟩ i (t ++ 13 :: rest) = scan ⟨L, b0 ++ t⟩ (i + t.length + 1) rest := by
  induction t with
  | nil =>
    intro b0 i rest
    rw [List.nil_append, scan_act _ hS, hact]
    simp [lineStep]
  | cons c cs ih =>
    intro b0 i rest
    rw [List.cons_append, scan_act _ hS, hact]
    have hc := ht c List.mem_cons_self
    have h13 : ¬ c.toNat = 13 := by omega
    have hp : printable c = true := by simp [printable, hc]
    simp only [lineStep, h13, hp, if_true, if_false]
    rw [ih (fun c' hc' => ht c' (List.mem_cons_of_mem _ hc')) (b0 ++ [c]) (i + 1) rest]
    simp only [List.append_assoc, List.cons_append, List.nil_append, List.length_cons]
    congr 1
    omega

theorem nb (s : Stat) (h : ∀ m, s ≠ .bulk m) : notBulk s := h

theorem scan_start (b : List UInt8) (i : Nat) (c : UInt8) (cs : List UInt8) (l' : Leaf)
    (h : act .start b c = .go l') : scan ⟨.start, b⟩ i (c :: cs) = scan l' (i + 1) cs := by
  rw [scan_act _ (by intro m; simp)]
  simp only [h]

theorem scan_lf (L : Stat) (hL : notBulk L) (b : List UInt8) (i : Nat) (cs : List UInt8)
    (l' : Leaf) (v : Val) (h : act L b 10 = .val l' v) :
    scan ⟨L, b⟩ i (10 :: cs) = .val l' (i + 1) v := by
  rw [scan_act _ hL]
  simp only [h]

/-! ### The decoder inverts the encoding -/

theorem scan_str (t : List UInt8) (ht : ∀ c ∈ t, 32 ≤ c.toNat ∧ c.toNat < 127) (b : List UInt8)
    (i : Nat) (rest : List UInt8) : scan ⟨.start, b⟩ i (enc (.str t) ++ rest) =
      .val ⟨.start, t⟩ (i + (enc (.str t)).length) (.str t) := by
  simp only [enc, crlf, List.cons_append, List.append_assoc, List.nil_append]
  rw [scan_start _ _ _ _ ⟨.str, []⟩ rfl,
    scan_line .str .strLf (by intro m; simp) (fun _ _ => rfl) t ht,
    scan_lf _ (by intro m; simp) _ _ _ ⟨.start, [] ++ t⟩ (.str ([] ++ t)) rfl]
  simp only [List.nil_append, List.length_cons, List.length_append, List.length_nil]
  congr 1
  omega

theorem scan_err (t : List UInt8) (ht : ∀ c ∈ t, 32 ≤ c.toNat ∧ c.toNat < 127) (b : List UInt8)
    (i : Nat) (rest : List UInt8) : scan ⟨.start, b⟩ i (enc (.err t) ++ rest) =
      .val ⟨.start, t⟩ (i + (enc (.err t)).length) (.err t) := by
  simp only [enc, crlf, List.cons_append, List.append_assoc, List.nil_append]
  rw [scan_start _ _ _ _ ⟨.errStr, []⟩ rfl,
    scan_line .errStr .errLf (by intro m; simp) (fun _ _ => rfl) t ht,
    scan_lf _ (by intro m; simp) _ _ _ ⟨.start, [] ++ t⟩ (.err ([] ++ t)) rfl]
  simp only [List.nil_append, List.length_cons, List.length_append, List.length_nil]
  congr 1
  omega

theorem scan_int (n : Int) (h1 : -(2 ^ 63) ≤ n) (h2 : n < 2 ^ 63) (b : List UInt8)
    (i : Nat) (rest : List UInt8) : scan ⟨.start, b⟩ i (enc (.int n) ++ rest) =
      .val ⟨.start, []⟩ (i + (enc (.int n)).length) (.int n) := by
  simp only [enc, crlf, List.cons_append, List.append_assoc, List.nil_append]
  rw [scan_start _ _ _ _ ⟨.int, []⟩ rfl,
    scan_num .int .intLf (by intro m; simp) (fun _ _ => rfl) _ (intText_num n) _ _ _
      (by simpa using intText_ne n),
    scan_lf _ (by intro m; simp) _ _ _ ⟨.start, []⟩ (.int n)]
  · simp only [List.length_cons, List.length_append, List.length_nil]
    congr 1
    omega
  · have := intText_lt32 n h1 h2
    simp [act, this, strtol_intText n h1 h2]

theorem scan_null (b : List UInt8) (i : Nat) (rest : List UInt8) :
    scan ⟨.start, b⟩ i (enc .null ++ rest) = .val ⟨.start, []⟩ (i + (enc .null).length) .null := by
  simp only [enc, List.cons_append, List.nil_append]
  rw [scan_start _ _ _ _ ⟨.bulkSize, []⟩ rfl]
  have := scan_num .bulkSize .bulkSizeLf (by intro m; simp) (fun _ _ => rfl) [45, 49]
    (by intro c hc; simp at hc; rcases hc with rfl | rfl <;> decide) [] (i + 1) (10 :: rest)
    (by simp)
  simp only [List.cons_append, List.nil_append] at this
  rw [this, scan_lf _ (by intro m; simp) _ _ _ ⟨.start, []⟩ .null]
  · simp
  · rfl

theorem scan_bulkstr (t : List UInt8) (ht : t.length < 2 ^ 63) (b : List UInt8)
    (i : Nat) (rest : List UInt8) : scan ⟨.start, b⟩ i (enc (.bulk t) ++ rest) =
      .val ⟨.start, t⟩ (i + (enc (.bulk t)).length) (.bulk t) := by
  simp only [enc, crlf, List.cons_append, List.append_assoc, List.nil_append]
  rw [scan_start _ _ _ _ ⟨.bulkSize, []⟩ rfl,
    scan_num .bulkSize .bulkSizeLf (by intro m; simp) (fun _ _ => rfl) _
      (isNum_digits (decText_digits _)) _ _ _ (by simpa using decText_ne _)]
  have hlen := decText_lt32 t.length (by omega)
  have hval := strtol_decText t.length ht
  have hlt : (decText t.length).length < 32 := by omega
  rw [scan_act _ (by intro m; simp)]
  have tail : ∀ j, scan ⟨.bulkCr, t⟩ j (13 :: 10 :: rest) = .val ⟨.start, t⟩ (j + 2) (.bulk t) := by
    intro j
    rw [scan_act _ (by intro m; simp)]
    simp only [act]
    rw [if_pos (by decide)]
    simp only
    rw [scan_lf _ (by intro m; simp) _ _ _ ⟨.start, t⟩ (.bulk t) rfl]
  cases t with
  | nil =>
    have : act .bulkSizeLf ([] ++ decText ([] : List UInt8).length) 10 = .go ⟨.bulkCr, []⟩ := by
      simp only [List.nil_append, act, hlt, hval, if_true]
      rfl
    simp only [this]
    rw [List.nil_append, tail]
    simp only [List.length_cons, List.length_append, List.length_nil]
    congr 1
    omega
  | cons c cs =>
    have : act .bulkSizeLf ([] ++ decText (c :: cs).length) 10 = .body (c :: cs).length := by
      have e1 : ¬ ((c :: cs).length : Int) = -1 := by omega
      have e2 : ¬ ((c :: cs).length : Int) = 0 := by simp only [List.length_cons]; omega
      have e3 : ¬ ((c :: cs).length : Int) < 0 := by omega
      simp only [List.nil_append, act, hlt, hval, if_true, e1, e2, e3, if_false]
      rfl
    simp only [this]
    have h1 : ¬ ((c :: cs).length > (c :: cs ++ 13 :: 10 :: rest).length) := by
      simp only [List.length_append]; omega
    have h2 : min (c :: cs).length (c :: cs ++ 13 :: 10 :: rest).length = (c :: cs).length := by
      simp only [List.length_append]; omega
    simp only [h1, if_false, h2, List.take_left, List.drop_left]
    rw [tail]
    simp only [List.length_cons, List.length_append, List.length_nil]
    congr 1
    omega

theorem scan_arr (n : Nat) (hn : n < 2 ^ 63) (b : List UInt8) (i : Nat) (rest : List UInt8) :
    scan ⟨.start, b⟩ i (42 :: (decText n ++ crlf ++ rest)) =
      if n = 0 then .val ⟨.start, []⟩ (i + (decText n).length + 3) (.arr [])
      else .hdr ⟨.start, []⟩ (i + (decText n).length + 3) n := by
  simp only [crlf, List.cons_append, List.append_assoc, List.nil_append]
  rw [scan_start _ _ _ _ ⟨.arrSize, []⟩ rfl,
    scan_num .arrSize .arrSizeLf (by intro m; simp) (fun _ _ => rfl) _
      (isNum_digits (decText_digits _)) _ _ _ (by simpa using decText_ne _)]
  have hlen := decText_lt32 n (by omega)
  have hval := strtol_decText n hn
  have hlt : (decText n).length < 32 := by omega
  rw [scan_act _ (by intro m; simp)]
  by_cases h0 : n = 0
  · subst h0
    have : act .arrSizeLf ([] ++ decText 0) 10 = .val ⟨.start, []⟩ (.arr []) := by
      simp only [List.nil_append, act, hlt, hval, if_true]
      simp
    simp only [this, if_true]
    congr 1
    omega
  · have : act .arrSizeLf ([] ++ decText n) 10 = .hdr ⟨.start, []⟩ n := by
      have e1 : ¬ ((n : Int) = -1 ∨ (n : Int) = 0) := by omega
      have e3 : ¬ (n : Int) < 0 := by omega
      simp only [List.nil_append, act, hlt, hval, if_true, e1, e3, if_false]
      rfl
    simp only [this, h0, if_false]
    congr 1
    omega

mutual
/-- The decoder reads back exactly the encoded value and exactly its bytes. -/
theorem decodeChunk_enc : ∀ (v : Val) (_ : Wf v) (b rest : List UInt8),
    ∃ b', decodeChunk ⟨.start, b⟩ (enc v ++ rest) = .ok ⟨⟨.start, b'⟩, []⟩ (enc v).length v
  | .null, _, b, rest => ⟨[], by rw [decodeChunk_eq, scan_null]; simp⟩
  | .str t, h, b, rest => ⟨t, by
      rw [Wf] at h; rw [decodeChunk_eq, scan_str t h]; simp⟩
  | .err t, h, b, rest => ⟨t, by
      rw [Wf] at h; rw [decodeChunk_eq, scan_err t h]; simp⟩
  | .int n, h, b, rest => ⟨[], by
      rw [Wf] at h; rw [decodeChunk_eq, scan_int n h.1 h.2]; simp⟩
  | .bulk t, h, b, rest => ⟨t, by
      rw [Wf] at h; rw [decodeChunk_eq, scan_bulkstr t h]; simp⟩
  | .arr vs, h, b, rest => by
      rw [Wf] at h
      obtain ⟨b', hb⟩ := arrLoop_encs vs h.2 [] [] 0 rest
      have e : enc (.arr vs) ++ rest = 42 :: (decText vs.length ++ crlf ++ (encs vs ++ rest)) := by
        rw [enc]; simp
      have el : (enc (.arr vs)).length = (decText vs.length).length + 3 + (encs vs).length := by
        rw [enc]; simp [crlf]; omega
      rw [decodeChunk_eq, e, scan_arr _ h.1]
      cases vs with
      | nil =>
        refine ⟨[], ?_⟩
        rw [el]
        simp [encs]
      | cons v vs' =>
        have h0 : ¬ (v :: vs').length = 0 := by simp
        simp only [h0, if_false]
        have hd : (42 :: (decText (v :: vs').length ++ crlf ++ (encs (v :: vs') ++ rest))).drop
            (0 + (decText (v :: vs').length).length + 3) = encs (v :: vs') ++ rest := by
          rw [← List.cons_append]
          have : 0 + (decText (v :: vs').length).length + 3 =
              (42 :: (decText (v :: vs').length ++ crlf)).length := by
            simp [crlf]
          rw [this, List.drop_left]
        rw [hd]
        by_cases hk : 0 + (decText (v :: vs').length).length + 3 =
            (42 :: (decText (v :: vs').length ++ crlf ++ (encs (v :: vs') ++ rest))).length
        · exfalso
          have hpos : 0 < (encs (v :: vs')).length := by
            rw [encs]
            have : 0 < (enc v).length := by cases v <;> simp [enc]
            simp only [List.length_append]; omega
          simp only [List.length_cons, List.length_append, crlf, List.length_nil] at hk hpos
          omega
        · simp only [hk, if_false]
          refine ⟨b', ?_⟩
          rw [hb, el]
          simp [R.shift]
theorem arrLoop_encs : ∀ (vs : List Val) (_ : Wfs vs) (b : List UInt8) (acc : List Val) (i : Nat)
    (rest : List UInt8), ∃ b', arrLoop ⟨.start, b⟩ vs.length acc i (encs vs ++ rest) =
      .ok ⟨⟨.start, b'⟩, []⟩ (i + (encs vs).length) (.arr (acc ++ vs))
  | [], _, b, acc, i, rest => ⟨b, by simp [arrLoop_zero, encs]⟩
  | v :: vs, h, b, acc, i, rest => by
      rw [Wfs] at h
      obtain ⟨b1, h1⟩ := decodeChunk_enc v h.1 b (encs vs ++ rest)
      obtain ⟨b2, h2⟩ := arrLoop_encs vs h.2 b1 (acc ++ [v]) (i + (enc v).length) rest
      refine ⟨b2, ?_⟩
      rw [encs, List.length_cons, arrLoop_succ, List.append_assoc, h1]
      simp only [List.drop_left]
      rw [h2]
      simp [Nat.add_assoc]
end

theorem decode_enc (v : Val) (h : Wf v) (b rest : List UInt8) :
    ∃ b', decode ⟨⟨.start, b⟩, []⟩ (enc v ++ rest) = .ok ⟨⟨.start, b'⟩, []⟩ (enc v).length v :=
  decodeChunk_enc v h b rest

end Ltio.Redis
