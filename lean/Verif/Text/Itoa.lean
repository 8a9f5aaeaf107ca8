import Mathlib.Data.Nat.Digits.Defs
/-
Model of `itoa_r` (base/utils/ns_convertor.cc:35-93).

The buffer is a list of characters whose length is the buffer size `sz`; every store is checked,
`none` is a store outside the buffer.  `intptr_t` is 64 bits.
-/
namespace Ltio.Itoa

/-- `*p = c`. -/
def wr (b : List Char) (k : Nat) (c : Char) : Option (List Char) :=
  if k < b.length then some (b.set k c) else none

def nul : Char := Char.ofNat 0

theorem nul_is_zero : nul.toNat = 0 := by decide

/-- `"0123456789abcdef"[d]` (line 72). -/
def hexDigit (d : Nat) : Char := "0123456789abcdef".toList.getD d nul

/-- Outcome of the conversion loop: failed with the buffer given, or done with `ptr`. -/
inductive LoopRes where
  | fail (b : List Char)
  | done (b : List Char) (ptr : Nat)

/-- The do-while loop (lines 63-77).  `sz` is the size argument. -/
def digitLoop (sz base : Nat) (hb : 2 ≤ base) (b : List Char) (ptr n j padding : Nat) :
    Option LoopRes :=
  if n + 1 > sz then
    match wr b 0 nul with
    | none => none
    | some b' => some (.fail b')
  else
    match wr b ptr (hexDigit (j % base)) with
    | none => none
    | some b' =>
      if j / base > 0 ∨ padding - 1 > 0 then
        digitLoop sz base hb b' (ptr + 1) (n + 1) (j / base) (padding - 1)
      else some (.done b' (ptr + 1))
termination_by j + padding
decreasing_by
  rename_i h
  rcases Nat.eq_zero_or_pos j with h0 | h0
  · subst h0; simp at h ⊢; omega
  · have := Nat.div_lt_self h0 hb
    omega

/-- The reversing loop (lines 86-90): `hi` is `ptr` before `--ptr`. -/
def reverseLoop (b : List Char) (lo hi : Nat) : Option (List Char) :=
  if hi - 1 > lo then
    match b[hi - 1]?, b[lo]? with
    | some x, some y =>
      match wr b (hi - 1) y with
      | none => none
      | some b1 => match wr b1 lo x with
        | none => none
        | some b2 => reverseLoop b2 (lo + 1) (hi - 1)
    | _, _ => none
  else some b
termination_by hi - lo

/-- `itoa_r`: the final buffer and whether the pointer returned is not NULL. -/
def itoa (i : Int) (b : List Char) (sz : Nat) (base : Int) (padding : Nat) :
    Option (List Char × Bool) :=
  if 1 > sz then some (b, false)
  else if h : base < 2 ∨ base > 16 then (wr b 0 nul).map (fun b' => (b', false))
  else
    have hb : 2 ≤ base.toNat := by omega
    if i < 0 ∧ base = 10 then
      -- j = (uintptr_t)(-(i + 1)) + 1
      if 2 > sz then (wr b 0 nul).map (fun b' => (b', false))
      else match wr b 0 '-' with
        | none => none
        | some b1 =>
          match digitLoop sz base.toNat hb b1 1 2 ((-(i + 1)).toNat + 1) padding with
          | none => none
          | some (.fail b2) => some (b2, false)
          | some (.done b2 ptr) => match wr b2 ptr nul with
            | none => none
            | some b3 => (reverseLoop b3 1 ptr).map (fun b4 => (b4, true))
    else
      match digitLoop sz base.toNat hb b 0 1 ((i % 2 ^ 64).toNat) padding with
      | none => none
      | some (.fail b2) => some (b2, false)
      | some (.done b2 ptr) => match wr b2 ptr nul with
        | none => none
        | some b3 => (reverseLoop b3 0 ptr).map (fun b4 => (b4, true))

/-! ### Specification -/

/-- The number printed: its absolute value in base 10, its 64-bit two's complement pattern in the
other bases. -/
def magnitude (i : Int) (base : Nat) : Nat :=
  if i < 0 then (if base = 10 then i.natAbs else (i + 2 ^ 64).toNat) else i.toNat

/-- The digits of `n`, most significant first, at least `padding` of them and at least one. -/
def digitText (base n padding : Nat) : List Char :=
  (List.replicate (max (max padding 1) (Nat.digits base n).length - (Nat.digits base n).length) 0
    ++ (Nat.digits base n).reverse).map hexDigit

/-- The text of the number. -/
def text (i : Int) (base padding : Nat) : List Char :=
  (if i < 0 ∧ base = 10 then ['-'] else []) ++ digitText base (magnitude i base) padding

/-! ### Proofs -/

/-- The digits in the order the loop produces them. -/
def digitsLE (base : Nat) (hb : 2 ≤ base) (j padding : Nat) : List Nat :=
  (j % base) ::
    (if j / base > 0 ∨ padding - 1 > 0 then digitsLE base hb (j / base) (padding - 1) else [])
termination_by j + padding
decreasing_by
  rename_i h
  rcases Nat.eq_zero_or_pos j with h0 | h0
  · subst h0; simp at h ⊢; omega
  · have := Nat.div_lt_self h0 hb
    omega

theorem digitsLE_eq (base : Nat) (hb : 2 ≤ base) : ∀ (m j padding : Nat), m = j + padding →
    digitsLE base hb j padding = Nat.digits base j ++
      List.replicate (max (max padding 1) (Nat.digits base j).length - (Nat.digits base j).length) 0 := by
  intro m
  induction m using Nat.strongRecOn with
  | ind m ih =>
    intro j padding hm
    rw [digitsLE]
    rcases Nat.eq_zero_or_pos j with h0 | h0
    · subst h0
      simp only [Nat.zero_mod, Nat.zero_div, Nat.digits_zero, List.nil_append, List.length_nil]
      by_cases hp : padding - 1 > 0
      · rw [if_pos (Or.inr hp), ih (0 + (padding - 1)) (by omega) 0 (padding - 1) rfl]
        simp only [Nat.digits_zero, List.nil_append, List.length_nil]
        rw [← List.replicate_succ]
        congr 1
        omega
      · rw [if_neg (by omega)]
        have : max (max padding 1) 0 - 0 = 1 := by omega
        rw [this]; rfl
    · have hlt := Nat.div_lt_self h0 hb
      rw [Nat.digits_def' (by omega) h0]
      simp only [List.cons_append, List.length_cons, List.cons.injEq, true_and]
      split
      · rename_i hc
        rw [ih (j / base + (padding - 1)) (by omega) _ _ rfl]
        congr 2
        rcases Nat.eq_zero_or_pos (j / base) with hz | hz
        · rw [hz] at hc ⊢
          simp only [Nat.digits_zero, List.length_nil]
          omega
        · have : 1 ≤ (Nat.digits base (j / base)).length := by
            rw [Nat.digits_def' (by omega) hz]; simp
          omega
      · rename_i hc
        have hz : j / base = 0 := Nat.eq_zero_of_not_pos (fun h => hc (Or.inl h))
        rw [hz]
        simp only [Nat.digits_zero, List.length_nil, List.nil_append]
        have : max (max padding 1) (0 + 1) - (0 + 1) = 0 := by omega
        rw [this]; rfl

theorem digitsLE_ne (base : Nat) (hb : 2 ≤ base) (j padding : Nat) :
    1 ≤ (digitsLE base hb j padding).length := by
  rw [digitsLE]; simp

theorem wr_at (pre : List Char) (x : Char) (post : List Char) (c : Char) :
    wr (pre ++ x :: post) pre.length c = some (pre ++ c :: post) := by
  unfold wr
  rw [if_pos (by simp)]
  simp

theorem wr_zero (b : List Char) (h : 0 < b.length) (c : Char) :
    wr b 0 c = some (c :: b.drop 1) := by
  cases b with
  | nil => simp at h
  | cons x b => simp [wr]

/-- The loop: writes the digits if they and the terminator fit, else clears the buffer. -/
theorem digitLoop_eq (base : Nat) (hb : 2 ≤ base) : ∀ (m j padding : Nat), m = j + padding →
    ∀ (pre rest : List Char), 0 < (pre ++ rest).length →
    let ws := (digitsLE base hb j padding).map hexDigit
    (ws.length + 1 ≤ rest.length →
      digitLoop (pre ++ rest).length base hb (pre ++ rest) pre.length (pre.length + 1) j padding =
        some (.done (pre ++ ws ++ rest.drop ws.length) (pre.length + ws.length))) ∧
    (rest.length < ws.length + 1 →
      ∃ b', b'.length = (pre ++ rest).length ∧ b'[0]? = some nul ∧
      digitLoop (pre ++ rest).length base hb (pre ++ rest) pre.length (pre.length + 1) j padding =
        some (.fail b')) := by
  intro m
  induction m using Nat.strongRecOn with
  | ind m ih =>
    intro j padding hm pre rest hpos
    have hone := digitsLE_ne base hb j padding
    have hexp : digitsLE base hb j padding = (j % base) ::
        (if j / base > 0 ∨ padding - 1 > 0 then digitsLE base hb (j / base) (padding - 1) else []) := by
      rw [digitsLE]
    rw [digitLoop]
    by_cases hfull : pre.length + 1 + 1 > (pre ++ rest).length
    · rw [if_pos hfull]
      simp only [List.length_append] at hfull
      refine ⟨fun h => ?_, fun _ => ?_⟩
      · simp only [List.length_map] at h; omega
      · rw [wr_zero _ hpos]
        refine ⟨_, ?_, rfl, rfl⟩
        simp only [List.length_cons, List.length_drop]
        omega
    · rw [if_neg hfull]
      simp only [List.length_append] at hfull
      cases rest with
      | nil => simp only [List.length_nil] at hfull; omega
      | cons x rest =>
        rw [wr_at]
        simp only
        by_cases hc : j / base > 0 ∨ padding - 1 > 0
        · rw [if_pos hc]
          rw [if_pos hc] at hexp
          have hlt : j / base + (padding - 1) < m := by
            rcases Nat.eq_zero_or_pos j with h0 | h0
            · subst h0; simp at hc ⊢; omega
            · have := Nat.div_lt_self h0 hb
              omega
          have hrec := ih _ hlt (j / base) (padding - 1) rfl (pre ++ [hexDigit (j % base)]) rest
            (by simp)
          have hl : (pre ++ [hexDigit (j % base)] ++ rest).length = (pre ++ x :: rest).length := by
            simp
          have hl1 : (pre ++ [hexDigit (j % base)]).length = pre.length + 1 := by simp
          simp only [hl, hl1] at hrec
          simp only [List.append_assoc, List.cons_append, List.nil_append] at hrec
          rw [hexp]
          simp only [List.map_cons, List.length_cons, List.length_map] at hrec ⊢
          refine ⟨fun h => ?_, fun h => ?_⟩
          · rw [hrec.1 (by omega)]
            simp only [List.drop_succ_cons, List.append_assoc, List.cons_append]
            congr 2
            omega
          · exact hrec.2 (by omega)
        · rw [if_neg hc]
          rw [if_neg hc] at hexp
          rw [hexp]
          simp only [List.map_cons, List.map_nil, List.length_cons, List.length_nil]
          refine ⟨fun h => ?_, fun h => ?_⟩
          · simp
          · simp only [List.length_cons] at hfull; omega

theorem reverseLoop_eq : ∀ (m : Nat) (mid pre post : List Char), mid.length = m →
    reverseLoop (pre ++ mid ++ post) pre.length (pre.length + mid.length) =
      some (pre ++ mid.reverse ++ post) := by
  intro m
  induction m using Nat.strongRecOn with
  | ind m ih =>
    intro mid pre post hm
    rw [reverseLoop]
    by_cases h2 : mid.length ≤ 1
    · rw [if_neg (by omega)]
      have : mid.reverse = mid := by
        match mid, h2 with
        | [], _ => rfl
        | [x], _ => rfl
        | x :: y :: l, h => simp at h
      rw [this]
    · rw [if_pos (by omega)]
      -- mid = x :: mid' ++ [y]
      obtain ⟨x, mid1, rfl⟩ : ∃ x l, mid = x :: l := by
        cases mid with
        | nil => simp at h2
        | cons x l => exact ⟨x, l, rfl⟩
      have hne : mid1 ≠ [] := by
        intro e; subst e; simp at h2
      obtain ⟨mid', y, rfl⟩ : ∃ l y, mid1 = l ++ [y] :=
        ⟨mid1.dropLast, mid1.getLast hne, (List.dropLast_concat_getLast hne).symm⟩
      have hb : pre ++ x :: (mid' ++ [y]) ++ post = pre ++ x :: (mid' ++ y :: post) := by simp
      have hhi : pre.length + (x :: (mid' ++ [y])).length - 1 = (pre ++ x :: mid').length := by
        simp
      rw [hhi]
      have hb2 : pre ++ x :: (mid' ++ [y]) ++ post = (pre ++ x :: mid') ++ y :: post := by simp
      have hy : (pre ++ x :: (mid' ++ [y]) ++ post)[(pre ++ x :: mid').length]? = some y := by
        rw [hb2]; simp
      have hx : (pre ++ x :: (mid' ++ [y]) ++ post)[pre.length]? = some x := by
        rw [hb]; simp
      rw [hy, hx]
      simp only
      rw [hb2, wr_at]
      simp only
      have hb3 : (pre ++ x :: mid') ++ x :: post = pre ++ x :: (mid' ++ x :: post) := by simp
      rw [hb3, wr_at]
      simp only
      have := ih mid'.length (by simp at hm; omega) mid' (pre ++ [y]) (x :: post) rfl
      simp only [List.length_append, List.length_cons, List.length_nil, List.append_assoc,
        List.cons_append, List.nil_append] at this ⊢
      have e : pre.length + (mid'.length + 1) = pre.length + 1 + mid'.length := by omega
      rw [e]
      rw [Nat.zero_add] at this
      rw [this]
      simp

theorem magnitude_eq (i : Int) (base : Int) (h1 : 2 ≤ base) (hlo : -(2 ^ 63) ≤ i) (hhi : i < 2 ^ 63) :
    magnitude i base.toNat =
      if i < 0 ∧ base = 10 then (-(i + 1)).toNat + 1 else (i % 2 ^ 64).toNat := by
  unfold magnitude
  have hb : base.toNat = 10 ↔ base = 10 := by omega
  by_cases hi : i < 0
  · by_cases h10 : base = 10
    · rw [if_pos hi, if_pos (hb.2 h10), if_pos ⟨hi, h10⟩]; omega
    · rw [if_pos hi, if_neg (fun h => h10 (hb.1 h)), if_neg (fun h => h10 h.2)]
      congr 1
      omega
  · rw [if_neg hi, if_neg (fun h => hi h.1)]
    congr 1
    omega

theorem digitText_eq (base : Nat) (hb : 2 ≤ base) (n padding : Nat) :
    ((digitsLE base hb n padding).map hexDigit).reverse = digitText base n padding := by
  rw [digitsLE_eq base hb _ n padding rfl]
  unfold digitText
  rw [← List.map_reverse]
  simp

/-- The conversion from position `pre.length` on. -/
theorem convert_eq (base : Nat) (hb : 2 ≤ base) (pre rest : List Char) (j padding : Nat)
    (hpos : 0 < (pre ++ rest).length) :
    let T := digitText base j padding
    let R := match digitLoop (pre ++ rest).length base hb (pre ++ rest) pre.length (pre.length + 1) j padding with
      | none => none
      | some (.fail b2) => some (b2, false)
      | some (.done b2 ptr) => match wr b2 ptr nul with
        | none => none
        | some b3 => (reverseLoop b3 pre.length ptr).map (fun b4 => (b4, true))
    (T.length + 1 ≤ rest.length → R = some (pre ++ T ++ nul :: rest.drop (T.length + 1), true)) ∧
    (rest.length < T.length + 1 → ∃ b', b'.length = (pre ++ rest).length ∧ b'[0]? = some nul ∧
      R = some (b', false)) := by
  have h := digitLoop_eq base hb _ j padding rfl pre rest hpos
  have hT := digitText_eq base hb j padding
  have hl : (digitText base j padding).length = ((digitsLE base hb j padding).map hexDigit).length := by
    rw [← hT]; simp
  simp only [hl] at h ⊢
  refine ⟨fun hle => ?_, fun hlt => ?_⟩
  · rw [h.1 hle]
    simp only
    generalize hws : (digitsLE base hb j padding).map hexDigit = ws at *
    obtain ⟨x, r', hr⟩ : ∃ x r', rest.drop ws.length = x :: r' := by
      cases hd : rest.drop ws.length with
      | nil =>
        have := congrArg List.length hd
        simp only [List.length_drop, List.length_nil] at this
        omega
      | cons x r' => exact ⟨x, r', rfl⟩
    have hw : wr (pre ++ ws ++ rest.drop ws.length) (pre.length + ws.length) nul =
        some (pre ++ ws ++ nul :: r') := by
      rw [hr, ← List.length_append]
      exact wr_at _ _ _ _
    rw [hw]
    simp only
    rw [reverseLoop_eq _ ws pre (nul :: r') rfl, hT]
    have : rest.drop (ws.length + 1) = r' := by
      rw [← List.drop_drop, hr]; rfl
    rw [this]
    rfl
  · obtain ⟨b', h1, h2, h3⟩ := h.2 hlt
    exact ⟨b', h1, h2, by rw [h3]⟩

/-- **C33: integer formatting.**  For every value, base 2..16, buffer and padding, no store is ever
outside the buffer; if the text and its terminator fit, the buffer starts with the text and a NUL
and the rest is untouched; otherwise NULL is returned and the buffer holds the empty string. -/
theorem c33_itoa (i : Int) (hlo : -(2 ^ 63) ≤ i) (hhi : i < 2 ^ 63) (b : List Char) (base : Int)
    (hb2 : 2 ≤ base) (hb16 : base ≤ 16) (padding : Nat) :
    let T := text i base.toNat padding
    (T.length + 1 ≤ b.length →
      itoa i b b.length base padding = some (T ++ nul :: b.drop (T.length + 1), true)) ∧
    (0 < b.length → b.length < T.length + 1 → ∃ b', b'.length = b.length ∧ b'[0]? = some nul ∧
      itoa i b b.length base padding = some (b', false)) ∧
    (b.length = 0 → itoa i b b.length base padding = some (b, false)) := by
  have hmag := magnitude_eq i base hb2 hlo hhi
  have hnb : base.toNat = 10 ↔ base = 10 := by omega
  unfold text
  by_cases hb0 : b.length = 0
  · refine ⟨fun h => by omega, fun h => by omega, fun _ => ?_⟩
    unfold itoa
    rw [if_pos (by omega)]
  · have hpos : 0 < b.length := by omega
    have hbad : ¬ (base < 2 ∨ base > 16) := by omega
    by_cases hneg : i < 0 ∧ base = 10
    · rw [if_pos hneg] at hmag
      rw [if_pos (⟨hneg.1, hnb.2 hneg.2⟩ : i < 0 ∧ base.toNat = 10), hmag]
      by_cases h1 : 2 > b.length
      · refine ⟨fun h => ?_, fun _ _ => ?_, fun h => by omega⟩
        · simp only [List.length_append, List.length_cons, List.length_nil] at h; omega
        · unfold itoa
          rw [if_neg (by omega), dif_neg hbad, if_pos hneg, if_pos h1, wr_zero b hpos]
          refine ⟨nul :: b.drop 1, ?_, rfl, rfl⟩
          simp; omega
      · have hw := wr_zero b hpos '-'
        have hlen : (['-'] ++ b.drop 1).length = b.length := by simp; omega
        have hc := convert_eq base.toNat (by omega) ['-'] (b.drop 1) ((-(i + 1)).toNat + 1) padding
          (by simp)
        simp only [List.cons_append, List.nil_append] at hc hlen
        rw [hlen] at hc
        simp only [List.length_cons, List.length_nil, List.length_drop] at hc
        refine ⟨fun h => ?_, fun _ h => ?_, fun h => by omega⟩
        · simp only [List.length_append, List.length_cons, List.length_nil] at h
          unfold itoa
          rw [if_neg (by omega), dif_neg hbad, if_pos hneg, if_neg h1, hw]
          simp only
          rw [hc.1 (by omega)]
          simp only [List.cons_append, List.nil_append, List.length_cons, List.drop_drop]
          rw [Nat.add_comm 1]
        · simp only [List.length_append, List.length_cons, List.length_nil] at h
          obtain ⟨b', g1, g2, g3⟩ := hc.2 (by omega)
          refine ⟨b', g1, g2, ?_⟩
          unfold itoa
          rw [if_neg (by omega), dif_neg hbad, if_pos hneg, if_neg h1, hw]
          simp only
          exact g3
    · rw [if_neg hneg] at hmag
      rw [if_neg (fun h : i < 0 ∧ base.toNat = 10 => hneg ⟨h.1, hnb.1 h.2⟩), hmag]
      have hc := convert_eq base.toNat (by omega) [] b ((i % 2 ^ 64).toNat) padding hpos
      simp only [List.nil_append, List.length_nil, Nat.zero_add] at hc ⊢
      refine ⟨fun h => ?_, fun _ h => ?_, fun h => by omega⟩
      · unfold itoa
        rw [if_neg (by omega), dif_neg hbad, if_neg hneg]
        exact hc.1 h
      · obtain ⟨b', g1, g2, g3⟩ := hc.2 h
        refine ⟨b', g1, g2, ?_⟩
        unfold itoa
        rw [if_neg (by omega), dif_neg hbad, if_neg hneg]
        exact g3

/-- An unsupported base is refused, leaving the empty string. -/
theorem c33_bad_base (i : Int) (b : List Char) (hpos : 0 < b.length) (base : Int)
    (h : base < 2 ∨ base > 16) (padding : Nat) :
    itoa i b b.length base padding = some (nul :: b.drop 1, false) := by
  unfold itoa
  rw [if_neg (by omega), dif_pos h, wr_zero b hpos]
  rfl

/-- Reading a number: most significant digit first. -/
def readBack (base : Nat) (t : List Char) : Nat :=
  t.foldl (fun acc c => acc * base + "0123456789abcdef".toList.idxOf c) 0

/-- **C33: the digits mean the number**: reading the printed digits back gives the value. -/
theorem c33_value (base n padding : Nat) (h2 : 2 ≤ base) (h16 : base ≤ 16) :
    readBack base (digitText base n padding) = n := by
  have hd : ∀ d < 16, "0123456789abcdef".toList.idxOf (hexDigit d) = d := by decide
  have h0 : ∀ k, ((List.replicate k 0).map hexDigit).foldl
      (fun acc c => acc * base + "0123456789abcdef".toList.idxOf c) 0 = 0 := by
    intro k
    induction k with
    | zero => rfl
    | succ k ih =>
      simp only [List.replicate_succ, List.map_cons, List.foldl_cons]
      rw [hd 0 (by omega)]
      simpa using ih
  unfold readBack digitText
  rw [List.map_append, List.foldl_append, h0, List.map_reverse, List.foldl_reverse,
    List.foldr_map]
  have hlt : ∀ x ∈ Nat.digits base n, x < 16 := fun x hx =>
    Nat.lt_of_lt_of_le (Nat.digits_lt_base (by omega) hx) h16
  have key : ∀ l : List Nat, (∀ x ∈ l, x < 16) →
      l.foldr (fun x y => y * base + "0123456789abcdef".toList.idxOf (hexDigit x)) 0 =
        Nat.ofDigits base l := by
    intro l
    induction l with
    | nil => intro _; rfl
    | cons x l ih =>
      intro h
      rw [List.foldr_cons, ih (fun y hy => h y (by simp [hy])), hd x (h x (by simp)),
        Nat.ofDigits_cons, Nat.mul_comm, Nat.add_comm]
  rw [key _ hlt, Nat.ofDigits_digits]

/-- Concrete: `-255` padded to 5 digits in base 10; the hypotheses are met by the extreme value. -/
example : text (-255) 10 5 = "-00255".toList := by simp [text, digitText, magnitude, hexDigit]
example : text 255 16 0 = "ff".toList := by simp [text, digitText, magnitude, hexDigit]
example : (-(2 ^ 63) : Int) ≤ -(2 ^ 63) ∧ (-(2 ^ 63) : Int) < 2 ^ 63 := by decide

end Ltio.Itoa
