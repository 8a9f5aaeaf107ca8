import Verif.Text.Split
import Verif.Http.Headers
import Mathlib.Data.List.Basic
/-
Model of the conversions of `StrUtil` between texts and numbers (base/utils/string/str_utils.h:85-145, str_utils.cc:25-71):
`ToInt`, `ToInt64`, `Parse`, `ParseTo`, `ParseArray`, `ToString`, `Parse<bool>`.  The standard library's `stoi`/`stoll`, `istream >> T` and
`ostream << T` for a signed type with the range `[lo, hi]` are modelled by their contracts (C locale, base 10).
-/
namespace Ltio.Text.Num
open Ltio.Text

/-- `isspace` in the C locale. -/
def isWs (c : Char) : Bool := c == ' ' || (9 ≤ c.toNat && c.toNat ≤ 13)

/-- An optional sign and what follows. -/
def sign : Str → Bool × Str
  | '-' :: t => (true, t)
  | '+' :: t => (false, t)
  | t => (false, t)

/-- Value of digits. -/
def digitsVal (ds : Str) : Nat := ds.foldl (fun n c => n * 10 + (c.toNat - 48)) 0

def signed (neg : Bool) (n : Nat) : Int := if neg then -(n : Int) else n

/-- `std::stoi`, `std::stoll` (range of `int`, `long long`): `none` is an exception (`invalid_argument` or `out_of_range`); characters behind
the digits are ignored. -/
def sto (lo hi : Int) (s : Str) : Option Int :=
  match (sign (s.dropWhile isWs)).2.takeWhile Char.isDigit with
  | [] => none
  | d :: ds =>
    if lo ≤ signed (sign (s.dropWhile isWs)).1 (digitsVal (d :: ds)) ∧ signed (sign (s.dropWhile isWs)).1 (digitsVal (d :: ds)) ≤ hi then
      some (signed (sign (s.dropWhile isWs)).1 (digitsVal (d :: ds)))
    else none

/-- `ToInt`, `ToInt64` (str_utils.cc:25-51): the result and what is in `*out`. -/
def toInt (lo hi : Int) (s : Str) (old : Int) : Bool × Int :=
  match sto lo hi s with
  | some v => (true, v)
  | none => (false, old)

/-- The digits of `istream >> value`: whether the stream is still good (not at its end, no failure), and the value. -/
def readDigits (lo hi : Int) (neg : Bool) (t : Str) : Bool × Int :=
  match t.takeWhile Char.isDigit with
  | [] => (false, 0)
  | d :: ds =>
    if signed neg (digitsVal (d :: ds)) < lo then (false, lo)
    else if hi < signed neg (digitsVal (d :: ds)) then (false, hi)
    else (!(t.dropWhile Char.isDigit).isEmpty, signed neg (digitsVal (d :: ds)))

/-- `ParseTo` (str_utils.h:114-119): `iss >> out; return iss.good();`.  With nothing but blanks the value stays as it was (`none`:
indeterminate). -/
def parseTo (lo hi : Int) (s : Str) (old : Option Int) : Bool × Option Int :=
  match s.dropWhile isWs with
  | [] => (false, old)
  | c :: t => ((readDigits lo hi (sign (c :: t)).1 (sign (c :: t)).2).1, some (readDigits lo hi (sign (c :: t)).1 (sign (c :: t)).2).2)

/-- `Parse<T>` (str_utils.h:121-126): `T result;` is not initialised. -/
def parse (lo hi : Int) (s : Str) : Option Int := (parseTo lo hi s none).2

/-- `ParseArray<T>` (str_utils.h:97-106): `getline` by the delimiter. -/
def parseArray (lo hi : Int) (s : Str) (c : Char) : List (Option Int) := (splitChar c s).map (parse lo hi)

/-- `ToString<T>` (str_utils.h:107-112). -/
def text (x : Int) : Str := if x < 0 then '-' :: Nat.toDigits 10 x.natAbs else Nat.toDigits 10 x.natAbs

/-- `Parse<bool>` (str_utils.h:147-152). -/
def parseBool (s : Str) : Bool :=
  Http.toLower s == "on".toList || Http.toLower s == "yes".toList || Http.toLower s == "true".toList

/-! ### Specification -/

/-- `s` begins with a number: blanks, an optional sign, at least one digit, and then something that is not a digit. -/
def StartsWithNumber (s : Str) (v : Int) : Prop :=
  ∃ ws sg ds rest, s = ws ++ sg ++ ds ++ rest ∧ (∀ c ∈ ws, isWs c = true) ∧ (sg = [] ∨ sg = ['-'] ∨ sg = ['+']) ∧ ds ≠ [] ∧
    (∀ c ∈ ds, c.isDigit = true) ∧ (∀ c, rest.head? = some c → c.isDigit = false) ∧
    v = if sg = ['-'] then -(digitsVal ds : Int) else digitsVal ds

/-! ### Proofs -/

theorem digitsVal_toDigits (n : Nat) : digitsVal (Nat.toDigits 10 n) = n := by
  have h := @Nat.ofDigitChars_ten_toDigits n
  rw [Nat.ofDigitChars_eq_foldl] at h
  unfold digitsVal
  conv => rhs; rw [← h]
  congr 1
  funext a b
  rw [Nat.mul_comm]; rfl

theorem digit_not_ws {c : Char} (h : c.isDigit = true) : isWs c = false := by
  simp only [Char.isDigit, Bool.and_eq_true, decide_eq_true_eq] at h
  have h1 : 48 ≤ c.toNat := h.1
  have hne : c ≠ ' ' := by rintro rfl; revert h1; decide
  simp only [isWs, Bool.or_eq_false_iff, beq_eq_false_iff_ne, Bool.and_eq_false_iff, decide_eq_false_iff_not]
  exact ⟨hne, Or.inr (by omega)⟩

theorem digit_not_sign {c : Char} (h : c.isDigit = true) : c ≠ '-' ∧ c ≠ '+' := by
  constructor <;> (rintro rfl; revert h; decide)

theorem sign_digit {c : Char} {t : Str} (h : c.isDigit = true) : sign (c :: t) = (false, c :: t) := by
  have := digit_not_sign h
  unfold sign
  split
  · rename_i e; simp only [List.cons.injEq] at e; exact absurd e.1 this.1
  · rename_i e; simp only [List.cons.injEq] at e; exact absurd e.1 this.2
  · rfl

theorem takeWhile_digits (ds rest : Str) (hd : ∀ c ∈ ds, c.isDigit = true) (hr : ∀ c, rest.head? = some c → c.isDigit = false) :
    (ds ++ rest).takeWhile Char.isDigit = ds ∧ (ds ++ rest).dropWhile Char.isDigit = rest := by
  induction ds with
  | nil =>
    cases rest with
    | nil => exact ⟨rfl, rfl⟩
    | cons c t =>
      have := hr c rfl
      simp [this]
  | cons d ds ih =>
    have h1 := hd d (by simp)
    have h2 := ih (fun c hc => hd c (List.mem_cons_of_mem _ hc))
    simp only [List.cons_append, List.takeWhile_cons, List.dropWhile_cons, h1, if_true]
    exact ⟨by rw [h2.1], h2.2⟩

theorem dropWs (ws t : Str) (hw : ∀ c ∈ ws, isWs c = true) (ht : ∀ c, t.head? = some c → isWs c = false) : (ws ++ t).dropWhile isWs = t := by
  induction ws with
  | nil =>
    cases t with
    | nil => rfl
    | cons c t => simp [ht c rfl]
  | cons w ws ih =>
    simp only [List.cons_append, List.dropWhile_cons, hw w (by simp), if_true]
    exact ih (fun c hc => hw c (List.mem_cons_of_mem _ hc))

/-- How a number at the beginning of a text is taken apart. -/
theorem pieces {ws sg ds rest : Str} (hw : ∀ c ∈ ws, isWs c = true) (hs : sg = [] ∨ sg = ['-'] ∨ sg = ['+']) (hne : ds ≠ [])
    (hd : ∀ c ∈ ds, c.isDigit = true) :
    (ws ++ sg ++ ds ++ rest).dropWhile isWs = sg ++ ds ++ rest ∧ sign (sg ++ ds ++ rest) = (decide (sg = ['-']), ds ++ rest) := by
  obtain ⟨d, t, rfl⟩ : ∃ d t, ds = d :: t := by
    cases ds with
    | nil => exact absurd rfl hne
    | cons d t => exact ⟨d, t, rfl⟩
  have h1 := hd d (by simp)
  constructor
  · rw [List.append_assoc, List.append_assoc, List.append_assoc]
    apply dropWs _ _ hw
    intro c hc
    rcases hs with rfl | rfl | rfl
    · simp at hc; subst hc; exact digit_not_ws h1
    · simp at hc; subst hc; decide
    · simp at hc; subst hc; decide
  · rcases hs with rfl | rfl | rfl
    · simp only [List.nil_append, List.cons_append]
      rw [sign_digit h1]; simp
    · simp [sign]
    · simp [sign]

theorem sto_pieces {lo hi : Int} {ws sg ds rest : Str} (hw : ∀ c ∈ ws, isWs c = true) (hs : sg = [] ∨ sg = ['-'] ∨ sg = ['+']) (hne : ds ≠ [])
    (hd : ∀ c ∈ ds, c.isDigit = true) (hr : ∀ c, rest.head? = some c → c.isDigit = false) :
    sto lo hi (ws ++ sg ++ ds ++ rest) =
      if lo ≤ signed (decide (sg = ['-'])) (digitsVal ds) ∧ signed (decide (sg = ['-'])) (digitsVal ds) ≤ hi then
        some (signed (decide (sg = ['-'])) (digitsVal ds)) else none := by
  obtain ⟨h1, h2⟩ := pieces (rest := rest) hw hs hne hd
  unfold sto
  rw [h1, h2, (takeWhile_digits ds rest hd hr).1]
  cases ds with
  | nil => exact absurd rfl hne
  | cons d t => rfl

theorem signed_spec (sg : Str) (n : Nat) : signed (decide (sg = ['-'])) n = if sg = ['-'] then -(n : Int) else n := by
  unfold signed
  by_cases h : sg = ['-'] <;> simp [h]

theorem takeWhile_all (p : Char → Bool) : ∀ (l : Str), ∀ c ∈ l.takeWhile p, p c = true := by
  intro l
  induction l with
  | nil => intro c hc; simp at hc
  | cons x t ih =>
    intro c hc
    rw [List.takeWhile_cons] at hc
    by_cases hx : p x = true
    · rw [if_pos hx] at hc
      rcases List.mem_cons.1 hc with rfl | hc
      · exact hx
      · exact ih c hc
    · rw [if_neg hx] at hc; simp at hc

theorem dropWhile_head (p : Char → Bool) : ∀ (l : Str) (c : Char), (l.dropWhile p).head? = some c → p c = false := by
  intro l
  induction l with
  | nil => intro c h; simp at h
  | cons x t ih =>
    intro c h
    rw [List.dropWhile_cons] at h
    by_cases hx : p x = true
    · rw [if_pos hx] at h; exact ih c h
    · rw [if_neg hx] at h
      simp at h
      subst h
      simpa using hx

theorem sign_text (s : Str) : ∃ sg, (sg = [] ∨ sg = ['-'] ∨ sg = ['+']) ∧ s = sg ++ (sign s).2 ∧ (sign s).1 = decide (sg = ['-']) := by
  unfold sign
  split
  · exact ⟨['-'], by simp, rfl, by simp⟩
  · exact ⟨['+'], by simp, rfl, by simp⟩
  · exact ⟨[], by simp, rfl, by simp⟩

/-- C164: `ToInt` and `ToInt64` succeed exactly on texts that begin with a number in the range of the type, and store that number;
otherwise nothing is stored. -/
theorem c164_toInt (lo hi : Int) (s : Str) (old v : Int) :
    toInt lo hi s old = (true, v) ↔ StartsWithNumber s v ∧ lo ≤ v ∧ v ≤ hi := by
  constructor
  · intro h
    unfold toInt at h
    cases hs : sto lo hi s with
    | none => rw [hs] at h; simp at h
    | some w =>
      rw [hs] at h
      simp only [Prod.mk.injEq, true_and] at h
      subst h
      unfold sto at hs
      obtain ⟨sg, hsg, hst, hneg⟩ := sign_text (s.dropWhile isWs)
      cases hd : (sign (s.dropWhile isWs)).2.takeWhile Char.isDigit with
      | nil => rw [hd] at hs; simp at hs
      | cons d ds =>
        rw [hd] at hs
        simp only at hs
        split at hs
        · rename_i hb
          simp only [Option.some.injEq] at hs
          rw [hs] at hb
          refine ⟨⟨s.takeWhile isWs, sg, d :: ds, (sign (s.dropWhile isWs)).2.dropWhile Char.isDigit, ?_, takeWhile_all _ s, hsg, by simp, ?_,
            dropWhile_head _ _, ?_⟩, hb⟩
          · rw [← hd, List.append_assoc, List.append_assoc, List.takeWhile_append_dropWhile, ← hst, List.takeWhile_append_dropWhile]
          · rw [← hd]; exact takeWhile_all _ _
          · rw [← hs, hneg, signed_spec]
        · simp at hs
  · rintro ⟨⟨ws, sg, ds, rest, rfl, hw, hsg, hne, hd, hr, hv⟩, hb⟩
    unfold toInt
    rw [sto_pieces hw hsg hne hd hr, signed_spec, ← hv, if_pos hb]

theorem c164_toInt_fail (lo hi : Int) (s : Str) (old : Int) (h : (toInt lo hi s old).1 = false) : (toInt lo hi s old).2 = old := by
  unfold toInt at h ⊢
  cases hs : sto lo hi s with
  | none => rfl
  | some w => rw [hs] at h; simp at h

/-- The text of a number as pieces. -/
theorem text_pieces (x : Int) : ∃ sg ds, text x = sg ++ ds ∧ (sg = [] ∨ sg = ['-'] ∨ sg = ['+']) ∧ ds ≠ [] ∧ (∀ c ∈ ds, c.isDigit = true) ∧
    x = (if sg = ['-'] then -(digitsVal ds : Int) else digitsVal ds) := by
  unfold text
  by_cases h : x < 0
  · rw [if_pos h]
    refine ⟨['-'], Nat.toDigits 10 x.natAbs, rfl, by simp, Nat.toDigits_ne_nil, fun c hc => Nat.isDigit_of_mem_toDigits (by decide) (by decide) hc, ?_⟩
    rw [digitsVal_toDigits, if_pos rfl]; omega
  · rw [if_neg h]
    refine ⟨[], Nat.toDigits 10 x.natAbs, rfl, by simp, Nat.toDigits_ne_nil, fun c hc => Nat.isDigit_of_mem_toDigits (by decide) (by decide) hc, ?_⟩
    rw [digitsVal_toDigits, if_neg (by simp)]; omega

theorem text_starts (x : Int) (rest : Str) (hr : ∀ c, rest.head? = some c → c.isDigit = false) : StartsWithNumber (text x ++ rest) x := by
  obtain ⟨sg, ds, e, hs, hne, hd, hx⟩ := text_pieces x
  exact ⟨[], sg, ds, rest, by rw [e]; simp, by simp, hs, hne, hd, hr, hx⟩

/-- C164: a number written by `ToString` is read back by `ToInt` and `ToInt64`. -/
theorem c164_toInt_text (lo hi x old : Int) (h : lo ≤ x ∧ x ≤ hi) : toInt lo hi (text x) old = (true, x) := by
  rw [c164_toInt]
  have := text_starts x [] (by simp)
  rw [List.append_nil] at this
  exact ⟨this, h⟩

theorem parseTo_text (lo hi x : Int) (old : Option Int) (h : lo ≤ x ∧ x ≤ hi) (rest : Str) (hr : ∀ c, rest.head? = some c → c.isDigit = false) :
    parseTo lo hi (text x ++ rest) old = (!rest.isEmpty, some x) := by
  obtain ⟨sg, ds, e, hs, hne, hd, hx⟩ := text_pieces x
  obtain ⟨h1, h2⟩ := pieces (ws := []) (rest := rest) (by simp) hs hne hd
  simp only [List.nil_append] at h1
  have hcons : ∃ c t, sg ++ ds ++ rest = c :: t := by
    cases hl : sg ++ ds ++ rest with
    | nil =>
      have := congrArg List.length hl
      simp only [List.length_append, List.length_nil] at this
      have := List.length_pos_of_ne_nil hne
      omega
    | cons c t => exact ⟨c, t, rfl⟩
  obtain ⟨c, t, hct⟩ := hcons
  unfold parseTo
  rw [e, h1, hct]
  simp only
  rw [← hct, h2]
  simp only [readDigits]
  rw [(takeWhile_digits ds rest hd hr).1, (takeWhile_digits ds rest hd hr).2]
  cases ds with
  | nil => exact absurd rfl hne
  | cons d ds =>
    simp only
    rw [signed_spec, ← hx, if_neg (by omega), if_neg (by omega)]

/-- C164: ... and by `Parse`. -/
theorem c164_parse (lo hi x : Int) (h : lo ≤ x ∧ x ≤ hi) : parse lo hi (text x) = some x := by
  have := parseTo_text lo hi x none h [] (by simp)
  rw [List.append_nil] at this
  unfold parse
  rw [this]

theorem text_ne (x : Int) : text x ≠ [] := by
  obtain ⟨sg, ds, e, hs, hne, hd, hx⟩ := text_pieces x
  rw [e]
  intro h
  exact hne (List.append_eq_nil_iff.1 h).2

theorem text_free (x : Int) {c : Char} (hc : c.isDigit = false) (hm : c ≠ '-') : c ∉ text x := by
  intro h
  unfold text at h
  have key : c ∉ Nat.toDigits 10 x.natAbs := by
    intro hh
    rw [Nat.isDigit_of_mem_toDigits (by decide) (by decide) hh] at hc
    exact absurd hc (by decide)
  split at h
  · rcases List.mem_cons.1 h with e | e
    · exact hm e
    · exact key e
  · exact key h

/-- C164: a list of numbers joined with a delimiter that is neither a digit nor a minus sign is read back by `ParseArray`. -/
theorem c164_array (lo hi : Int) (v : List Int) (hv : ∀ x ∈ v, lo ≤ x ∧ x ≤ hi) (c : Char) (hc : c.isDigit = false) (hm : c ≠ '-') :
    parseArray lo hi (join (v.map text) [c]) c = v.map some := by
  unfold parseArray
  by_cases hne : v = []
  · subst hne; simp [join, splitChar]
  · rw [c32_splitChar c (v.map text) (by simpa using hne) (by
      intro p hp
      obtain ⟨x, _, rfl⟩ := List.mem_map.1 hp
      exact text_free x hc hm)]
    rw [if_neg (by
      intro hl
      have : ([] : Str) ∈ v.map text := List.mem_of_getLast? hl
      obtain ⟨x, _, hx⟩ := List.mem_map.1 this
      exact text_ne x hx)]
    rw [List.map_map]
    apply List.map_congr_left
    intro x hx
    exact c164_parse lo hi x (hv x hx)

theorem lower_map (s : Str) : ∀ w : Str, (∀ c ∈ w, c ≠ Http.nul) → (Http.toLower s = w ↔ s.map Char.toLower = w) := by
  induction s with
  | nil => intro w _; simp [Http.toLower]
  | cons c t ih =>
    intro w hw
    by_cases hc : c = Http.nul
    · subst hc
      rw [Http.toLower, if_pos rfl]
      constructor
      · intro h; rw [← h] at hw; exact absurd rfl (hw _ (by simp))
      · intro h
        rw [← h] at hw
        exact absurd (by decide) (hw (Char.toLower Http.nul) (by simp))
    · rw [Http.toLower, if_neg hc]
      cases w with
      | nil => simp
      | cons d w =>
        simp only [List.map_cons, List.cons.injEq]
        have := ih w (fun x hx => hw x (List.mem_cons_of_mem _ hx))
        rw [this]

/-- C164: `Parse<bool>` is true exactly for `on`, `yes` and `true`, in any case. -/
theorem c164_bool (s : Str) : parseBool s = true ↔ s.map Char.toLower ∈ ["on".toList, "yes".toList, "true".toList] := by
  simp only [parseBool, Bool.or_eq_true, beq_iff_eq, List.mem_cons, List.not_mem_nil, or_false]
  rw [lower_map s _ (by decide), lower_map s _ (by decide), lower_map s _ (by decide)]
  tauto

/-- C165 violation.  `ParseTo` answers whether the stream is still "good", which it is not once the number ends with the text: for
every well-formed number the answer is false (the value is stored), for a number followed by anything else it is true. -/
theorem c165_parseTo_violated (lo hi x : Int) (h : lo ≤ x ∧ x ≤ hi) (old : Option Int) :
    parseTo lo hi (text x) old = (false, some x) ∧
    ∀ (c : Char) (junk : Str), c.isDigit = false → parseTo lo hi (text x ++ c :: junk) old = (true, some x) := by
  constructor
  · have := parseTo_text lo hi x old h [] (by simp)
    rw [List.append_nil] at this
    exact this
  · intro c junk hc
    rw [parseTo_text lo hi x old h (c :: junk) (by intro d hd; simp at hd; subst hd; exact hc)]
    rfl

/-- C165 violation.  `ToInt` and `ToInt64` take a number followed by anything for that number. -/
theorem c165_trailing_violated (lo hi x old : Int) (h : lo ≤ x ∧ x ≤ hi) (c : Char) (junk : Str) (hc : c.isDigit = false) :
    toInt lo hi (text x ++ c :: junk) old = (true, x) := by
  rw [c164_toInt]
  exact ⟨text_starts x _ (by intro d hd; simp at hd; subst hd; exact hc), h⟩

/-- C165 violation.  `Parse` of an empty or blank text returns an uninitialised variable; `ParseArray` keeps such values for empty
pieces. -/
theorem c165_blank_violated (lo hi : Int) (s : Str) (hs : ∀ c ∈ s, isWs c = true) : parse lo hi s = none := by
  have := dropWs s [] hs (by simp)
  rw [List.append_nil] at this
  unfold parse parseTo
  rw [this]

/-! ### Examples -/

example : StartsWithNumber " -12ab".toList (-12) := ⟨[' '], ['-'], ['1', '2'], ['a', 'b'], rfl, by decide, by decide, by decide, by decide, by decide, by decide⟩
example : toInt (-(2^31)) (2^31 - 1) "2147483648".toList 7 = (false, 7) := by decide +kernel
example : toInt (-(2^63)) (2^63 - 1) "2147483648".toList 7 = (true, 2147483648) := by decide +kernel
example : text (-305) = "-305".toList := by decide +kernel
example : parseArray (-(2^31)) (2^31 - 1) "1;-2;30".toList ';' = [some 1, some (-2), some 30] := by
  have := c164_array (-(2^31)) (2^31 - 1) [1, -2, 30] (by decide) ';' (by decide) (by decide)
  have e : join ([1, -2, 30].map text) [';'] = "1;-2;30".toList := by decide +kernel
  rw [e] at this; exact this
example : parseBool "YeS".toList = true ∧ parseBool "1".toList = false := by decide +kernel

end Ltio.Text.Num
