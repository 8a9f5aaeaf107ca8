import Verif.Inverted.Collide

/-
Model of components/inverted_indexer/posting_field/range_field.{h,cc}: values that are ranges of numbers (C55).
-/
namespace Ltio.Inv
open Ltio.Text

/-- `isspace`. -/
def isWs (c : Char) : Bool := c = ' ' ∨ c = '\t' ∨ c = '\n' ∨ c.toNat = 11 ∨ c.toNat = 12 ∨ c = '\r'

/-- `isWs` is C's `isspace` in the "C" locale: space and the codes 9 to 13. -/
theorem isWs_iff (c : Char) : isWs c = true ↔ c.toNat = 32 ∨ (9 ≤ c.toNat ∧ c.toNat ≤ 13) := by
  have key : ∀ d : Char, c = d ↔ c.toNat = d.toNat :=
    fun d => ⟨fun e => by rw [e], fun e => Char.ext (UInt32.ext e)⟩
  unfold isWs
  rw [decide_eq_true_eq, key, key, key, key]
  show c.toNat = 32 ∨ c.toNat = 9 ∨ c.toNat = 10 ∨ _ ∨ _ ∨ c.toNat = 13 ↔ _
  omega

/-- The value of decimal digits. -/
def digitsVal (ds : Str) : Int := ds.foldl (fun a c => 10 * a + ((c.toNat - 48 : Nat) : Int)) 0

/-- The digits and what follows, after a sign: the stream is good when the number is one of `int32_t` and something
follows; the value is clamped, and zero without digits. -/
def readDigits (neg : Bool) (t : Str) : Bool × Int :=
  if t.takeWhile Char.isDigit = [] then (false, 0)
  else if (if neg then - digitsVal (t.takeWhile Char.isDigit) else digitsVal (t.takeWhile Char.isDigit)) < -(2 ^ 31) then
    (false, -(2 ^ 31))
  else if 2 ^ 31 ≤ (if neg then - digitsVal (t.takeWhile Char.isDigit) else digitsVal (t.takeWhile Char.isDigit)) then
    (false, 2 ^ 31 - 1)
  else (!(t.dropWhile Char.isDigit).isEmpty,
    if neg then - digitsVal (t.takeWhile Char.isDigit) else digitsVal (t.takeWhile Char.isDigit))

/-- `StrUtil::ParseTo<int32_t>` (base/utils/string/str_utils.h:114-119): `iss >> out; return iss.good();`.  When only
blanks are there nothing is stored. -/
def parseTo (s : Str) (old : Int) : Bool × Int :=
  match s.dropWhile isWs with
  | [] => (false, old)
  | '-' :: t => readDigits true t
  | '+' :: t => readDigits false t
  | c :: t => readDigits false (c :: t)

/-- `ParseRange` (range_field.cc:65-87): success, start and end; both start as zero.  `none`: `Split` throws. -/
def parseRange (delim v : Str) : Option (Bool × Int × Int) :=
  match split v delim false with
  | none => none
  | some [a] =>
    some ((parseTo a 0).1, (parseTo a 0).2, if (parseTo a 0).1 then (parseTo a 0).2 else 0)
  | some [a, b] =>
    if (parseTo b 0).1 then some ((parseTo a 0).1, (parseTo a 0).2, (parseTo b 0).2)
    else some (false, 0, (parseTo b 0).2)
  | some _ => some (false, 0, 0)

/-- `include_pl_` and `exclude_pl_` (range_field.h:30-31): the posting lists by number. -/
structure RangeField (α : Type) where
  inc : Int → Option α
  exc : Int → Option α

/-- The loop `for (assign = start; assign <= end; assign++) map[assign] = pl` (range_field.cc:29-31). -/
def setRange {α : Type} (m : Int → Option α) (a b : Int) (pl : α) : Int → Option α :=
  fun n => if a ≤ n ∧ n ≤ b then some pl else m n

/-- `ResolveValueWithPostingList` (range_field.cc:18-32): `if (success || start > end) return;`. -/
def RangeField.resolve {α : Type} (r : RangeField α) (delim v : Str) (isInc : Bool) (pl : α) : Option (RangeField α) :=
  match parseRange delim v with
  | none => none
  | some (ok, a, b) =>
    if ok = true ∨ a > b then some r
    else if isInc then some { r with inc := setRange r.inc a b pl } else some { r with exc := setRange r.exc a b pl }

/-- `GetIncludeBitmap` (range_field.cc:34-48). -/
def RangeField.getInc {α : Type} (r : RangeField α) (v : Str) : List α :=
  if (parseTo v 0).1 then (r.inc (parseTo v 0).2).toList else []

/-- `GetExcludeBitmap` (range_field.cc:50-63). -/
def RangeField.getExc {α : Type} (r : RangeField α) (v : Str) : List α :=
  if (parseTo v 0).1 then (r.exc (parseTo v 0).2).toList else []

/-! ### Decimal texts -/

/-- A non-empty text of decimal digits. -/
def Dec (s : Str) : Prop := s ≠ [] ∧ ∀ c ∈ s, c.isDigit = true

theorem dec_cons {c : Char} {t : Str} (h : Dec (c :: t)) : isWs c = false ∧ c ≠ '-' ∧ c ≠ '+' := by
  have := h.2 c (by simp)
  refine ⟨?_, ?_, ?_⟩
  · rw [Bool.eq_false_iff]
    intro hw
    simp only [isWs, decide_eq_true_eq] at hw
    have hd : 48 ≤ c.toNat ∧ c.toNat ≤ 57 := by
      simp only [Char.isDigit, Bool.and_eq_true, decide_eq_true_eq] at this
      exact ⟨this.1, this.2⟩
    rcases hw with rfl | rfl | rfl | h | h | rfl <;> first | omega | simp at hd
  · rintro rfl; simp [Char.isDigit] at this
  · rintro rfl; simp [Char.isDigit] at this

theorem digits_takeWhile {s : Str} (h : ∀ c ∈ s, c.isDigit = true) (r : Str)
    (hr : ∀ c t, r = c :: t → c.isDigit = false) :
    (s ++ r).takeWhile Char.isDigit = s ∧ (s ++ r).dropWhile Char.isDigit = r := by
  induction s with
  | nil =>
    rcases r with _ | ⟨c, t⟩
    · simp
    · have := hr c t rfl
      simp [this]
  | cons x s ih =>
    have hx := h x (by simp)
    obtain ⟨i1, i2⟩ := ih (fun c hc => h c (by simp [hc]))
    simp [hx, i1, i2]

theorem digitsVal_nonneg (s : Str) : 0 ≤ digitsVal s := by
  have hnn : ∀ (s : Str) (a : Int), 0 ≤ a → 0 ≤ s.foldl (fun a c => 10 * a + ((c.toNat - 48 : Nat) : Int)) a := by
    intro s
    induction s with
    | nil => intro a ha; exact ha
    | cons c s ih => intro a ha; exact ih _ (show 0 ≤ 10 * a + ((c.toNat - 48 : Nat) : Int) by omega)
  exact hnn s 0 (by omega)

/-- What reading a decimal text and what follows it gives. -/
theorem parseTo_dec {s : Str} (h : Dec s) (r : Str) (hr : ∀ c t, r = c :: t → c.isDigit = false)
    (hm : digitsVal s < 2 ^ 31) (old : Int) : parseTo (s ++ r) old = (!r.isEmpty, digitsVal s) := by
  have h0 : 0 ≤ digitsVal s := digitsVal_nonneg s
  obtain ⟨t1, t2⟩ := digits_takeWhile h.2 r hr
  rcases s with _ | ⟨c, t⟩
  · exact absurd rfl h.1
  · obtain ⟨w, m, p⟩ := dec_cons h
    have key : parseTo ((c :: t) ++ r) old = readDigits false ((c :: t) ++ r) := by
      rw [parseTo]
      have : List.dropWhile isWs ((c :: t) ++ r) = (c :: t) ++ r := by simp [w]
      rw [this, List.cons_append]
      split
      · rename_i e; simp at e
      · rename_i e; simp at e; exact absurd e.1 m
      · rename_i e; simp at e; exact absurd e.1 p
      · rename_i e; simp at e; rw [e.1, e.2]
    rw [key, readDigits, t1, t2]
    simp only [Bool.false_eq_true, if_false]
    rw [if_neg h.1, if_neg (by omega), if_neg (by omega)]

/-! ### C55 -/

/-- C55 violated: no decimal text finds anything, whatever was indexed: a document that includes ranges on a range field
is never found by a number. -/
theorem c55_violation_never_found {α : Type} (r : RangeField α) {q : Str} (h : Dec q) :
    r.getInc q = [] ∧ r.getExc q = [] := by
  have : (parseTo q 0).1 = false := by
    by_cases hm : digitsVal q < 2 ^ 31
    · have := parseTo_dec h [] (by simp) hm 0
      rw [List.append_nil] at this
      rw [this]; rfl
    · rcases q with _ | ⟨c, t⟩
      · exact absurd rfl h.1
      · obtain ⟨w, m, p⟩ := dec_cons h
        have key : parseTo (c :: t) 0 = readDigits false (c :: t) := by
          rw [parseTo]
          have : List.dropWhile isWs (c :: t) = c :: t := by simp [w]
          rw [this]
          split
          · rename_i e; simp at e
          · rename_i e; simp at e; exact absurd e.1 m
          · rename_i e; simp at e; exact absurd e.1 p
          · rename_i e; simp at e; rw [e.1, e.2]
        obtain ⟨t1, t2⟩ := digits_takeWhile h.2 [] (by simp)
        rw [List.append_nil] at t1 t2
        rw [key, readDigits, t1]
        simp only [Bool.false_eq_true, if_false]
        rw [if_neg h.1]
        split
        · rfl
        · rw [if_pos (by omega)]
  simp [RangeField.getInc, RangeField.getExc, this]

/-- A text without anything but blanks finds nothing, and so does one that is neither a number nor begins with one. -/
theorem c55_not_a_number {α : Type} (r : RangeField α) (q : Str) (h : ∀ c, (q.dropWhile isWs).head? = some c →
      c.isDigit = false ∧ c ≠ '-' ∧ c ≠ '+') :
    r.getInc q = [] ∧ r.getExc q = [] := by
  have : (parseTo q 0).1 = false := by
    unfold parseTo
    split
    · rfl
    · rename_i e; rw [e] at h; exact absurd rfl (h '-' rfl).2.1
    · rename_i e; rw [e] at h; exact absurd rfl (h '+' rfl).2.2
    · rename_i c t _ _ e
      rw [e] at h
      simp [readDigits, (h c rfl).1]
  simp [RangeField.getInc, RangeField.getExc, this]

/-- The texts that do find something: a number followed by something else finds what is indexed under the number. -/
theorem c55_found_with_trailing {α : Type} (r : RangeField α) {q : Str} (h : Dec q) (hm : digitsVal q < 2 ^ 31) {c : Char}
    (hc : c.isDigit = false) (t : Str) :
    r.getInc (q ++ c :: t) = (r.inc (digitsVal q)).toList ∧ r.getExc (q ++ c :: t) = (r.exc (digitsVal q)).toList := by
  have := parseTo_dec h (c :: t) (by intro c' t' e; cases e; exact hc) hm 0
  simp [RangeField.getInc, RangeField.getExc, this]

/-- C55 violated: the text `a-b` of two numbers indexes the numbers from 0 to `b`, whatever `a`. -/
theorem c55_violation_start_ignored {α : Type} (r : RangeField α) {a b : Str} (ha : Dec a) (hb : Dec b)
    (hm : digitsVal b < 2 ^ 31) (pl : α) :
    ∃ r', r.resolve ['-'] (a ++ '-' :: b) true pl = some r' ∧
      (∀ n, r'.inc n = if 0 ≤ n ∧ n ≤ digitsVal b then some pl else r.inc n) ∧ r'.exc = r.exc := by
  have hsplit : split (a ++ '-' :: b) ['-'] false = some [a, b] := by
    have hfree : ∀ s, Dec s → '-' ∉ s := by
      intro s hs hmem
      have := hs.2 _ hmem
      simp [Char.isDigit] at this
    have := c32_split_join '-' [a, b] (by simp) (by
      intro p hp
      simp only [List.mem_cons, List.not_mem_nil, or_false] at hp
      rcases hp with rfl | rfl
      · exact hfree _ ha
      · exact hfree _ hb)
    simpa [join] using this
  have hp := parseTo_dec hb [] (by simp) hm 0
  rw [List.append_nil] at hp
  have h0 : 0 ≤ digitsVal b := digitsVal_nonneg b
  refine ⟨{ r with inc := setRange r.inc 0 (digitsVal b) pl }, ?_, fun n => rfl, rfl⟩
  unfold RangeField.resolve parseRange
  rw [hsplit]
  simp only [hp]
  simp; omega

/-- C55 violated: the text of a single positive number indexes nothing. -/
theorem c55_violation_single_ignored {α : Type} (r : RangeField α) {a : Str} (ha : Dec a) (hm : digitsVal a < 2 ^ 31)
    (hpos : 0 < digitsVal a) (isInc : Bool) (pl : α) : r.resolve ['-'] a isInc pl = some r := by
  have hsplit : split a ['-'] false = some [a] := by
    have := c32_split_join '-' [a] (by simp) (by
      intro p hp
      simp only [List.mem_cons, List.not_mem_nil, or_false] at hp
      subst hp
      intro hmem
      have := ha.2 _ hmem
      simp [Char.isDigit] at this)
    simpa [join] using this
  have hp := parseTo_dec ha [] (by simp) hm 0
  rw [List.append_nil] at hp
  unfold RangeField.resolve parseRange
  rw [hsplit]
  simp only [hp]
  simp; omega

/-- C55 violated: a later range overwrites an earlier one: where two ranges on a field overlap, only the documents of the
last one indexed are found. -/
theorem c55_violation_overlap {α : Type} (m : Int → Option α) (a b c d : Int) (p q : α) (n : Int) (h : c ≤ n ∧ n ≤ d) :
    setRange (setRange m a b p) c d q n = some q := by
  simp [setRange, h]

/-- The witness: "3-5" indexes 1, which "1 " finds and "4" does not. -/
example : ∃ r', (RangeField.mk (fun _ => none) (fun _ => none) : RangeField Nat).resolve ['-'] ['3', '-', '5'] true 9 = some r' ∧
    r'.getInc ['1', ' '] = [9] ∧ r'.getInc ['4'] = [] := by
  obtain ⟨r', h1, h2, _⟩ := c55_violation_start_ignored
    (RangeField.mk (fun _ => none) (fun _ => none) : RangeField Nat) (a := ['3']) (b := ['5']) ⟨by simp, by decide⟩
    ⟨by simp, by decide⟩ (by decide) 9
  refine ⟨r', h1, ?_, (c55_violation_never_found r' ⟨by simp, by decide⟩).1⟩
  rw [show ['1', ' '] = ['1'] ++ ' ' :: [] from rfl,
    (c55_found_with_trailing r' (q := ['1']) ⟨by simp, by decide⟩ (by decide) (c := ' ') (by decide) []).1, h2]
  rfl

end Ltio.Inv
