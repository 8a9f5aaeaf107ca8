import Verif.Text.Split
/-
Model of the other string helpers of `StrUtil` (base/utils/string/str_utils.cc:73-125).
-/
namespace Ltio.Text

/-- `find_first_not_of(chars)`. -/
def findFirstNotOf (chars : Str) : Str → Nat → Option Nat
  | [], _ => none
  | x :: t, i => if x ∈ chars then findFirstNotOf chars t (i + 1) else some i

/-- `find_last_not_of(chars)`: the last index with a character outside `chars`. -/
def findLastNotOf (chars : Str) : Str → Nat → Option Nat
  | [], _ => none
  | x :: t, i =>
    match findLastNotOf chars t (i + 1) with
    | some j => some j
    | none => if x ∈ chars then none else some i

/-- `TrimLeft` (str_utils.cc:114-117): `erase(0, npos)` erases everything. -/
def trimLeft (t chars : Str) : Str :=
  match findFirstNotOf chars t 0 with
  | none => []
  | some n => t.drop n

/-- `TrimRight` (str_utils.cc:119-122): `npos + 1` is 0. -/
def trimRight (t chars : Str) : Str :=
  match findLastNotOf chars t 0 with
  | none => t.take 0
  | some n => t.take (n + 1)

/-- `Trim` (str_utils.cc:123-125). -/
def trim (t chars : Str) : Str := trimLeft (trimRight t chars) chars

/-- `StartsWith` (str_utils.cc:104-107). -/
def startsWith (t p : Str) : Bool := p.length ≤ t.length && t.take p.length == p

/-- `EndsWith` (str_utils.cc:109-112). -/
def endsWith (t s : Str) : Bool := s.length ≤ t.length && t.drop (t.length - s.length) == s

/-- `Contains` (str_utils.cc:99-102): the position `std::search` returns differs from the end. -/
def contains (t s : Str) : Bool :=
  (findFrom s t 0).getD t.length != t.length

/-- `Replace` (str_utils.cc:79-87). -/
def replace (t a b : Str) : Option Str :=
  match find t a 0 with
  | none => none
  | some p => some (t.take p ++ b ++ t.drop (p + a.length))

/-- `rfind`: the last occurrence. -/
def rfindFrom (d : Str) : Str → Nat → Option Nat
  | [], i => if d = [] then some i else none
  | x :: t, i =>
    match rfindFrom d t (i + 1) with
    | some p => some p
    | none => if d.isPrefixOf (x :: t) then some i else none

/-- `ReplaceLast` (str_utils.cc:89-97). -/
def replaceLast (t a b : Str) : Option Str :=
  match rfindFrom a t 0 with
  | none => none
  | some p => some (t.take p ++ b ++ t.drop (p + a.length))

/-- `IgnoreCaseEquals` (str_utils.cc:73-77): `std::equal` walks the first string only; `none` when
it reads past the end of the second. -/
def ignoreCaseEquals : Str → Str → Option Bool
  | [], _ => some true
  | _ :: _, [] => none
  | x :: a, y :: b => if x.toUpper = y.toUpper then ignoreCaseEquals a b else some false

/-! ### Specification -/

/-- `r` is `t` without the leading and trailing characters of `chars`. -/
def IsTrim (chars t r : Str) : Prop :=
  ∃ l e, t = l ++ r ++ e ∧ (∀ x ∈ l, x ∈ chars) ∧ (∀ x ∈ e, x ∈ chars) ∧
    (∀ x, r.head? = some x → x ∉ chars) ∧ (∀ x, r.getLast? = some x → x ∉ chars)

/-- `s` occurs in `t` at position `p`. -/
def OccursAt (t s : Str) (p : Nat) : Prop := ∃ a b, t = a ++ s ++ b ∧ a.length = p

/-! ### Proofs -/

theorem findFirstNotOf_spec (chars : Str) : ∀ (t : Str) (i : Nat),
    match findFirstNotOf chars t i with
    | none => ∀ x ∈ t, x ∈ chars
    | some n => ∃ l y r, t = l ++ y :: r ∧ n = i + l.length ∧ (∀ x ∈ l, x ∈ chars) ∧ y ∉ chars := by
  intro t
  induction t with
  | nil => intro i; simp [findFirstNotOf]
  | cons x t ih =>
    intro i
    unfold findFirstNotOf
    split
    · rename_i hn
      split at hn
      · rename_i hx
        have := ih (i + 1)
        rw [hn] at this
        intro y hy
        rcases List.mem_cons.1 hy with rfl | hy
        · exact hx
        · exact this y hy
      · simp at hn
    · rename_i n hn
      split at hn
      · rename_i hx
        have := ih (i + 1)
        rw [hn] at this
        obtain ⟨l, y, r, h1, h2, h3, h4⟩ := this
        refine ⟨x :: l, y, r, by rw [h1]; rfl, by simp; omega, ?_, h4⟩
        intro z hz
        rcases List.mem_cons.1 hz with rfl | hz
        · exact hx
        · exact h3 z hz
      · rename_i hx
        simp at hn
        exact ⟨[], x, t, rfl, by simp [hn], by simp, hx⟩

theorem findLastNotOf_spec (chars : Str) : ∀ (t : Str) (i : Nat),
    match findLastNotOf chars t i with
    | none => ∀ x ∈ t, x ∈ chars
    | some n => ∃ l y r, t = l ++ y :: r ∧ n = i + l.length ∧ (∀ x ∈ r, x ∈ chars) ∧ y ∉ chars := by
  intro t
  induction t with
  | nil => intro i; simp [findLastNotOf]
  | cons x t ih =>
    intro i
    have h := ih (i + 1)
    unfold findLastNotOf
    cases hf : findLastNotOf chars t (i + 1) with
    | some j =>
      rw [hf] at h
      obtain ⟨l, y, r, h1, h2, h3, h4⟩ := h
      exact ⟨x :: l, y, r, by rw [h1]; rfl, by simp; omega, h3, h4⟩
    | none =>
      rw [hf] at h
      simp only
      by_cases hx : x ∈ chars
      · rw [if_pos hx]
        intro y hy
        rcases List.mem_cons.1 hy with rfl | hy
        · exact hx
        · exact h y hy
      · rw [if_neg hx]
        exact ⟨[], x, t, rfl, by simp, h, hx⟩

theorem trimLeft_spec (t chars : Str) : ∃ l, t = l ++ trimLeft t chars ∧ (∀ x ∈ l, x ∈ chars) ∧
    (∀ x, (trimLeft t chars).head? = some x → x ∉ chars) := by
  have h := findFirstNotOf_spec chars t 0
  unfold trimLeft
  cases hf : findFirstNotOf chars t 0 with
  | none => rw [hf] at h; exact ⟨t, by simp, h, by simp⟩
  | some n =>
    rw [hf] at h
    obtain ⟨l, y, r, h1, h2, h3, h4⟩ := h
    have hd : t.drop n = y :: r := by rw [h1, h2]; simp
    refine ⟨l, by simp only [hd]; exact h1, h3, ?_⟩
    intro x hx
    simp only [hd, List.head?_cons, Option.some.injEq] at hx
    rw [← hx]; exact h4

theorem trimRight_spec (t chars : Str) : ∃ e, t = trimRight t chars ++ e ∧ (∀ x ∈ e, x ∈ chars) ∧
    (∀ x, (trimRight t chars).getLast? = some x → x ∉ chars) := by
  have h := findLastNotOf_spec chars t 0
  unfold trimRight
  cases hf : findLastNotOf chars t 0 with
  | none => rw [hf] at h; exact ⟨t, by simp, h, by simp⟩
  | some n =>
    rw [hf] at h
    obtain ⟨l, y, r, h1, h2, h3, h4⟩ := h
    have hd : t.take (n + 1) = l ++ [y] := by
      have e : t = (l ++ [y]) ++ r := by rw [h1]; simp
      rw [e]
      exact List.take_left' (by simp; omega)
    refine ⟨r, by simp only [hd]; rw [h1]; simp, h3, ?_⟩
    intro x hx
    simp only [hd, List.getLast?_append, List.getLast?_singleton, Option.some_or,
      Option.some.injEq] at hx
    rw [← hx]; exact h4

/-- **C41: Trim** removes exactly the leading and trailing characters of the set. -/
theorem c41_trim (t chars : Str) : IsTrim chars t (trim t chars) := by
  obtain ⟨e, h1, h2, h3⟩ := trimRight_spec t chars
  obtain ⟨l, g1, g2, g3⟩ := trimLeft_spec (trimRight t chars) chars
  refine ⟨l, e, ?_, g2, h2, g3, ?_⟩
  · show t = l ++ trimLeft (trimRight t chars) chars ++ e
    rw [← g1]; exact h1
  · intro x hx
    apply h3 x
    rw [g1, List.getLast?_append]
    have hx' : (trimLeft (trimRight t chars) chars).getLast? = some x := hx
    rw [hx']; rfl

/-- The trimmed string is unique, so the theorem above determines the result. -/
theorem isTrim_unique {chars t r r' : Str} (h : IsTrim chars t r) (h' : IsTrim chars t r') :
    r = r' := by
  -- leading parts
  have lead : ∀ (l l' s s' : Str), l ++ s = l' ++ s' → (∀ x ∈ l, x ∈ chars) → (∀ x ∈ l', x ∈ chars) →
      (∀ x, s.head? = some x → x ∉ chars) → (∀ x, s'.head? = some x → x ∉ chars) → s = s' := by
    intro l
    induction l with
    | nil =>
      intro l' s s' he _ hl' hs hs'
      cases l' with
      | nil => simpa using he
      | cons y l' =>
        exfalso
        simp at he
        exact hs y (by rw [he]; rfl) (hl' y (by simp))
    | cons x l ih =>
      intro l' s s' he hl hl' hs hs'
      cases l' with
      | nil =>
        exfalso
        simp at he
        exact hs' x (by rw [← he]; rfl) (hl x (by simp))
      | cons y l' =>
        simp at he
        exact ih l' s s' he.2 (fun z hz => hl z (by simp [hz])) (fun z hz => hl' z (by simp [hz])) hs hs'
  obtain ⟨l, e, h1, h2, h3, h4, h5⟩ := h
  obtain ⟨l', e', g1, g2, g3, g4, g5⟩ := h'
  by_cases hr : r = []
  · -- everything is in chars
    have hall : ∀ x ∈ t, x ∈ chars := by
      intro x hx
      rw [h1, hr] at hx
      simp only [List.append_nil, List.mem_append] at hx
      rcases hx with hx | hx
      · exact h2 x hx
      · exact h3 x hx
    cases r' with
    | nil => exact hr
    | cons y r' =>
      exact absurd (hall y (by rw [g1]; simp)) (g4 y rfl)
  · by_cases hr' : r' = []
    · have hall : ∀ x ∈ t, x ∈ chars := by
        intro x hx
        rw [g1, hr'] at hx
        simp only [List.append_nil, List.mem_append] at hx
        rcases hx with hx | hx
        · exact g2 x hx
        · exact g3 x hx
      cases r with
      | nil => exact absurd rfl hr
      | cons y r => exact absurd (hall y (by rw [h1]; simp)) (h4 y rfl)
    · have hs : r ++ e = r' ++ e' := by
        apply lead l l' _ _ (by rw [← List.append_assoc, ← List.append_assoc, ← h1, ← g1]) h2 g2
        · intro x hx
          cases r with
          | nil => exact absurd rfl hr
          | cons y r => exact h4 x (by simpa using hx)
        · intro x hx
          cases r' with
          | nil => exact absurd rfl hr'
          | cons y r' => exact g4 x (by simpa using hx)
      have := lead e.reverse e'.reverse r.reverse r'.reverse
        (by rw [← List.reverse_append, ← List.reverse_append, hs])
        (fun x hx => h3 x (by simpa using hx)) (fun x hx => g3 x (by simpa using hx))
        (fun x hx => h5 x (by simpa [List.head?_reverse] using hx))
        (fun x hx => g5 x (by simpa [List.head?_reverse] using hx))
      simpa using congrArg List.reverse this

/-- **C41: StartsWith / EndsWith**. -/
theorem c41_startsWith (t p : Str) : startsWith t p = true ↔ ∃ b, t = p ++ b := by
  unfold startsWith
  simp only [Bool.and_eq_true, decide_eq_true_eq, beq_iff_eq]
  constructor
  · rintro ⟨-, h⟩
    refine ⟨t.drop p.length, ?_⟩
    have := List.take_append_drop p.length t
    rw [h] at this
    exact this.symm
  · rintro ⟨b, rfl⟩
    simp

theorem c41_endsWith (t s : Str) : endsWith t s = true ↔ ∃ a, t = a ++ s := by
  unfold endsWith
  simp only [Bool.and_eq_true, decide_eq_true_eq, beq_iff_eq]
  constructor
  · rintro ⟨-, h⟩
    refine ⟨t.take (t.length - s.length), ?_⟩
    have := List.take_append_drop (t.length - s.length) t
    rw [h] at this
    exact this.symm
  · rintro ⟨a, rfl⟩
    simp

theorem findFrom_spec (d : Str) : ∀ (t : Str) (i : Nat),
    match findFrom d t i with
    | none => ∀ a b, t ≠ a ++ d ++ b
    | some p => (∃ a b, t = a ++ d ++ b ∧ p = i + a.length) ∧
        ∀ a b, t = a ++ d ++ b → p ≤ i + a.length := by
  intro t
  induction t with
  | nil =>
    intro i
    unfold findFrom
    by_cases hd : d = []
    · rw [if_pos hd]
      exact ⟨⟨[], [], by simp [hd], by simp⟩, fun a b _ => by omega⟩
    · rw [if_neg hd]
      intro a b h
      have := congrArg List.length h
      simp only [List.length_nil, List.length_append] at this
      have := List.length_pos_iff.2 hd
      omega
  | cons x t ih =>
    intro i
    unfold findFrom
    by_cases hp : d.isPrefixOf (x :: t) = true
    · rw [if_pos hp]
      obtain ⟨b, hb⟩ := List.isPrefixOf_iff_prefix.1 hp
      exact ⟨⟨[], b, by simp [hb], by simp⟩, fun a b _ => by omega⟩
    · rw [if_neg hp]
      have hne : ∀ a b, x :: t = a ++ d ++ b → ∃ a', a = x :: a' ∧ t = a' ++ d ++ b := by
        intro a b h
        cases a with
        | nil =>
          exfalso
          apply hp
          rw [List.isPrefixOf_iff_prefix]
          exact ⟨b, by simpa using h.symm⟩
        | cons y a' =>
          simp only [List.cons_append, List.cons.injEq] at h
          exact ⟨a', by rw [h.1], h.2⟩
      have := ih (i + 1)
      cases hf : findFrom d t (i + 1) with
      | none =>
        rw [hf] at this
        intro a b h
        obtain ⟨a', -, h2⟩ := hne a b h
        exact this a' b h2
      | some p =>
        rw [hf] at this
        obtain ⟨⟨a, b, h1, h2⟩, h3⟩ := this
        refine ⟨⟨x :: a, b, by rw [h1]; simp, by simp; omega⟩, ?_⟩
        intro a b h
        obtain ⟨a', h4, h5⟩ := hne a b h
        have := h3 a' b h5
        rw [h4]; simp only [List.length_cons]; omega

theorem rfindFrom_spec (d : Str) : ∀ (t : Str) (i : Nat),
    match rfindFrom d t i with
    | none => ∀ a b, t ≠ a ++ d ++ b
    | some p => (∃ a b, t = a ++ d ++ b ∧ p = i + a.length) ∧
        ∀ a b, t = a ++ d ++ b → i + a.length ≤ p := by
  intro t
  induction t with
  | nil =>
    intro i
    unfold rfindFrom
    by_cases hd : d = []
    · rw [if_pos hd]
      refine ⟨⟨[], [], by simp [hd], by simp⟩, fun a b h => ?_⟩
      have := congrArg List.length h
      simp only [List.length_nil, List.length_append] at this
      omega
    · rw [if_neg hd]
      intro a b h
      have := congrArg List.length h
      simp only [List.length_nil, List.length_append] at this
      have := List.length_pos_iff.2 hd
      omega
  | cons x t ih =>
    intro i
    unfold rfindFrom
    have hsplit : ∀ a b, x :: t = a ++ d ++ b → a = [] ∨ ∃ a', a = x :: a' ∧ t = a' ++ d ++ b := by
      intro a b h
      cases a with
      | nil => exact Or.inl rfl
      | cons y a' =>
        simp only [List.cons_append, List.cons.injEq] at h
        exact Or.inr ⟨a', by rw [h.1], h.2⟩
    have := ih (i + 1)
    cases hf : rfindFrom d t (i + 1) with
    | some p =>
      rw [hf] at this
      obtain ⟨⟨a, b, h1, h2⟩, h3⟩ := this
      refine ⟨⟨x :: a, b, by rw [h1]; simp, by simp; omega⟩, ?_⟩
      intro a b h
      rcases hsplit a b h with h4 | ⟨a', h4, h5⟩
      · rw [h4]; simp; omega
      · have := h3 a' b h5
        rw [h4]; simp only [List.length_cons]; omega
    | none =>
      rw [hf] at this
      simp only
      by_cases hp : d.isPrefixOf (x :: t) = true
      · rw [if_pos hp]
        obtain ⟨b, hb⟩ := List.isPrefixOf_iff_prefix.1 hp
        refine ⟨⟨[], b, by simp [hb], by simp⟩, ?_⟩
        intro a b h
        rcases hsplit a b h with h4 | ⟨a', -, h5⟩
        · rw [h4]; simp
        · exact absurd h5 (this a' b)
      · rw [if_neg hp]
        intro a b h
        rcases hsplit a b h with h4 | ⟨a', -, h5⟩
        · apply hp
          rw [List.isPrefixOf_iff_prefix]
          exact ⟨b, by rw [h, h4]; simp⟩
        · exact absurd h5 (this a' b)

/-- **C41: Contains** for a non-empty needle (or a non-empty text). -/
theorem c41_contains_partial (t s : Str) (h : s ≠ [] ∨ t ≠ []) :
    contains t s = true ↔ ∃ a b, t = a ++ s ++ b := by
  have hs := findFrom_spec s t 0
  unfold contains
  cases hf : findFrom s t 0 with
  | none =>
    rw [hf] at hs
    simp only [Option.getD_none, bne_self_eq_false, Bool.false_eq_true, false_iff]
    rintro ⟨a, b, e⟩
    exact hs a b e
  | some p =>
    rw [hf] at hs
    obtain ⟨⟨a, b, h1, h2⟩, h3⟩ := hs
    simp only [Option.getD_some, bne_iff_ne, ne_eq]
    refine ⟨fun _ => ⟨a, b, h1⟩, fun _ hp => ?_⟩
    rcases h with h | h
    · have := congrArg List.length h1
      simp only [List.length_append] at this
      have := List.length_pos_iff.2 h
      omega
    · have hs0 : s = [] := by
        have := congrArg List.length h1
        simp only [List.length_append] at this
        apply List.eq_nil_of_length_eq_zero
        omega
      have hle := h3 [] t (by simp [hs0])
      have := List.length_pos_iff.2 h
      simp only [List.length_nil] at hle
      omega

/-- **C41 violated**: the empty string does not contain the empty string. -/
theorem c41_contains_empty_violated : contains [] [] = false := rfl

/-- **C41: Replace** replaces exactly the first occurrence, and fails iff there is none. -/
theorem c41_replace (t a b : Str) :
    match replace t a b with
    | none => ∀ l r, t ≠ l ++ a ++ r
    | some t' => ∃ l r, t = l ++ a ++ r ∧ t' = l ++ b ++ r ∧
        ∀ l' r', t = l' ++ a ++ r' → l.length ≤ l'.length := by
  have hs := findFrom_spec a t 0
  have hfind : find t a 0 = findFrom a t 0 := by unfold find; simp
  unfold replace
  rw [hfind]
  cases hf : findFrom a t 0 with
  | none => rw [hf] at hs; exact hs
  | some p =>
    rw [hf] at hs
    obtain ⟨⟨l, r, h1, h2⟩, h3⟩ := hs
    refine ⟨l, r, h1, ?_, fun l' r' h => by have := h3 l' r' h; omega⟩
    have hp : p = l.length := by omega
    have e1 : t.take p = l := by rw [h1, hp]; simp
    have e2 : t.drop (p + a.length) = r := by rw [h1, hp, ← List.drop_drop]; simp
    rw [e1, e2]

/-- **C41: ReplaceLast** replaces exactly the last occurrence. -/
theorem c41_replaceLast (t a b : Str) :
    match replaceLast t a b with
    | none => ∀ l r, t ≠ l ++ a ++ r
    | some t' => ∃ l r, t = l ++ a ++ r ∧ t' = l ++ b ++ r ∧
        ∀ l' r', t = l' ++ a ++ r' → l'.length ≤ l.length := by
  have hs := rfindFrom_spec a t 0
  unfold replaceLast
  cases hf : rfindFrom a t 0 with
  | none => rw [hf] at hs; exact hs
  | some p =>
    rw [hf] at hs
    obtain ⟨⟨l, r, h1, h2⟩, h3⟩ := hs
    refine ⟨l, r, h1, ?_, fun l' r' h => by have := h3 l' r' h; omega⟩
    have hp : p = l.length := by omega
    have e1 : t.take p = l := by rw [h1, hp]; simp
    have e2 : t.drop (p + a.length) = r := by rw [h1, hp, ← List.drop_drop]; simp
    rw [e1, e2]

/-- **C41: IgnoreCaseEquals** on strings of equal length. -/
theorem c41_ignoreCase_partial : ∀ (a b : Str), a.length = b.length →
    ignoreCaseEquals a b = some (decide (a.map Char.toUpper = b.map Char.toUpper)) := by
  intro a
  induction a with
  | nil => intro b h; cases b with
    | nil => simp [ignoreCaseEquals]
    | cons y b => simp at h
  | cons x a ih =>
    intro b h
    cases b with
    | nil => simp at h
    | cons y b =>
      simp only [List.length_cons, Nat.add_right_cancel_iff] at h
      unfold ignoreCaseEquals
      split
      · rename_i hxy
        rw [ih b h]; simp [hxy]
      · rename_i hxy
        simp [hxy]

/-- **C41 violated**: every prefix of the second string is "equal" to it ... -/
theorem c41_ignoreCase_prefix_violated (a b : Str) : ignoreCaseEquals a (a ++ b) = some true := by
  induction a with
  | nil => rfl
  | cons x a ih => simp [ignoreCaseEquals, ih]

/-- ... and comparing a string with a proper prefix of it reads out of bounds. -/
theorem c41_ignoreCase_overread_violated (a b : Str) (hb : b ≠ []) :
    ignoreCaseEquals (a ++ b) a = none := by
  induction a with
  | nil => cases b with
    | nil => exact absurd rfl hb
    | cons x b => rfl
  | cons x a ih => simp [ignoreCaseEquals, ih]

/-- Consequence for HTTP/2 (h2_codec_service.cc:500): a header named `con` is taken for
`connection` and dropped. -/
example : ignoreCaseEquals "con".toList "connection".toList = some true :=
  c41_ignoreCase_prefix_violated "con".toList "nection".toList

example : trim "  a b ".toList " ".toList = "a b".toList := by decide
example : replaceLast "a.b.c".toList ".".toList "/".toList = some "a.b/c".toList := by decide
example : contains "abc".toList "bc".toList = true :=
  (c41_contains_partial _ _ (Or.inl (by decide))).2 ⟨"a".toList, [], by decide⟩

end Ltio.Text
