import Mathlib.Data.List.Basic
import Mathlib.Order.Basic

/-
base/string/string_view.hpp: `nonstd::basic_string_view<char>` (lines 423-1000) and its stream inserter
(1085-1133), in the configuration the build uses (CMakeLists.txt:6, C++14, so the header's own class and not
`std::string_view`).

A view is the list of its bytes.  `size_type` is a `Nat`; `npos` is `2^64 - 1`, the size of every view is less.
The algorithms of the standard library the header calls (`std::search`, `std::find_end`, `std::find_first_of`,
`std::find_if`, `Traits::compare`) are written out as recursions; an iterator is its distance from the beginning
of the range searched.
-/
namespace Ltio.Text.StringView

abbrev View := List UInt8

/-- `npos` (845-851). -/
def npos : Nat := 2 ^ 64 - 1

theorem npos_value : npos = 18446744073709551615 := by decide

/-- `std::search`: the first place where `n` begins, the end of the range if there is none. -/
def search (n : View) : View → Nat
  | [] => 0
  | c :: h => if n.isPrefixOf (c :: h) then 0 else search n h + 1

/-- `std::find_end` for a non-empty `n`: the last place where `n` begins, the end of the range if there is
none. -/
def findEnd (n : View) : View → Nat
  | [] => 0
  | c :: h => if findEnd n h < h.length then findEnd n h + 1 else if n.isPrefixOf (c :: h) then 0 else h.length + 1

/-- `std::find_if`: the first element with `p`, the end of the range if there is none. -/
def findIf (p : UInt8 → Bool) : View → Nat
  | [] => 0
  | c :: h => if p c then 0 else findIf p h + 1

/-- `std::find_first_of`. -/
def findFirst (n : View) (h : View) : Nat := findIf (fun c => n.contains c) h

/-- `Traits::compare` (memcmp) of two ranges of the same length: its sign. -/
def memcmp : View → View → Int
  | a :: as, b :: bs => if a < b then -1 else if b < a then 1 else memcmp as bs
  | _, _ => 0

/-- `to_pos` (866-869). -/
def toPos (s : View) (i : Nat) : Nat := if i = s.length then npos else i

/-- `find` (685-691). -/
def find (s v : View) (pos : Nat) : Nat :=
  if pos ≥ s.length then npos else toPos s (pos + search v (s.drop pos))

/-- `rfind` (710-726). -/
def rfind (s v : View) (pos : Nat) : Nat :=
  if s.length < v.length then npos
  else if v = [] then min s.length pos
  else if findEnd v (s.take (min (s.length - v.length) pos + v.length)) ≠ min (s.length - v.length) pos + v.length
  then findEnd v (s.take (min (s.length - v.length) pos + v.length)) else npos

/-- `find_first_of` (745-750). -/
def findFirstOf (s v : View) (pos : Nat) : Nat :=
  if pos ≥ s.length then npos else toPos s (pos + findFirst v (s.drop pos))

/-- `to_pos` of a reverse iterator `j` steps from position `pos` (871-874). -/
def toPosRev (pos j : Nat) : Nat := if j = pos + 1 then npos else pos + 1 - j - 1

/-- `find_last_of` (769-776); the recursive call has `pos = size() - 1`. -/
def findLastOf (s v : View) (pos : Nat) : Nat :=
  if s = [] then npos
  else if pos ≥ s.length then toPosRev (s.length - 1) (findFirst v (s.take (s.length - 1 + 1)).reverse)
  else toPosRev pos (findFirst v (s.take (pos + 1)).reverse)

/-- `not_in_view` (854-864). -/
def notInView (v : View) (c : UInt8) : Bool := npos == findFirstOf v [c] 0

/-- `find_first_not_of` (795-800). -/
def findFirstNotOf (s v : View) (pos : Nat) : Nat :=
  if pos ≥ s.length then npos else toPos s (pos + findIf (notInView v) (s.drop pos))

/-- `find_last_not_of` (819-826). -/
def findLastNotOf (s v : View) (pos : Nat) : Nat :=
  if s = [] then npos
  else if pos ≥ s.length then toPosRev (s.length - 1) (findIf (notInView v) (s.take (s.length - 1 + 1)).reverse)
  else toPosRev pos (findIf (notInView v) (s.take (pos + 1)).reverse)

/-- `compare` (1) (612-620). -/
def compare (s t : View) : Int :=
  if memcmp (s.take (min s.length t.length)) (t.take (min s.length t.length)) ≠ 0
  then memcmp (s.take (min s.length t.length)) (t.take (min s.length t.length))
  else if s.length = t.length then 0 else if s.length < t.length then -1 else 1

/-- `substr` (597-608); `none` is the exception. -/
def substr (s : View) (pos n : Nat) : Option View :=
  if pos > s.length then none else some ((s.drop pos).take (min n (s.length - pos)))

/-- `copy` (580-595): the bytes written; `none` is the exception. -/
def copy (s : View) (n pos : Nat) : Option View :=
  if pos > s.length then none else some ((s.drop pos).take (min n (s.length - pos)))

/-- `at` (538-549); `none` is the exception. -/
def at' (s : View) (pos : Nat) : Option UInt8 := if pos ≥ s.length then none else s[pos]?

/-- `compare` (2) (622-625); `none` is the exception. -/
def compare2 (s : View) (pos n : Nat) (t : View) : Option Int := (substr s pos n).map (fun x => compare x t)

/-- `starts_with` (651-654). -/
def startsWith (s v : View) : Bool := decide (s.length ≥ v.length) && compare2 s 0 v.length v == some 0

/-- `ends_with` (668-671). -/
def endsWith (s v : View) : Bool := decide (s.length ≥ v.length) && compare2 s (s.length - v.length) npos v == some 0

/-- `remove_prefix` (558-563) and `remove_suffix` (565-569), whose assertion is `n <= size()`. -/
def removePrefix (s : View) (n : Nat) : View := s.drop n
/-- `remove_suffix` (565-569). -/
def removeSuffix (s : View) (n : Nat) : View := s.take (s.length - n)

/-- The alignment flag of a stream: `std::ios_base::adjustfield`; a new stream has none. -/
inductive Adjust | none | left | right | internal
deriving DecidableEq, Repr

/-- `write_to_stream` (1095-1122) on a good stream: the bytes written for a width and a fill character. -/
def insert (s : View) (width : Nat) (fill : UInt8) (a : Adjust) : View :=
  (if s.length < width ∧ a = .right then List.replicate (width - s.length) fill else []) ++ s ++
  (if s.length < width ∧ ¬(s.length < width ∧ a = .right) then List.replicate (width - s.length) fill else [])

/-! ### Specification (the standard's, [string.view.find], [string.view.ops], [string.view.io]) -/

/-- `v` stands at place `i` of `s`. -/
def At (s v : View) (i : Nat) : Prop := i + v.length ≤ s.length ∧ (s.drop i).take v.length = v

/-- `r` is the least place from `pos` on with `P`, `npos` if there is none. -/
def Least (P : Nat → Prop) (pos r : Nat) : Prop :=
  (P r ∧ pos ≤ r ∧ ∀ j, pos ≤ j → j < r → ¬ P j) ∨ (r = npos ∧ ∀ j, pos ≤ j → ¬ P j)

/-- `r` is the greatest place up to `pos` with `P`, `npos` if there is none. -/
def Greatest (P : Nat → Prop) (pos r : Nat) : Prop :=
  (P r ∧ r ≤ pos ∧ ∀ j, j ≤ pos → r < j → ¬ P j) ∨ (r = npos ∧ ∀ j, j ≤ pos → ¬ P j)

/-- The byte at place `i` of `s` is one of `v`; is none of `v`. -/
def OneOf (s v : View) (i : Nat) : Prop := ∃ c, s[i]? = some c ∧ c ∈ v
def NoneOf (s v : View) (i : Nat) : Prop := ∃ c, s[i]? = some c ∧ c ∉ v

/-! ### Algorithms -/

theorem at_iff (s v : View) (i : Nat) : At s v i ↔ i ≤ s.length ∧ v.isPrefixOf (s.drop i) = true := by
  rw [List.isPrefixOf_iff_prefix]
  constructor
  · rintro ⟨h1, h2⟩
    exact ⟨by omega, by rw [← h2]; exact List.take_prefix _ _⟩
  · rintro ⟨h0, h⟩
    have hl := h.length_le
    rw [List.length_drop] at hl
    exact ⟨by omega, (List.prefix_iff_eq_take.1 h).symm⟩

theorem search_spec (n h : View) : search n h ≤ h.length ∧ (search n h < h.length → n.isPrefixOf (h.drop (search n h)) = true) ∧
    (∀ j, j < search n h → n.isPrefixOf (h.drop j) = false) := by
  induction h with
  | nil => exact ⟨by simp [search], by simp [search], by simp [search]⟩
  | cons c h ih =>
    obtain ⟨h1, h2, h3⟩ := ih
    unfold search
    by_cases hp : n.isPrefixOf (c :: h) = true
    · rw [if_pos hp]
      exact ⟨Nat.zero_le _, fun _ => hp, fun j hj => absurd hj (by omega)⟩
    · rw [if_neg hp]
      refine ⟨by simp only [List.length_cons]; omega, ?_, ?_⟩
      · intro hl
        rw [List.drop_succ_cons]
        exact h2 (by simp only [List.length_cons] at hl; omega)
      · intro j hj
        cases j with
        | zero => exact Bool.eq_false_iff.2 hp
        | succ j => rw [List.drop_succ_cons]; exact h3 j (by omega)

theorem findEnd_spec (n h : View) : findEnd n h ≤ h.length ∧
    (findEnd n h < h.length → n.isPrefixOf (h.drop (findEnd n h)) = true) ∧
    (∀ j, j < h.length → (findEnd n h < j ∨ findEnd n h = h.length) → n.isPrefixOf (h.drop j) = false) := by
  induction h with
  | nil => exact ⟨by simp [findEnd], by simp [findEnd], by simp⟩
  | cons c h ih =>
    obtain ⟨h1, h2, h3⟩ := ih
    unfold findEnd
    by_cases hf : findEnd n h < h.length
    · rw [if_pos hf]
      refine ⟨by simp only [List.length_cons]; omega, fun _ => by rw [List.drop_succ_cons]; exact h2 hf, ?_⟩
      intro j hj ho
      cases j with
      | zero => simp only [List.length_cons] at ho; omega
      | succ j =>
        rw [List.drop_succ_cons]
        simp only [List.length_cons] at hj ho
        exact h3 j (by omega) (Or.inl (by omega))
    · rw [if_neg hf]
      have he : findEnd n h = h.length := by omega
      by_cases hp : n.isPrefixOf (c :: h) = true
      · rw [if_pos hp]
        refine ⟨Nat.zero_le _, fun _ => hp, ?_⟩
        intro j hj ho
        cases j with
        | zero => simp only [List.length_cons] at ho; omega
        | succ j =>
          rw [List.drop_succ_cons]
          exact h3 j (by simpa using hj) (Or.inr he)
      · rw [if_neg hp]
        refine ⟨by simp, fun hh => absurd hh (by simp), ?_⟩
        intro j hj _
        cases j with
        | zero => exact Bool.eq_false_iff.2 hp
        | succ j =>
          rw [List.drop_succ_cons]
          exact h3 j (by simpa using hj) (Or.inr he)

theorem findIf_spec (p : UInt8 → Bool) (h : View) : findIf p h ≤ h.length ∧
    (findIf p h < h.length → ∃ c, h[findIf p h]? = some c ∧ p c = true) ∧
    (∀ j, j < findIf p h → ∃ c, h[j]? = some c ∧ p c = false) := by
  induction h with
  | nil => exact ⟨by simp [findIf], by simp [findIf], by simp [findIf]⟩
  | cons c h ih =>
    obtain ⟨h1, h2, h3⟩ := ih
    unfold findIf
    by_cases hp : p c = true
    · rw [if_pos hp]
      exact ⟨Nat.zero_le _, fun _ => ⟨c, rfl, hp⟩, fun j hj => absurd hj (by omega)⟩
    · rw [if_neg hp]
      refine ⟨by simp only [List.length_cons]; omega, ?_, ?_⟩
      · intro hl
        rw [List.getElem?_cons_succ]
        exact h2 (by simp only [List.length_cons] at hl; omega)
      · intro j hj
        cases j with
        | zero => exact ⟨c, rfl, by simpa using hp⟩
        | succ j => rw [List.getElem?_cons_succ]; exact h3 j (by omega)

/-! ### Searching -/

/-- **C128 (find)**: for every view, every non-empty text and every position, `find` gives the first place from
the position on where the text stands, `npos` if there is none. -/
theorem c128_find (s v : View) (pos : Nat) (hv : v ≠ []) : Least (At s v) pos (find s v pos) := by
  have hvl : 0 < v.length := List.length_pos_iff.2 hv
  unfold find
  by_cases hp : pos ≥ s.length
  · rw [if_pos hp]
    exact Or.inr ⟨rfl, fun j hj ha => by have := ha.1; omega⟩
  · rw [if_neg hp]
    obtain ⟨h1, h2, h3⟩ := search_spec v (s.drop pos)
    rw [List.length_drop] at h1 h2
    have hno : ∀ j, pos ≤ j → j < pos + search v (s.drop pos) → ¬ At s v j := by
      intro j hj hl ha
      have := ((at_iff s v j).1 ha).2
      have h4 := h3 (j - pos) (by omega)
      rw [List.drop_drop, show pos + (j - pos) = j by omega] at h4
      rw [h4] at this
      cases this
    unfold toPos
    by_cases he : pos + search v (s.drop pos) = s.length
    · rw [if_pos he]
      refine Or.inr ⟨rfl, fun j hj ha => ?_⟩
      have := ha.1
      exact hno j hj (by omega) ha
    · rw [if_neg he]
      refine Or.inl ⟨?_, by omega, hno⟩
      rw [at_iff]
      refine ⟨by omega, ?_⟩
      have h4 := h2 (by omega)
      rw [List.drop_drop] at h4
      exact h4

/-- **C128 (find an empty text)**: an empty text is found at every position inside the view. -/
theorem c128_find_empty (s : View) (pos : Nat) (h : pos < s.length) : find s [] pos = pos := by
  have : search [] (s.drop pos) = 0 := by
    cases hd : s.drop pos with
    | nil => rfl
    | cons c t => simp [search]
  unfold find toPos
  rw [if_neg (by omega), this, if_neg (by omega), Nat.add_zero]

/-- **C128 (find an empty text at the end)**: violation.  The standard's `find` gives the position; this one
gives `npos`, already for an empty text in an empty view. -/
theorem c128_find_end_violated (s : View) : At s [] s.length ∧ find s [] s.length = npos := by
  refine ⟨⟨by simp, by simp⟩, ?_⟩
  unfold find
  rw [if_pos (Nat.le_refl _)]

theorem prefix_take (v s : View) (n : Nat) (h : v.length ≤ n) : v.isPrefixOf (s.take n) = v.isPrefixOf s := by
  rw [Bool.eq_iff_iff, List.isPrefixOf_iff_prefix, List.isPrefixOf_iff_prefix]
  constructor
  · intro hp; exact hp.trans (List.take_prefix _ _)
  · intro hp; exact (List.prefix_take_iff).2 ⟨hp, h⟩

/-- **C128 (rfind)**: for every view, text (empty or not) and position, `rfind` gives the last place up to the
position where the text stands, `npos` if there is none. -/
theorem c128_rfind (s v : View) (pos : Nat) : Greatest (At s v) pos (rfind s v pos) := by
  unfold rfind
  by_cases hl : s.length < v.length
  · rw [if_pos hl]
    exact Or.inr ⟨rfl, fun j _ ha => by have := ha.1; omega⟩
  · rw [if_neg hl]
    by_cases hv : v = []
    · rw [if_pos hv]
      subst hv
      refine Or.inl ⟨⟨by simp; omega, by simp⟩, by omega, ?_⟩
      intro j hj hr ha
      have := ha.1
      simp only [List.length_nil] at this
      omega
    · rw [if_neg hv]
      have hvl : 0 < v.length := List.length_pos_iff.2 hv
      generalize hm : min (s.length - v.length) pos = m
      have hlen : (s.take (m + v.length)).length = m + v.length := by rw [List.length_take]; omega
      obtain ⟨h1, h2, h3⟩ := findEnd_spec v (s.take (m + v.length))
      rw [hlen] at h1 h2 h3
      generalize findEnd v (s.take (m + v.length)) = r at h1 h2 h3
      have key : ∀ j, j ≤ m → v.isPrefixOf ((s.take (m + v.length)).drop j) = v.isPrefixOf (s.drop j) := by
        intro j hj
        rw [List.drop_take]
        exact prefix_take v _ _ (by omega)
      have hat : ∀ j, At s v j → j ≤ pos → j ≤ m := by
        intro j ha hj
        have := ha.1
        omega
      by_cases hr : r ≠ m + v.length
      · rw [if_pos hr]
        have h4 := h2 (by omega)
        have hrm : r ≤ m := by
          have := List.IsPrefix.length_le (List.isPrefixOf_iff_prefix.1 h4)
          rw [List.length_drop, hlen] at this
          omega
        refine Or.inl ⟨?_, by omega, ?_⟩
        · rw [at_iff]
          exact ⟨by omega, by rw [← key r hrm]; exact h4⟩
        · intro j hj hrj ha
          have hjm := hat j ha hj
          have := h3 j (by omega) (Or.inl hrj)
          rw [key j hjm, ((at_iff s v j).1 ha).2] at this
          cases this
      · rw [if_neg hr]
        refine Or.inr ⟨rfl, fun j hj ha => ?_⟩
        have hjm := hat j ha hj
        have := h3 j (by omega) (Or.inr (by omega))
        rw [key j hjm, ((at_iff s v j).1 ha).2] at this
        cases this

theorem least_of (s : View) (p : UInt8 → Bool) (P : Nat → Prop) (hP : ∀ i, P i ↔ ∃ c, s[i]? = some c ∧ p c = true) (pos : Nat) :
    Least P pos (if pos ≥ s.length then npos else toPos s (pos + findIf p (s.drop pos))) := by
  by_cases hp : pos ≥ s.length
  · rw [if_pos hp]
    refine Or.inr ⟨rfl, fun j hj ha => ?_⟩
    obtain ⟨c, hc, _⟩ := (hP j).1 ha
    have := List.getElem?_eq_some_iff.1 hc
    obtain ⟨h, _⟩ := this
    omega
  · rw [if_neg hp]
    obtain ⟨h1, h2, h3⟩ := findIf_spec p (s.drop pos)
    rw [List.length_drop] at h1 h2
    have hno : ∀ j, pos ≤ j → j < pos + findIf p (s.drop pos) → ¬ P j := by
      intro j hj hl ha
      obtain ⟨c, hc, hpc⟩ := (hP j).1 ha
      obtain ⟨c', hc', hpc'⟩ := h3 (j - pos) (by omega)
      rw [List.getElem?_drop, show pos + (j - pos) = j by omega, hc] at hc'
      cases hc'
      rw [hpc] at hpc'
      cases hpc'
    unfold toPos
    by_cases he : pos + findIf p (s.drop pos) = s.length
    · rw [if_pos he]
      refine Or.inr ⟨rfl, fun j hj ha => ?_⟩
      obtain ⟨c, hc, _⟩ := (hP j).1 ha
      obtain ⟨h, _⟩ := List.getElem?_eq_some_iff.1 hc
      exact hno j hj (by omega) ha
    · rw [if_neg he]
      refine Or.inl ⟨?_, by omega, hno⟩
      obtain ⟨c, hc, hpc⟩ := h2 (by omega)
      rw [List.getElem?_drop] at hc
      exact (hP _).2 ⟨c, hc, hpc⟩

theorem rev_get (s : View) (pos j : Nat) (h : pos < s.length) (hj : j ≤ pos) :
    ((s.take (pos + 1)).reverse)[j]? = s[pos - j]? := by
  rw [List.getElem?_reverse (by rw [List.length_take]; omega), List.length_take, Nat.min_eq_left (by omega),
    show pos + 1 - 1 - j = pos - j by omega, List.getElem?_take_of_lt (by omega)]

theorem greatest_of (s : View) (p : UInt8 → Bool) (P : Nat → Prop) (hP : ∀ i, P i ↔ ∃ c, s[i]? = some c ∧ p c = true) (pos : Nat)
    (h : pos < s.length) : Greatest P pos (toPosRev pos (findIf p (s.take (pos + 1)).reverse)) := by
  obtain ⟨h1, h2, h3⟩ := findIf_spec p (s.take (pos + 1)).reverse
  rw [List.length_reverse, List.length_take, Nat.min_eq_left (by omega)] at h1 h2
  have hno : ∀ j, j ≤ pos → pos - j < findIf p (s.take (pos + 1)).reverse → ¬ P j := by
    intro j hj hl ha
    obtain ⟨c, hc, hpc⟩ := (hP j).1 ha
    obtain ⟨c', hc', hpc'⟩ := h3 (pos - j) hl
    rw [rev_get s pos (pos - j) h (by omega), show pos - (pos - j) = j by omega, hc] at hc'
    cases hc'
    rw [hpc] at hpc'
    cases hpc'
  unfold toPosRev
  by_cases he : findIf p (s.take (pos + 1)).reverse = pos + 1
  · rw [if_pos he]
    exact Or.inr ⟨rfl, fun j hj => hno j hj (by omega)⟩
  · rw [if_neg he]
    obtain ⟨c, hc, hpc⟩ := h2 (by omega)
    rw [rev_get s pos _ h (by omega)] at hc
    refine Or.inl ⟨?_, by omega, ?_⟩
    · rw [show pos + 1 - findIf p (s.take (pos + 1)).reverse - 1 = pos - findIf p (s.take (pos + 1)).reverse by omega]
      exact (hP _).2 ⟨c, hc, hpc⟩
    · intro j hj hr
      exact hno j hj (by omega)

theorem oneOf_iff (s v : View) (i : Nat) : OneOf s v i ↔ ∃ c, s[i]? = some c ∧ (v.contains c) = true := by
  unfold OneOf; simp

theorem notInView_iff (v : View) (c : UInt8) (hv : v.length < npos) : notInView v c = true ↔ c ∉ v := by
  unfold notInView
  have hl := least_of v (fun x => [c].contains x) (OneOf v [c]) (oneOf_iff v [c]) 0
  change Least _ _ (findFirstOf v [c] 0) at hl
  rw [beq_iff_eq]
  rcases hl with ⟨ho, _, _⟩ | ⟨hn, hno⟩
  · obtain ⟨x, hx, hxc⟩ := ho
    obtain ⟨hlt, hg⟩ := List.getElem?_eq_some_iff.1 hx
    have hxc' : x = c := by simpa using hxc
    constructor
    · intro hc; omega
    · intro hc
      exact absurd (by rw [← hxc', ← hg]; exact List.getElem_mem hlt) hc
  · constructor
    · intro _ hm
      obtain ⟨i, hlt, hi⟩ := List.mem_iff_getElem.1 hm
      exact hno i (Nat.zero_le _) ⟨c, by rw [List.getElem?_eq_getElem hlt, hi], by simp⟩
    · intro _; exact hn.symm

theorem noneOf_iff (s v : View) (hv : v.length < npos) (i : Nat) : NoneOf s v i ↔ ∃ c, s[i]? = some c ∧ notInView v c = true := by
  unfold NoneOf
  constructor
  · rintro ⟨c, h1, h2⟩; exact ⟨c, h1, (notInView_iff v c hv).2 h2⟩
  · rintro ⟨c, h1, h2⟩; exact ⟨c, h1, (notInView_iff v c hv).1 h2⟩

/-- **C128 (find_first_of)**: the first place from the position on with a byte of the set. -/
theorem c128_first_of (s v : View) (pos : Nat) : Least (OneOf s v) pos (findFirstOf s v pos) :=
  least_of s _ _ (oneOf_iff s v) pos

/-- **C128 (find_first_not_of)**: the first place from the position on with a byte outside the set. -/
theorem c128_first_not_of (s v : View) (pos : Nat) (hv : v.length < npos) : Least (NoneOf s v) pos (findFirstNotOf s v pos) :=
  least_of s _ _ (noneOf_iff s v hv) pos

theorem greatest_clip (s : View) (P : Nat → Prop) (hP : ∀ i, P i → i < s.length) (pos r : Nat) (hp : pos ≥ s.length) (hs : s ≠ [])
    (h : Greatest P (s.length - 1) r) : Greatest P pos r := by
  have hl : 0 < s.length := List.length_pos_iff.2 hs
  rcases h with ⟨h1, h2, h3⟩ | ⟨h1, h2⟩
  · exact Or.inl ⟨h1, by omega, fun j _ hr ha => h3 j (by have := hP j ha; omega) hr ha⟩
  · exact Or.inr ⟨h1, fun j _ ha => h2 j (by have := hP j ha; omega) ha⟩

/-- **C128 (find_last_of)**: the last place up to the position with a byte of the set. -/
theorem c128_last_of (s v : View) (pos : Nat) : Greatest (OneOf s v) pos (findLastOf s v pos) := by
  have hin : ∀ i, OneOf s v i → i < s.length := by
    rintro i ⟨c, hc, _⟩
    exact (List.getElem?_eq_some_iff.1 hc).1
  unfold findLastOf findFirst
  by_cases hs : s = []
  · rw [if_pos hs]
    exact Or.inr ⟨rfl, fun j _ ha => by have := hin j ha; rw [hs] at this; simp at this⟩
  · have hl : 0 < s.length := List.length_pos_iff.2 hs
    rw [if_neg hs]
    by_cases hp : pos ≥ s.length
    · rw [if_pos hp]
      exact greatest_clip s _ hin pos _ hp hs (greatest_of s _ _ (oneOf_iff s v) (s.length - 1) (by omega))
    · rw [if_neg hp]
      exact greatest_of s _ _ (oneOf_iff s v) pos (by omega)

/-- **C128 (find_last_not_of)**: the last place up to the position with a byte outside the set. -/
theorem c128_last_not_of (s v : View) (pos : Nat) (hv : v.length < npos) : Greatest (NoneOf s v) pos (findLastNotOf s v pos) := by
  have hin : ∀ i, NoneOf s v i → i < s.length := by
    rintro i ⟨c, hc, _⟩
    exact (List.getElem?_eq_some_iff.1 hc).1
  unfold findLastNotOf
  by_cases hs : s = []
  · rw [if_pos hs]
    exact Or.inr ⟨rfl, fun j _ ha => by have := hin j ha; rw [hs] at this; simp at this⟩
  · have hl : 0 < s.length := List.length_pos_iff.2 hs
    rw [if_neg hs]
    by_cases hp : pos ≥ s.length
    · rw [if_pos hp]
      exact greatest_clip s _ hin pos _ hp hs (greatest_of s _ _ (noneOf_iff s v hv) (s.length - 1) (by omega))
    · rw [if_neg hp]
      exact greatest_of s _ _ (noneOf_iff s v hv) pos (by omega)

/-! ### Comparing -/

theorem memcmp_step (a b : UInt8) (as bs : View) : memcmp (a :: as) (b :: bs) = if a < b then -1 else if b < a then 1 else memcmp as bs := rfl

theorem compare_cons (a b : UInt8) (as bs : View) :
    compare (a :: as) (b :: bs) = if a < b then -1 else if b < a then 1 else compare as bs := by
  unfold compare
  simp only [List.length_cons, Nat.succ_min_succ, List.take_succ_cons, memcmp_step]
  by_cases h1 : a < b
  · simp [h1]
  · by_cases h2 : b < a
    · simp [h1, h2]
    · simp [h1, h2]

/-- **C129 (order)**: `compare` is negative, zero or positive exactly if the view is lexicographically smaller
(byte values unsigned), equal or greater; so the six comparison operators are those of the lexicographic order. -/
theorem c129_compare (s t : View) : (compare s t < 0 ↔ s < t) ∧ (compare s t = 0 ↔ s = t) ∧ (0 < compare s t ↔ t < s) := by
  induction s generalizing t with
  | nil =>
    cases t with
    | nil => simp [compare, memcmp]
    | cons b bs => simp [compare, memcmp]
  | cons a as ih =>
    cases t with
    | nil => simp [compare, memcmp]
    | cons b bs =>
      obtain ⟨i1, i2, i3⟩ := ih bs
      rw [compare_cons, List.cons_lt_cons_iff, List.cons_lt_cons_iff]
      by_cases h1 : a < b
      · have hn : ¬ b < a := fun h => absurd (UInt8.lt_trans h1 h) (UInt8.lt_irrefl a)
        have hne : a ≠ b := by rintro rfl; exact absurd h1 (UInt8.lt_irrefl a)
        simp [h1, hn, hne, hne.symm]
      · by_cases h2 : b < a
        · have hne : a ≠ b := by rintro rfl; exact absurd h2 (UInt8.lt_irrefl a)
          simp [h1, h2, hne, hne.symm]
        · have he : a = b := by
            apply UInt8.toNat_inj.1
            rw [UInt8.lt_iff_toNat_lt] at h1 h2
            omega
          subst he
          simp only [h1, if_false, true_and, false_or, List.cons.injEq]
          exact ⟨i1, i2, i3⟩

/-- **C129 (substr, copy, at)**: they give exactly the bytes from the position on, at most the number asked for,
and throw exactly for positions outside. -/
theorem c129_substr (s : View) (pos n : Nat) :
    (pos ≤ s.length → substr s pos n = some ((s.drop pos).take n) ∧ copy s n pos = some ((s.drop pos).take n)) ∧
    (s.length < pos → substr s pos n = none ∧ copy s n pos = none) ∧ at' s pos = s[pos]? := by
  refine ⟨?_, ?_, ?_⟩
  · intro h
    have : (s.drop pos).take (min n (s.length - pos)) = (s.drop pos).take n := by
      rw [← List.length_drop, List.take_eq_take_iff]
      omega
    unfold substr copy
    rw [if_neg (by omega), this]
    exact ⟨rfl, rfl⟩
  · intro h
    unfold substr copy
    rw [if_pos h]
    exact ⟨rfl, rfl⟩
  · unfold at'
    by_cases h : pos ≥ s.length
    · rw [if_pos h, List.getElem?_eq_none h]
    · rw [if_neg h]

/-- **C129 (starts_with, ends_with)**: exactly the prefixes and suffixes. -/
theorem c129_affix (s v : View) (hs : s.length < npos) : (startsWith s v = true ↔ v <+: s) ∧ (endsWith s v = true ↔ v <:+ s) := by
  constructor
  · unfold startsWith compare2
    by_cases h : s.length ≥ v.length
    · rw [((c129_substr s 0 v.length).1 (Nat.zero_le _)).1]
      simp only [h, decide_true, Bool.true_and, List.drop_zero, Option.map_some, beq_iff_eq, Option.some.injEq]
      rw [(c129_compare _ _).2.1, List.prefix_iff_eq_take]
      exact eq_comm
    · simp only [h, decide_false, Bool.false_and, Bool.false_eq_true, false_iff]
      intro hp
      exact h hp.length_le
  · unfold endsWith compare2
    by_cases h : s.length ≥ v.length
    · rw [((c129_substr s (s.length - v.length) npos).1 (by omega)).1]
      rw [List.take_of_length_le (by rw [List.length_drop]; omega)]
      simp only [h, decide_true, Bool.true_and, Option.map_some, beq_iff_eq, Option.some.injEq]
      rw [(c129_compare _ _).2.1, List.suffix_iff_eq_drop]
      exact eq_comm
    · simp only [h, decide_false, Bool.false_and, Bool.false_eq_true, false_iff]
      intro hp
      exact h hp.length_le

/-- **C129 (removing)**: `remove_prefix` and `remove_suffix` take away exactly the first or last bytes. -/
theorem c129_remove (a b : View) : removePrefix (a ++ b) a.length = b ∧ removeSuffix (a ++ b) b.length = a := by
  constructor
  · simp [removePrefix]
  · unfold removeSuffix
    rw [List.length_append, Nat.add_sub_cancel, List.take_left]

/-! ### Stream insertion -/

/-- What the standard asks for: padding behind for `left`, before otherwise. -/
def paddedAs (s : View) (width : Nat) (fill : UInt8) (a : Adjust) : View :=
  if a = .left then s ++ List.replicate (width - s.length) fill else List.replicate (width - s.length) fill ++ s

/-- **C130 (insertion)**: a view is written completely, padded to the width on the right side for `left` and on
the left side for `right`. -/
theorem c130_insert_partial (s : View) (width : Nat) (fill : UInt8) (a : Adjust) :
    (a = .left ∨ a = .right ∨ width ≤ s.length → insert s width fill a = paddedAs s width fill a) ∧
    (insert s width fill a).length = max s.length width := by
  constructor
  · intro h
    unfold insert paddedAs
    by_cases hw : s.length < width
    · have : ¬ width ≤ s.length := by omega
      rcases h with rfl | rfl | h
      · simp [hw]
      · simp [hw]
      · exact absurd h this
    · have e : width - s.length = 0 := by omega
      simp [hw, e]
  · unfold insert
    by_cases hw : s.length < width
    · by_cases ha : a = .right
      · simp [hw, ha]; omega
      · simp [hw, ha]; omega
    · simp [hw]; omega

/-- **C130 (default alignment)**: violation.  A stream on which no alignment was set pads on the wrong side:
`setw(n) << view` is left-aligned, where every other string is right-aligned. -/
theorem c130_default_violated (s : View) (width : Nat) (fill : UInt8) (h : s.length < width) (hs : ∃ c ∈ s, c ≠ fill) :
    insert s width fill .none = s ++ List.replicate (width - s.length) fill ∧ insert s width fill .none ≠ paddedAs s width fill .none := by
  have e : insert s width fill .none = s ++ List.replicate (width - s.length) fill := by
    unfold insert
    simp [h]
  refine ⟨e, ?_⟩
  rw [e]
  unfold paddedAs
  rw [if_neg (by decide)]
  intro hc
  obtain ⟨c, hm, hne⟩ := hs
  -- the first byte different from the fill character stands at different places
  have key : ∀ (k : Nat) (t : View), 0 < k → (∃ c ∈ t, c ≠ fill) → t ++ List.replicate k fill ≠ List.replicate k fill ++ t := by
    intro k t hk ht he
    induction t with
    | nil => obtain ⟨c, hm, _⟩ := ht; simp at hm
    | cons x t ih =>
      obtain ⟨k', rfl⟩ : ∃ k', k = k' + 1 := ⟨k - 1, by omega⟩
      have hx : x = fill := by
        rw [List.replicate_succ, List.cons_append, List.cons_append] at he
        exact (List.cons.inj he).1
      subst hx
      obtain ⟨c, hm, hne⟩ := ht
      rcases List.mem_cons.1 hm with rfl | hm
      · exact hne rfl
      · apply ih ⟨c, hm, hne⟩
        have e2 : List.replicate (k' + 1) x ++ x :: t = x :: (List.replicate (k' + 1) x ++ t) := by
          rw [show x :: t = [x] ++ t from rfl, ← List.append_assoc,
            show List.replicate (k' + 1) x ++ [x] = x :: List.replicate (k' + 1) x by rw [← List.replicate_succ', List.replicate_succ]]
          rfl
        rw [e2, List.cons_append] at he
        exact (List.cons.inj he).2
  exact key _ s (by omega) ⟨c, hm, hne⟩ hc

/-! ### Examples -/

/-- "banana": find "an" from 2 is 3; rfind "an" is 3, up to 2 is 1; first of "xn" is 2; last not of "an" is 0. -/
example : find [98, 97, 110, 97, 110, 97] [97, 110] 2 = 3 ∧ rfind [98, 97, 110, 97, 110, 97] [97, 110] npos = 3 ∧
    rfind [98, 97, 110, 97, 110, 97] [97, 110] 2 = 1 ∧ findFirstOf [98, 97, 110, 97, 110, 97] [120, 110] 0 = 2 ∧
    findLastNotOf [98, 97, 110, 97, 110, 97] [97, 110] npos = 0 ∧ find [98, 97] [97, 110] 0 = npos := by decide +kernel

example : compare [97] [97, 98] = -1 ∧ compare [200] [97, 98] = 1 ∧ startsWith [97, 98] [97] = true ∧ endsWith [97, 98] [97] = false := by
  decide +kernel

end Ltio.Text.StringView
