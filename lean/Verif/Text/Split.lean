/-
Model of `StrUtil::Join` and the two `StrUtil::Split` (base/utils/string/str_utils.{h,cc}).
Strings are lists of characters (bytes).
-/
namespace Ltio.Text

abbrev Str := List Char

/-- `std::string::find` from a position: scan the suffix, `i` is the index of its first character. -/
def findFrom (d : Str) : Str → Nat → Option Nat
  | [], i => if d = [] then some i else none
  | x :: t, i => if d.isPrefixOf (x :: t) then some i else findFrom d t (i + 1)

/-- `text.find(d, pos)`; `none` is `npos`. -/
def find (text d : Str) (pos : Nat) : Option Nat :=
  if pos ≤ text.length then findFrom d (text.drop pos) pos else none

theorem findFrom_range (d : Str) : ∀ (t : Str) (i p : Nat), findFrom d t i = some p →
    i ≤ p ∧ p ≤ i + t.length := by
  intro t
  induction t with
  | nil =>
    intro i p h
    unfold findFrom at h
    split at h
    · simp at h; subst h; exact ⟨Nat.le_refl _, by simp⟩
    · simp at h
  | cons x t ih =>
    intro i p h
    unfold findFrom at h
    split at h
    · simp at h; subst h; exact ⟨Nat.le_refl _, by simp⟩
    · have := ih _ _ h
      simp only [List.length_cons]
      omega

theorem find_range {text d : Str} {pos p : Nat} (h : find text d pos = some p) :
    pos ≤ p ∧ p ≤ text.length := by
  unfold find at h
  split at h
  · have := findFrom_range _ _ _ _ h
    simp only [List.length_drop] at this
    omega
  · simp at h

/-- The loop of `Split(text, delims, ignore_empty)` (str_utils.cc:138-161) from `previous`.
`none`: `substr` throws `std::out_of_range`.  In the tail `current` is `npos`, which is greater
than every `previous`, so the last token is pushed whatever `ignore_empty`. -/
def splitFrom (text d : Str) (ign : Bool) (prev : Nat) : Option (List Str) :=
  match _h : find text d prev with
  | some cur =>
    match splitFrom text d ign (cur + 1) with
    | none => none
    | some rest =>
      if cur > prev then some ((text.drop prev).take (cur - prev) :: rest)
      else if ign = false then some ((text.drop prev).take (cur - prev) :: rest)
      else some rest
  | none => if prev ≤ text.length then some [text.drop prev] else none
termination_by text.length + 1 - prev
decreasing_by
  have := find_range _h
  omega

/-- `Split(text, delims, ignore_empty)`. -/
def split (text d : Str) (ign : Bool) : Option (List Str) := splitFrom text d ign 0

/-- `Split(str, delim)` (str_utils.cc:127-136): `std::getline` succeeds while characters remain. -/
def splitChar (c : Char) : Str → List Str
  | [] => []
  | x :: t => (x :: t).takeWhile (· ≠ c) :: splitChar c (((x :: t).dropWhile (· ≠ c)).drop 1)
termination_by t => t.length
decreasing_by
  have h1 : ((x :: t).dropWhile (fun x => decide (x ≠ c))).length ≤ (x :: t).length :=
    (List.dropWhile_sublist _).length_le
  simp only [List.length_drop, List.length_cons] at *
  omega

/-- `Join` (str_utils.h:85-95): the token goes before every element but the first. -/
def join (v : List Str) (token : Str) : Str :=
  match v with
  | [] => []
  | p :: ps => p ++ ps.flatMap (fun q => token ++ q)

/-! ### Finding one character -/

theorem findFrom_char_none (c : Char) : ∀ (t : Str) (i : Nat), c ∉ t → findFrom [c] t i = none := by
  intro t
  induction t with
  | nil => intro i _; simp [findFrom]
  | cons x t ih =>
    intro i h
    simp only [List.mem_cons, not_or] at h
    unfold findFrom
    rw [if_neg (by simp [List.isPrefixOf, h.1])]
    exact ih _ h.2

theorem findFrom_char_some (c : Char) : ∀ (a r : Str) (i : Nat), c ∉ a →
    findFrom [c] (a ++ c :: r) i = some (i + a.length) := by
  intro a
  induction a with
  | nil => intro r i _; simp [findFrom, List.isPrefixOf]
  | cons x a ih =>
    intro r i h
    simp only [List.mem_cons, not_or] at h
    simp only [List.cons_append]
    unfold findFrom
    rw [if_neg (by simp [List.isPrefixOf, h.1]), ih r (i + 1) h.2]
    simp only [List.length_cons, Option.some.injEq]
    omega

/-- What `ignore_empty` keeps: the last token always, the others unless empty. -/
def keep (ign : Bool) : List Str → List Str
  | [] => []
  | [p] => [p]
  | p :: q :: ps => if p ≠ [] ∨ ign = false then p :: keep ign (q :: ps) else keep ign (q :: ps)

theorem join_cons_cons (p q : Str) (ps : List Str) (d : Str) :
    join (p :: q :: ps) d = p ++ (d ++ join (q :: ps) d) := by
  simp [join]

theorem splitFrom_char (c : Char) (text : Str) (ign : Bool) : ∀ (ps : List Str) (prev : Nat),
    ps ≠ [] → (∀ p ∈ ps, c ∉ p) → prev ≤ text.length → text.drop prev = join ps [c] →
    splitFrom text [c] ign prev = some (keep ign ps) := by
  intro ps
  induction ps with
  | nil => intro prev h; exact absurd rfl h
  | cons p ps ih =>
    intro prev _ hfree hlen hdrop
    have hp := hfree p (by simp)
    cases ps with
    | nil =>
      have hd : text.drop prev = p := by rw [hdrop]; simp [join]
      have hf : find text [c] prev = none := by
        unfold find
        rw [if_pos hlen, hd]
        exact findFrom_char_none c p prev hp
      unfold splitFrom
      split
      · rename_i h; rw [hf] at h; simp at h
      · rw [if_pos hlen, hd]; rfl
    | cons q ps =>
      rw [join_cons_cons] at hdrop
      have hf : find text [c] prev = some (prev + p.length) := by
        unfold find
        rw [if_pos hlen, hdrop]
        exact findFrom_char_some c p _ prev hp
      have hlen2 : prev + p.length + 1 ≤ text.length := by
        have := congrArg List.length hdrop
        simp only [List.length_drop, List.length_append, List.length_cons, List.length_nil] at this
        omega
      have hrec := ih (prev + p.length + 1) (by simp) (fun x hx => hfree x (by simp [hx])) hlen2 (by
        rw [Nat.add_assoc, ← List.drop_drop, hdrop]
        simp)
      unfold splitFrom
      split
      · rename_i cur h
        rw [hf] at h
        simp only [Option.some.injEq] at h
        subst h
        rw [hrec]
        have ht : (text.drop prev).take (prev + p.length - prev) = p := by
          rw [hdrop, Nat.add_sub_cancel_left]; simp
        simp only [ht, keep]
        by_cases hpe : p = []
        · subst hpe
          cases ign <;> simp
        · have : prev + p.length > prev := by
            have := List.length_pos_iff.2 hpe; omega
          simp [hpe]
      · rename_i h; rw [hf] at h; simp at h

/-- Every string is the join of separator-free pieces. -/
theorem exists_pieces (c : Char) : ∀ t : Str, ∃ ps : List Str, ps ≠ [] ∧ (∀ p ∈ ps, c ∉ p) ∧
    t = join ps [c] := by
  intro t
  induction t with
  | nil => exact ⟨[[]], by simp, by simp, by simp [join]⟩
  | cons x t ih =>
    obtain ⟨ps, h1, h2, h3⟩ := ih
    by_cases hx : x = c
    · refine ⟨[] :: ps, by simp, ?_, ?_⟩
      · intro p hp
        rcases List.mem_cons.1 hp with rfl | hp
        · simp
        · exact h2 p hp
      · cases ps with
        | nil => exact absurd rfl h1
        | cons q ps => rw [join_cons_cons, ← h3, hx]; simp
    · cases ps with
      | nil => exact absurd rfl h1
      | cons q ps =>
        refine ⟨(x :: q) :: ps, by simp, ?_, ?_⟩
        · intro p hp
          rcases List.mem_cons.1 hp with rfl | hp
          · simp only [List.mem_cons, not_or]
            exact ⟨fun e => hx e.symm, h2 q (by simp)⟩
          · exact h2 p (by simp [hp])
        · rw [h3]; simp [join]

/-! ### C32 -/

/-- **C32: Split inverts Join** for a one-character separator and separator-free pieces (empty
pieces included when `ignore_empty` is false). -/
theorem c32_split_join (c : Char) (ps : List Str) (hne : ps ≠ []) (hfree : ∀ p ∈ ps, c ∉ p) :
    split (join ps [c]) [c] false = some ps := by
  have h := splitFrom_char c (join ps [c]) false ps 0 hne hfree (Nat.zero_le _) rfl
  have hk : ∀ l : List Str, keep false l = l := by
    intro l
    induction l with
    | nil => rfl
    | cons p l ih => cases l with
      | nil => rfl
      | cons q l => simp [keep, ih]
  rw [hk] at h
  exact h

/-- **C32: Join inverts Split**: for every text, splitting never fails, the pieces are
separator-free, and joining them gives the text back. -/
theorem c32_join_split (c : Char) (t : Str) : ∃ ps, split t [c] false = some ps ∧ ps ≠ [] ∧
    (∀ p ∈ ps, c ∉ p) ∧ join ps [c] = t := by
  obtain ⟨ps, h1, h2, h3⟩ := exists_pieces c t
  exact ⟨ps, by rw [h3]; exact c32_split_join c ps h1 h2, h1, h2, h3.symm⟩

theorem keep_true_nonempty : ∀ (ps : List Str), (∀ p, ps.getLast? = some p → p ≠ []) →
    keep true ps = ps.filter (· ≠ []) := by
  intro ps
  induction ps with
  | nil => intro _; rfl
  | cons p ps ih =>
    intro h
    cases ps with
    | nil =>
      have := h p rfl
      simp [keep, this]
    | cons q ps =>
      have h' := ih (by intro r hr; apply h r; simpa [List.getLast?_cons_cons] using hr)
      unfold keep
      rw [h']
      by_cases hp : p = []
      · subst hp; simp
      · simp [hp]

theorem keep_true_last : ∀ (ps : List Str), ps.getLast? = some [] → [] ∈ keep true ps := by
  intro ps
  induction ps with
  | nil => intro h; simp at h
  | cons p ps ih =>
    intro h
    cases ps with
    | nil => simp at h; subst h; simp [keep]
    | cons q ps =>
      have h' := ih (by simpa [List.getLast?_cons_cons] using h)
      unfold keep
      split
      · exact List.mem_cons_of_mem _ h'
      · exact h'

/-- The last piece is empty exactly if the text is empty or ends with the separator. -/
theorem join_last (c : Char) : ∀ (ps : List Str), ps ≠ [] → (∀ p ∈ ps, c ∉ p) →
    (ps.getLast? = some [] ↔ join ps [c] = [] ∨ (join ps [c]).getLast? = some c) := by
  intro ps
  induction ps with
  | nil => intro h; exact absurd rfl h
  | cons p ps ih =>
    intro _ hfree
    cases ps with
    | nil =>
      have hp := hfree p (by simp)
      simp only [List.getLast?_singleton, Option.some.injEq, join, List.flatMap_nil, List.append_nil]
      constructor
      · exact Or.inl
      · rintro (h | h)
        · exact h
        · exact absurd (List.mem_of_getLast? h) hp
    | cons q ps =>
      have h' := ih (by simp) (fun x hx => hfree x (by simp [hx]))
      rw [List.getLast?_cons_cons, h', join_cons_cons]
      generalize join (q :: ps) [c] = r
      constructor
      · rintro (h | h)
        · right; subst h; simp [List.getLast?_append]
        · right; rw [List.getLast?_append, List.getLast?_append, h]; simp
      · rintro (h | h)
        · simp at h
        · cases hr : r with
          | nil => exact Or.inl rfl
          | cons a r' =>
            right
            rw [hr, List.getLast?_append, List.getLast?_append] at h
            have : (a :: r').getLast? = some ((a :: r').getLast (by simp)) :=
              List.getLast?_eq_some_getLast (by simp)
            rw [this] at h ⊢
            simpa using h

/-- **C32 with `ignore_empty`**, for texts that are non-empty and do not end with the separator:
the result is exactly the non-empty pieces. -/
theorem c32_ignore_empty_partial (c : Char) (t : Str) (hne : t ≠ []) (hlast : t.getLast? ≠ some c) :
    ∃ ps, split t [c] false = some ps ∧ split t [c] true = some (ps.filter (· ≠ [])) := by
  obtain ⟨ps, h1, h2, h3⟩ := exists_pieces c t
  refine ⟨ps, by rw [h3]; exact c32_split_join c ps h1 h2, ?_⟩
  rw [← keep_true_nonempty]
  · exact splitFrom_char c t true ps 0 h1 h2 (Nat.zero_le _) (by rw [← h3]; rfl)
  · intro p hp he
    subst he
    rcases (join_last c ps h1 h2).1 hp with h | h
    · rw [← h3] at h; exact hne h
    · rw [← h3] at h; exact hlast h

/-- **C32 violated**: with `ignore_empty`, every empty text and every text ending with the
separator still yields an empty piece. -/
theorem c32_ignore_empty_violated (c : Char) (t : Str) (h : t = [] ∨ t.getLast? = some c) :
    ∃ ps, split t [c] true = some ps ∧ [] ∈ ps := by
  obtain ⟨ps, h1, h2, h3⟩ := exists_pieces c t
  refine ⟨keep true ps, splitFrom_char c t true ps 0 h1 h2 (Nat.zero_le _) (by rw [← h3]; rfl), ?_⟩
  apply keep_true_last
  apply (join_last c ps h1 h2).2
  rw [← h3]; exact h

/-- **Longer separators are not skipped entirely**: for every separator of two different
characters, the second piece keeps the separator's second character. -/
theorem c32_long_separator_violated (c d : Char) (hcd : c ≠ d) (a b : Str) (ha : c ∉ a)
    (hb : c ∉ b) :
    split (join [a, b] [c, d]) [c, d] false = some [a, d :: b] := by
  have hj : join [a, b] [c, d] = a ++ c :: d :: b := by simp [join]
  have hnone : ∀ (t : Str) (i : Nat), c ∉ t → findFrom [c, d] t i = none := by
    intro t
    induction t with
    | nil => intro i _; simp [findFrom]
    | cons x t ih =>
      intro i h
      simp only [List.mem_cons, not_or] at h
      unfold findFrom
      rw [if_neg (by simp [List.isPrefixOf, h.1])]
      exact ih _ h.2
  have hsome : ∀ (a : Str) (i : Nat), c ∉ a →
      findFrom [c, d] (a ++ c :: d :: b) i = some (i + a.length) := by
    intro a
    induction a with
    | nil => intro i _; simp [findFrom, List.isPrefixOf]
    | cons x a ih =>
      intro i h
      simp only [List.mem_cons, not_or] at h
      simp only [List.cons_append]
      unfold findFrom
      rw [if_neg (by simp [List.isPrefixOf, h.1]), ih (i + 1) h.2]
      simp only [List.length_cons, Option.some.injEq]
      omega
  have h1 : find (a ++ c :: d :: b) [c, d] 0 = some a.length := by
    unfold find
    rw [if_pos (Nat.zero_le _)]
    simpa using hsome a 0 ha
  have hdrop : (a ++ c :: d :: b).drop (a.length + 1) = d :: b := by
    rw [← List.drop_drop]; simp
  have h2 : find (a ++ c :: d :: b) [c, d] (a.length + 1) = none := by
    unfold find
    rw [if_pos (by simp), hdrop]
    exact hnone _ _ (by simp [hcd, hb])
  have hrec : splitFrom (a ++ c :: d :: b) [c, d] false (a.length + 1) = some [d :: b] := by
    unfold splitFrom
    split
    · rename_i h; rw [h2] at h; simp at h
    · rw [if_pos (by simp), hdrop]
  unfold split
  rw [hj]
  unfold splitFrom
  split
  · rename_i cur h
    rw [h1] at h
    simp only [Option.some.injEq] at h
    subst h
    rw [hrec]
    simp
  · rename_i h; rw [h1] at h; simp at h

/-- **An empty separator** makes `Split` throw, for every text. -/
theorem c32_empty_separator_violated (t : Str) (ign : Bool) : split t [] ign = none := by
  have hff : ∀ (s : Str) (i : Nat), findFrom [] s i = some i := by
    intro s i; cases s <;> simp [findFrom]
  have key : ∀ n prev, prev ≤ t.length + 1 → n = t.length + 1 - prev →
      splitFrom t [] ign prev = none := by
    intro n
    induction n with
    | zero =>
      intro prev h1 h2
      have hp : prev = t.length + 1 := by omega
      subst hp
      have hf : find t [] (t.length + 1) = none := by unfold find; rw [if_neg (by omega)]
      unfold splitFrom
      split
      · rename_i h; rw [hf] at h; simp at h
      · rw [if_neg (by omega)]
    | succ n ih =>
      intro prev h1 h2
      have hf : find t [] prev = some prev := by
        unfold find; rw [if_pos (by omega)]; exact hff _ _
      unfold splitFrom
      split
      · rename_i cur h
        rw [hf] at h
        simp only [Option.some.injEq] at h
        subst h
        rw [ih (prev + 1) (by omega) (by omega)]
      · rename_i h; rw [hf] at h; simp at h
  exact key _ 0 (by omega) rfl

/-! ### The single-character overload -/

theorem takeWhile_free (c : Char) (a r : Str) (ha : c ∉ a) :
    (a ++ c :: r).takeWhile (· ≠ c) = a ∧ (a ++ c :: r).dropWhile (· ≠ c) = c :: r := by
  induction a with
  | nil => simp
  | cons x a ih =>
    simp only [List.mem_cons, not_or] at ha
    have hx : x ≠ c := fun e => ha.1 e.symm
    simp [hx] at ih ⊢
    exact ih ha.2

theorem takeWhile_free' (c : Char) (a : Str) (ha : c ∉ a) :
    a.takeWhile (· ≠ c) = a ∧ a.dropWhile (· ≠ c) = [] := by
  induction a with
  | nil => simp
  | cons x a ih =>
    simp only [List.mem_cons, not_or] at ha
    have hx : x ≠ c := fun e => ha.1 e.symm
    simp [hx] at ih ⊢
    exact ih ha.2

theorem splitChar_ne (c : Char) (t : Str) (h : t ≠ []) :
    splitChar c t = t.takeWhile (· ≠ c) :: splitChar c ((t.dropWhile (· ≠ c)).drop 1) := by
  cases t with
  | nil => exact absurd rfl h
  | cons x t => rw [splitChar]

/-- **C32 for `Split(str, char)`**: the pieces come back, except that a final empty piece is
lost. -/
theorem c32_splitChar (c : Char) : ∀ (ps : List Str), ps ≠ [] → (∀ p ∈ ps, c ∉ p) →
    splitChar c (join ps [c]) = if ps.getLast? = some [] then ps.dropLast else ps := by
  intro ps
  induction ps with
  | nil => intro h; exact absurd rfl h
  | cons p ps ih =>
    intro _ hfree
    have hp := hfree p (by simp)
    cases ps with
    | nil =>
      simp only [join, List.flatMap_nil, List.append_nil, List.getLast?_singleton, Option.some.injEq]
      by_cases hpe : p = []
      · subst hpe; simp [splitChar]
      · rw [if_neg hpe, splitChar_ne c p hpe, (takeWhile_free' c p hp).1, (takeWhile_free' c p hp).2]
        simp [splitChar]
    | cons q ps =>
      have h' := ih (by simp) (fun x hx => hfree x (by simp [hx]))
      rw [join_cons_cons]
      have ht := takeWhile_free c p (join (q :: ps) [c]) hp
      simp only [List.cons_append, List.nil_append]
      rw [splitChar_ne c _ (by simp), ht.1, ht.2]
      simp only [List.drop_succ_cons, List.drop_zero]
      rw [h', List.getLast?_cons_cons]
      split
      · simp
      · rfl

/-! ### Concrete cases -/

example : ("k=v=" : String).toList.getLast? ≠ some '&' ∧ ("k=v=" : String).toList ≠ [] := by decide
example : split "a,,b".toList [','] false = some ["a".toList, [], "b".toList] := by
  exact c32_split_join ',' ["a".toList, [], "b".toList] (by decide) (by decide)
example : splitChar ',' "a,b,".toList = ["a".toList, "b".toList] := by
  exact c32_splitChar ',' ["a".toList, "b".toList, []] (by decide) (by decide)
example : ':' ∉ "host".toList ∧ ':' ∉ "80".toList ∧ ':' ≠ '/' := by decide

end Ltio.Text
