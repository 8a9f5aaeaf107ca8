/-
Model of components/count_min_sketch/count_min_sketch.cc and property C17.

`H key d` is the pair of 64-bit hashes `MurmurHash3_x64_128(data, len, d << 0x1F | d, result)`
(lines 45, 73 of the .cc): all proofs hold for every function `H`. Width and depth are parameters
(they come from floating-point formulas, lines 20-23, not modelled). `none` = undefined behaviour
(`% 0` for width 0).
-/
namespace Ltio.CountMin

variable {Key : Type}

/-- count_min_sketch.h:34-42: `width_`, `matrix_` (one row per depth, `CountType = uint8_t`),
`distinct_count_`. -/
structure Sketch where
  width : Nat
  matrix : List (List UInt8)
  distinct : Nat

/-- count_min_sketch.cc:17-28 constructor: all counters zero. -/
def Sketch.new (width depth : Nat) : Sketch := ⟨width, List.replicate depth (List.replicate width 0), 0⟩

/-- The cell a key uses in row `d` (lines 44-53 and 72-78): rows are handled in pairs; the hash is
seeded with the even row number and its two halves serve rows `d` and `d+1`. -/
def cell (H : Key → Nat → UInt64 × UInt64) (width : Nat) (key : Key) (d : Nat) : Nat :=
  (if d % 2 = 0 then (H key d).1 else (H key (d - 1)).2).toNat % width

/-- `int32_t count` added to a `uint8_t` cell (wraps modulo 256). -/
def addCell (c : UInt8) (count : Int) : UInt8 := UInt8.ofNat (((c.toNat : Int) + count) % 256).toNat

/-- count_min_sketch.cc:44-58: rows `d, d+1, ...`; returns new rows and whether some cell was 0. -/
def incRows (H : Key → Nat → UInt64 × UInt64) (width : Nat) (key : Key) (count : Int) :
    Nat → List (List UInt8) → List (List UInt8) × Bool
  | _, [] => ([], false)
  | d, row :: rows =>
    let i := cell H width key d
    let r := incRows H width key count (d + 1) rows
    (row.set i (addCell (row.getD i 0) count) :: r.1, (row.getD i 0 == 0) || r.2)

/-- count_min_sketch.cc:41-62 `Increase`. -/
def Sketch.increase (H : Key → Nat → UInt64 × UInt64) (s : Sketch) (key : Key) (count : Int) : Option Sketch :=
  if s.width = 0 ∧ s.matrix.length ≠ 0 then none
  else
    let r := incRows H s.width key count 0 s.matrix
    some { s with matrix := r.1, distinct := if r.2 then s.distinct + 1 else s.distinct }

/-- count_min_sketch.cc:72-78: minimum over rows `d, d+1, ...`. -/
def minRows (H : Key → Nat → UInt64 × UInt64) (width : Nat) (key : Key) :
    Nat → Nat → List (List UInt8) → Nat
  | result, _, [] => result
  | result, d, row :: rows =>
    minRows H width key (min (row.getD (cell H width key d) 0).toNat result) (d + 1) rows

/-- count_min_sketch.cc:68-80 `Estimate`. -/
def Sketch.estimate (H : Key → Nat → UInt64 × UInt64) (s : Sketch) (key : Key) : Option Nat :=
  if s.width = 0 ∧ s.matrix.length ≠ 0 then none
  else some (minRows H s.width key (2^64 - 1) 0 s.matrix)

/-- A history of `Increase` calls. -/
def run (H : Key → Nat → UInt64 × UInt64) (s : Sketch) : List (Key × Int) → Option Sketch
  | [] => some s
  | (k, c) :: ops => match s.increase H k c with
    | none => none
    | some s' => run H s' ops

/-! ### specification -/

/-- Total added for `key`. -/
def total [DecidableEq Key] (ops : List (Key × Int)) (key : Key) : Int :=
  ((ops.filter (fun o => o.1 = key)).map (·.2)).sum

/-- Total added for all keys that share `key`'s cell in row `d`. -/
def cellTotal (H : Key → Nat → UInt64 × UInt64) (w : Nat) (ops : List (Key × Int)) (key : Key) (d : Nat) : Int :=
  ((ops.filter (fun o => cell H w o.1 d = cell H w key d)).map (·.2)).sum

/-! ### lemmas -/

/-- value stored in row `d`, column `i` -/
def at_ (m : List (List UInt8)) (d i : Nat) : Nat := ((m.getD d []).getD i 0).toNat

theorem incRows_length (H : Key → Nat → UInt64 × UInt64) (w : Nat) (key : Key) (c : Int) (d : Nat) (m : List (List UInt8)) :
    (incRows H w key c d m).1.length = m.length := by
  induction m generalizing d with
  | nil => rfl
  | cons r m ih => simp [incRows, ih]

theorem incRows_rowlen (H : Key → Nat → UInt64 × UInt64) (w : Nat) (key : Key) (c : Int) (d : Nat) (m : List (List UInt8))
    (h : ∀ r ∈ m, r.length = w) : ∀ r ∈ (incRows H w key c d m).1, r.length = w := by
  induction m generalizing d with
  | nil => simp [incRows]
  | cons r m ih =>
    intro x hx
    simp only [incRows, List.mem_cons] at hx
    rcases hx with rfl | hx
    · simp [h r (by simp)]
    · exact ih (d+1) (fun y hy => h y (by simp [hy])) x hx

theorem addCell_toNat (c : UInt8) (n : Int) : ((addCell c n).toNat : Int) = ((c.toNat : Int) + n) % 256 := by
  unfold addCell
  rw [UInt8.toNat_ofNat']
  have h1 : (0 : Int) ≤ ((c.toNat : Int) + n) % 256 := Int.emod_nonneg _ (by decide)
  have h2 : ((c.toNat : Int) + n) % 256 < 256 := Int.emod_lt_of_pos _ (by decide)
  omega

theorem incRows_at (H : Key → Nat → UInt64 × UInt64) {w : Nat} (hw : 0 < w) (key : Key) (c : Int) (d0 : Nat)
    (m : List (List UInt8)) (h : ∀ r ∈ m, r.length = w) (d i : Nat) (hd : d < m.length) (hi : i < w) :
    (at_ (incRows H w key c d0 m).1 d i : Int) =
      if i = cell H w key (d0 + d) then ((at_ m d i : Int) + c) % 256 else at_ m d i := by
  induction m generalizing d0 d with
  | nil => simp at hd
  | cons r m ih =>
    have hr : r.length = w := h r (by simp)
    cases d with
    | zero =>
      simp only [incRows, at_, List.getD_cons_zero, Nat.add_zero]
      have hc : cell H w key d0 < w := Nat.mod_lt _ hw
      by_cases e : i = cell H w key d0
      · subst e
        rw [if_pos rfl, List.getD_eq_getElem?_getD, List.getElem?_set_self (by omega), Option.getD_some,
          addCell_toNat]
      · rw [if_neg e, List.getD_eq_getElem?_getD, List.getElem?_set_ne (by omega), ← List.getD_eq_getElem?_getD]
    | succ d =>
      have := ih (d0 + 1) (fun y hy => h y (by simp [hy])) d (by simpa using hd)
      simp only [incRows, at_, List.getD_cons_succ] at this ⊢
      rw [this, show d0 + 1 + d = d0 + (d + 1) by omega]

structure WF (s : Sketch) (w depth : Nat) : Prop where
  width : s.width = w
  depth : s.matrix.length = depth
  rows : ∀ r ∈ s.matrix, r.length = w

theorem wf_new (w depth : Nat) : WF (Sketch.new w depth) w depth :=
  ⟨rfl, by simp [Sketch.new], by intro r hr; simp [Sketch.new] at hr; rw [hr.2]; simp⟩

theorem at_new (w depth d i : Nat) : at_ (Sketch.new w depth).matrix d i = 0 := by
  simp only [at_, Sketch.new]
  have h : (List.replicate depth (List.replicate w (0 : UInt8))).getD d [] = List.replicate w 0 ∨
      (List.replicate depth (List.replicate w (0 : UInt8))).getD d [] = [] := by
    rw [List.getD_eq_getElem?_getD, List.getElem?_replicate]
    split
    · exact Or.inl rfl
    · exact Or.inr rfl
  rcases h with h | h
  · rw [h, List.getD_eq_getElem?_getD, List.getElem?_replicate]
    split <;> rfl
  · rw [h]; rfl

theorem increase_some (H : Key → Nat → UInt64 × UInt64) {s : Sketch} {w depth : Nat} (hw : 0 < w) (hs : WF s w depth)
    (key : Key) (c : Int) : ∃ s', s.increase H key c = some s' ∧ WF s' w depth ∧
      s'.matrix = (incRows H w key c 0 s.matrix).1 ∧
      s'.distinct = if (incRows H w key c 0 s.matrix).2 then s.distinct + 1 else s.distinct := by
  unfold Sketch.increase
  rw [if_neg (by rw [hs.width]; omega)]
  refine ⟨_, rfl, ⟨hs.width, ?_, ?_⟩, ?_, ?_⟩
  · simp [incRows_length, hs.depth]
  · rw [hs.width]; exact incRows_rowlen H w key c 0 s.matrix hs.rows
  · rw [hs.width]
  · rw [hs.width]

theorem run_at (H : Key → Nat → UInt64 × UInt64) {w depth : Nat} (hw : 0 < w) (ops : List (Key × Int)) (s : Sketch)
    (hs : WF s w depth) : ∃ s', run H s ops = some s' ∧ WF s' w depth ∧
      ∀ d i, d < depth → i < w →
        (at_ s'.matrix d i : Int) = ((at_ s.matrix d i : Int) +
          ((ops.filter (fun o => cell H w o.1 d = i)).map (·.2)).sum) % 256 := by
  induction ops generalizing s with
  | nil =>
    refine ⟨s, rfl, hs, ?_⟩
    intro d i hd hi
    have : at_ s.matrix d i < 256 := UInt8.toNat_lt _
    simp only [List.filter_nil, List.map_nil, List.sum_nil]
    omega
  | cons o ops ih =>
    obtain ⟨k, c⟩ := o
    obtain ⟨s1, h1, h2, h3, _⟩ := increase_some H hw hs k c
    obtain ⟨s2, e1, e2, e3⟩ := ih s1 h2
    refine ⟨s2, by simp only [run, h1, e1], e2, ?_⟩
    intro d i hd hi
    rw [e3 d i hd hi, h3, incRows_at H hw k c 0 s.matrix hs.rows d i (by rw [hs.depth]; exact hd) hi, Nat.zero_add]
    by_cases e : i = cell H w k d
    · rw [if_pos e, List.filter_cons_of_pos (by simp [e]), List.map_cons, List.sum_cons]
      omega
    · rw [if_neg e, List.filter_cons_of_neg (by simp; omega)]

theorem minRows_spec (H : Key → Nat → UInt64 × UInt64) (w : Nat) (key : Key) (m : List (List UInt8)) (res d0 : Nat) :
    (∀ x, (x ≤ minRows H w key res d0 m ↔ x ≤ res ∧ ∀ d, d < m.length → x ≤ at_ m d (cell H w key (d0 + d)))) := by
  induction m generalizing res d0 with
  | nil => intro x; simp [minRows]
  | cons r m ih =>
    intro x
    rw [minRows, ih]
    constructor
    · rintro ⟨h1, h2⟩
      refine ⟨by omega, ?_⟩
      intro d hd
      cases d with
      | zero => simp only [at_, List.getD_cons_zero, Nat.add_zero]; omega
      | succ d =>
        have := h2 d (by simpa using hd)
        simp only [at_, List.getD_cons_succ] at this ⊢
        rw [show d0 + (d + 1) = d0 + 1 + d by omega]; exact this
    · rintro ⟨h1, h2⟩
      refine ⟨?_, ?_⟩
      · have := h2 0 (by simp)
        simp only [at_, List.getD_cons_zero, Nat.add_zero] at this
        omega
      · intro d hd
        have := h2 (d + 1) (by simpa using hd)
        simp only [at_, List.getD_cons_succ] at this ⊢
        rw [show d0 + 1 + d = d0 + (d + 1) by omega]; exact this

/-! ### properties -/

/-- **C17, exact behaviour.** After any history of increments the estimate of `key` is exactly the
minimum, over the rows, of the total that went to `key`'s cell, modulo 256. -/
theorem c17_estimate_exact (H : Key → Nat → UInt64 × UInt64) (w depth : Nat) (hw : 0 < w) (hd : 0 < depth)
    (ops : List (Key × Int)) (key : Key) :
    ∃ s est, run H (Sketch.new w depth) ops = some s ∧ s.estimate H key = some est ∧
      (∀ d < depth, (est : Int) ≤ cellTotal H w ops key d % 256) ∧
      (∃ d < depth, (est : Int) = cellTotal H w ops key d % 256) := by
  obtain ⟨s, h1, h2, h3⟩ := run_at H hw ops (Sketch.new w depth) (wf_new w depth)
  refine ⟨s, minRows H w key (2^64-1) 0 s.matrix, h1, ?_, ?_⟩
  · unfold Sketch.estimate; rw [if_neg (by rw [h2.width]; omega), h2.width]
  have hat : ∀ d < depth, (at_ s.matrix d (cell H w key d) : Int) = cellTotal H w ops key d % 256 := by
    intro d hd'
    rw [h3 d (cell H w key d) hd' (Nat.mod_lt _ hw), at_new]
    simp [cellTotal]
  have hmin := minRows_spec H w key s.matrix (2^64-1) 0
  refine ⟨?_, ?_⟩
  · intro d hd'
    have := ((hmin _).1 (Nat.le_refl _)).2 d (by rw [h2.depth]; exact hd')
    rw [Nat.zero_add] at this
    rw [← hat d hd']; exact_mod_cast this
  · -- the minimum is attained
    have : ¬ ∀ d, d < depth → minRows H w key (2^64-1) 0 s.matrix + 1 ≤ at_ s.matrix d (cell H w key d) := by
      intro hall
      have h4 := (hmin (minRows H w key (2^64-1) 0 s.matrix + 1)).2 ⟨?_, ?_⟩
      · omega
      · have := hall 0 hd
        have : at_ s.matrix 0 (cell H w key 0) < 256 := UInt8.toNat_lt _
        omega
      · intro d hd'
        rw [Nat.zero_add]; exact hall d (by rw [← h2.depth]; exact hd')
    rw [Classical.not_forall] at this
    obtain ⟨d, hd'⟩ := this
    rw [Classical.not_imp] at hd'
    refine ⟨d, hd'.1, ?_⟩
    have h5 := ((hmin _).1 (Nat.le_refl _)).2 d (by rw [h2.depth]; exact hd'.1)
    rw [Nat.zero_add] at h5
    rw [← hat d hd'.1]
    have := hd'.2
    omega

theorem total_le_cellTotal [DecidableEq Key] (H : Key → Nat → UInt64 × UInt64) (w : Nat) (ops : List (Key × Int))
    (hpos : ∀ o ∈ ops, 0 ≤ o.2) (key : Key) (d : Nat) :
    0 ≤ total ops key ∧ total ops key ≤ cellTotal H w ops key d := by
  induction ops with
  | nil => simp [total, cellTotal]
  | cons o ops ih =>
    have hp := hpos o (by simp)
    obtain ⟨ih0, ih1⟩ := ih (fun x hx => hpos x (by simp [hx]))
    simp only [total, cellTotal] at *
    by_cases e : o.1 = key
    · rw [List.filter_cons_of_pos (by simp [e]), List.filter_cons_of_pos (by simp [e])]
      simp only [List.map_cons, List.sum_cons]; omega
    · rw [List.filter_cons_of_neg (by simp [e])]
      by_cases e2 : cell H w o.1 d = cell H w key d
      · rw [List.filter_cons_of_pos (by simp [e2])]; simp only [List.map_cons, List.sum_cons]; omega
      · rw [List.filter_cons_of_neg (by simp [e2])]; omega

/-- **C17 (partial).** As long as the counts landing in `key`'s cells stay below 256, the estimate
is never below the true total. Missing: larger counts, see `c17_overflow_violated`. -/
theorem c17_no_underestimate_partial [DecidableEq Key] (H : Key → Nat → UInt64 × UInt64) (w depth : Nat)
    (hw : 0 < w) (hd : 0 < depth) (ops : List (Key × Int)) (hpos : ∀ o ∈ ops, 0 ≤ o.2) (key : Key)
    (hsmall : ∀ d < depth, cellTotal H w ops key d < 256) :
    ∃ s est, run H (Sketch.new w depth) ops = some s ∧ s.estimate H key = some est ∧ total ops key ≤ est := by
  obtain ⟨s, est, h1, h2, h3, d, hd', h4⟩ := c17_estimate_exact H w depth hw hd ops key
  refine ⟨s, est, h1, h2, ?_⟩
  obtain ⟨h5, h6⟩ := total_le_cellTotal H w ops hpos key d
  have := hsmall d hd'
  rw [h4, Int.emod_eq_of_lt (by omega) this]; exact h6

/-- **C17, single key.** If only one key is ever used, the estimate is exact modulo 256 -- hence
exact below 256. -/
theorem c17_single_key_exact [DecidableEq Key] (H : Key → Nat → UInt64 × UInt64) (w depth : Nat)
    (hw : 0 < w) (hd : 0 < depth) (ops : List (Key × Int)) (key : Key) (hone : ∀ o ∈ ops, o.1 = key) :
    ∃ s est, run H (Sketch.new w depth) ops = some s ∧ s.estimate H key = some est ∧
      (est : Int) = total ops key % 256 := by
  obtain ⟨s, est, h1, h2, h3, d, hd', h4⟩ := c17_estimate_exact H w depth hw hd ops key
  refine ⟨s, est, h1, h2, ?_⟩
  rw [h4]
  have e1 : ops.filter (fun o => cell H w o.1 d = cell H w key d) = ops := by
    rw [List.filter_eq_self]; intro o ho; simp [hone o ho]
  have e2 : ops.filter (fun o => o.1 = key) = ops := by
    rw [List.filter_eq_self]; intro o ho; simp [hone o ho]
  simp only [cellTotal, total, e1, e2]

/-- **C17 is violated by counter overflow**: 256 increments by one make the estimate 0, for every
hash function and sketch size. -/
theorem c17_overflow_violated [DecidableEq Key] (H : Key → Nat → UInt64 × UInt64) (w depth : Nat)
    (hw : 0 < w) (hd : 0 < depth) (key : Key) :
    ∃ s, run H (Sketch.new w depth) (List.replicate 256 (key, 1)) = some s ∧ s.estimate H key = some 0 ∧
      total (List.replicate 256 (key, (1 : Int))) key = 256 := by
  have ht : total (List.replicate 256 (key, (1 : Int))) key = 256 := by
    simp only [total]
    rw [List.filter_eq_self.2]
    · rw [List.map_replicate, List.sum_replicate_int]; rfl
    · intro o ho; simp [List.eq_of_mem_replicate ho]
  obtain ⟨s, est, h1, h2, h3⟩ := c17_single_key_exact H w depth hw hd (List.replicate 256 (key, 1)) key
    (fun o ho => by rw [List.eq_of_mem_replicate ho])
  refine ⟨s, h1, ?_, ht⟩
  rw [ht] at h3
  have : est = 0 := by omega
  rw [h2, this]

/-- **Distinct count.** With positive counts and no overflow, `DistinctCount()` never exceeds the
number of distinct keys: a key that was already counted finds all its cells non-zero. -/
theorem distinct_not_overcounted [DecidableEq Key] (H : Key → Nat → UInt64 × UInt64) (w depth : Nat) (hw : 0 < w)
    (ops : List (Key × Int)) (hpos : ∀ o ∈ ops, 0 < o.2)
    (hsmall : ∀ key, ∀ d < depth, cellTotal H w ops key d < 256) :
    ∃ s, run H (Sketch.new w depth) ops = some s ∧ s.distinct ≤ (ops.map (·.1)).eraseDups.length := by
  -- generalise over the operations already performed
  have key : ∀ (todo done_ : List (Key × Int)) (s : Sketch),
      (∀ o ∈ done_ ++ todo, 0 < o.2) → (∀ key, ∀ d < depth, cellTotal H w (done_ ++ todo) key d < 256) →
      WF s w depth → (∀ d i, d < depth → i < w →
        (at_ s.matrix d i : Int) = ((done_.filter (fun o => cell H w o.1 d = i)).map (·.2)).sum) →
      ∀ n, s.distinct ≤ n →
      ∃ s', run H s todo = some s' ∧
        s'.distinct ≤ n + ((todo.map (·.1)).filter (fun k => !(done_.map (·.1)).contains k)).eraseDups.length := by
    intro todo
    induction todo with
    | nil => intro done_ s _ _ _ _ n hn; exact ⟨s, rfl, by simpa using hn⟩
    | cons o todo ih =>
      intro done_ s hp hsm hs hat n hn
      obtain ⟨k, c⟩ := o
      obtain ⟨s1, h1, h2, h3, h4⟩ := increase_some H hw hs k c
      have hck : 0 < c := hp (k, c) (by simp)
      have hnn : ∀ (l : List (Key × Int)), (∀ o ∈ l, 0 < o.2) → ∀ p : Key × Int → Bool, 0 ≤ ((l.filter p).map (·.2)).sum := by
        intro l hl p
        induction l with
        | nil => simp
        | cons a l ihl =>
          have ha := hl a (by simp)
          have := ihl (fun x hx => hl x (by simp [hx]))
          rw [List.filter_cons]; split
          · simp only [List.map_cons, List.sum_cons]; omega
          · exact this
      have hat1 : ∀ d i, d < depth → i < w →
          (at_ s1.matrix d i : Int) = (((done_ ++ [(k, c)]).filter (fun o => cell H w o.1 d = i)).map (·.2)).sum := by
        intro d i hd hi
        rw [h3, incRows_at H hw k c 0 s.matrix hs.rows d i (by rw [hs.depth]; exact hd) hi, Nat.zero_add, hat d i hd hi]
        rw [List.filter_append, List.map_append, List.sum_append]
        by_cases e : i = cell H w k d
        · rw [if_pos e, List.filter_cons_of_pos (by simp [e])]
          simp only [List.filter_nil, List.map_cons, List.map_nil, List.sum_cons, List.sum_nil]
          have hb := hsm k d hd
          simp only [cellTotal] at hb
          rw [List.filter_append, List.filter_cons_of_pos (by simp), List.map_append, List.sum_append,
            List.map_cons, List.sum_cons, ← e] at hb
          have n1 := hnn done_ (fun o ho => hp o (by simp [ho])) (fun o => cell H w o.1 d = i)
          have n2 := hnn todo (fun o ho => hp o (by simp [ho])) (fun o => cell H w o.1 d = i)
          rw [Int.emod_eq_of_lt (by omega) (by omega)]; omega
        · rw [if_neg e, List.filter_cons_of_neg (by simp; omega)]; simp
      -- if the key was seen before, no cell of it is zero
      have hold : k ∈ done_.map (·.1) → (incRows H w k c 0 s.matrix).2 = false := by
        intro hk
        have hz : ∀ d, d < depth → at_ s.matrix d (cell H w k d) ≠ 0 := by
          intro d hd hz
          have := hat d (cell H w k d) hd (Nat.mod_lt _ hw)
          rw [hz] at this
          obtain ⟨o, ho, hok⟩ := List.mem_map.1 hk
          have key2 : ∀ (l : List (Key × Int)), (∀ o ∈ l, 0 < o.2) → o ∈ l →
              0 < ((l.filter (fun x => cell H w x.1 d = cell H w k d)).map (·.2)).sum := by
            intro l
            induction l with
            | nil => intro _ h; simp at h
            | cons a l ihl =>
              intro hl hm
              have ha := hl a (by simp)
              have hl' : ∀ o ∈ l, 0 < o.2 := fun x hx => hl x (by simp [hx])
              have hge := hnn l hl' (fun x => cell H w x.1 d = cell H w k d)
              rcases List.mem_cons.1 hm with rfl | hm
              · rw [List.filter_cons_of_pos (by simp [hok])]
                simp only [List.map_cons, List.sum_cons]; omega
              · have := ihl hl' hm
                rw [List.filter_cons]; split
                · simp only [List.map_cons, List.sum_cons]; omega
                · exact this
          have := key2 done_ (fun o ho => hp o (by simp [ho])) ho
          omega
        have key3 : ∀ (m : List (List UInt8)) (d0 : Nat), (∀ d, d < m.length → at_ m d (cell H w k (d0 + d)) ≠ 0) →
            (incRows H w k c d0 m).2 = false := by
          intro m
          induction m with
          | nil => intro _ _; rfl
          | cons r m ihm =>
            intro d0 hh
            have h0 := hh 0 (by simp)
            simp only [at_, List.getD_cons_zero, Nat.add_zero] at h0
            simp only [incRows, Bool.or_eq_false_iff]
            refine ⟨?_, ihm (d0+1) ?_⟩
            · rw [beq_eq_false_iff_ne]; intro e; rw [e] at h0; exact h0 rfl
            · intro d hd
              have := hh (d+1) (by simpa using hd)
              simp only [at_, List.getD_cons_succ] at this ⊢
              rw [show d0 + 1 + d = d0 + (d + 1) by omega]; exact this
        apply key3
        intro d hd
        rw [Nat.zero_add]; exact hz d (by rw [← hs.depth]; exact hd)
      have hp' : ∀ o ∈ (done_ ++ [(k,c)]) ++ todo, 0 < o.2 := by
        intro o ho; exact hp o (by simpa using ho)
      have hsm' : ∀ key, ∀ d < depth, cellTotal H w ((done_ ++ [(k,c)]) ++ todo) key d < 256 := by
        intro key d hd
        have := hsm key d hd
        simpa using this
      by_cases hk : k ∈ done_.map (·.1)
      · have hdis : s1.distinct ≤ n := by rw [h4, hold hk]; simpa using hn
        obtain ⟨s2, e1, e2⟩ := ih (done_ ++ [(k,c)]) s1 hp' hsm' h2 hat1 n hdis
        refine ⟨s2, by simp only [run, h1, e1], Nat.le_trans e2 ?_⟩
        have hf1 : ((((k, c) :: todo).map (·.1)).filter (fun x => !(done_.map (·.1)).contains x)) =
            ((todo.map (·.1)).filter (fun x => !(done_.map (·.1)).contains x)) := by
          rw [List.map_cons, List.filter_cons_of_neg]
          simpa using hk
        have hf2 : ((todo.map (·.1)).filter (fun x => !((done_ ++ [(k,c)]).map (·.1)).contains x)) =
            ((todo.map (·.1)).filter (fun x => !(done_.map (·.1)).contains x)) := by
          apply List.filter_congr
          intro x _
          congr 1
          rw [Bool.eq_iff_iff]
          simp only [List.map_append, List.map_cons, List.map_nil, List.contains_iff_mem, List.mem_append,
            List.mem_singleton]
          constructor
          · intro h; rcases h with h | h
            · exact h
            · rw [h]; exact hk
          · exact Or.inl
        rw [hf1, hf2]; exact Nat.le_refl _
      · have hdis : s1.distinct ≤ n + 1 := by rw [h4]; split <;> omega
        obtain ⟨s2, e1, e2⟩ := ih (done_ ++ [(k,c)]) s1 hp' hsm' h2 hat1 (n+1) hdis
        refine ⟨s2, by simp only [run, h1, e1], Nat.le_trans e2 ?_⟩
        have hf1 : ((((k, c) :: todo).map (·.1)).filter (fun x => !(done_.map (·.1)).contains x)) =
            k :: ((todo.map (·.1)).filter (fun x => !(done_.map (·.1)).contains x)) := by
          rw [List.map_cons, List.filter_cons_of_pos]
          simpa using hk
        have hf2 : ((todo.map (·.1)).filter (fun x => !((done_ ++ [(k,c)]).map (·.1)).contains x)) =
            ((todo.map (·.1)).filter (fun x => !(done_.map (·.1)).contains x)).filter (fun b => !b == k) := by
          rw [List.filter_filter]
          apply List.filter_congr
          intro x _
          simp only [List.map_append, List.map_cons, List.map_nil]
          rw [Bool.eq_iff_iff]
          simp
          exact And.comm
        rw [hf1, hf2, List.eraseDups_cons, List.length_cons]; omega
  obtain ⟨s, e1, e2⟩ := key ops [] (Sketch.new w depth) (by simpa using hpos) (by simpa using hsmall) (wf_new w depth)
    (by
      intro d i _ _
      rw [at_new]; simp) 0 (by simp [Sketch.new])
  refine ⟨s, e1, ?_⟩
  rw [List.filter_eq_self.2 (by intro x _; rfl)] at e2
  simpa using e2

/-- Non-vacuity: two keys colliding in one row but not in the other. -/
example : let H : Nat → Nat → UInt64 × UInt64 := fun key _ => (0, UInt64.ofNat key)
    ((run H (Sketch.new 4 2) [(1, 5), (2, 7), (1, 1)]).bind (fun s => s.estimate H 1)) = some 6 := by
  decide +kernel

end Ltio.CountMin
