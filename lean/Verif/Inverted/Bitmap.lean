import Verif.Inverted.Props

/-
C175, C176: `BitMapPostingList` (components/inverted_indexer/posting_field/bitmap_posting_list.{h,cc}) as a
set of positions, through its public methods.
-/
namespace Ltio.Inv.BitSet
open Ltio.Inv

/-! ### The program -/

/-- A call on a `BitMapPostingList` (bitmap_posting_list.h:21-29). -/
inductive Call where
  | reset
  | set (i : Nat)
  | clear (i : Nat)
  | union (o : Bitmap)
  | intersect (o : Bitmap)
  | substract (o : Bitmap)

/-- One call; `none`: the CHECK fails and the process ends (bitmap_posting_list.cc:5-50). -/
def call (b : Bitmap) : Call → Option Bitmap
  | .reset => some b.reset
  | .set i => b.setBit i
  | .clear i => b.clearBit i
  | .union o => some (b.union o)
  | .intersect o => some (b.intersect o)
  | .substract o => some (b.substract o)

/-- A sequence of calls. -/
def run : Bitmap → List Call → Option Bitmap
  | b, [] => some b
  | b, c :: cs => (call b c).bind (fun b' => run b' cs)

/-- `std::bitset<64>(w)` written to a stream: the highest bit first. -/
def bitsOf (w : BitVec 64) : List Char := (List.range 64).map (fun j => if w.getLsbD (63 - j) then '1' else '0')

/-- The loop of `DumpBits` (bitmap_posting_list.cc:52-61): words separated by '-'. -/
def dumpWords : List (BitVec 64) → List Char
  | [] => []
  | [w] => bitsOf w
  | w :: w' :: ws => bitsOf w ++ '-' :: dumpWords (w' :: ws)

/-- `DumpBits`. -/
def dumpBits (b : Bitmap) : List Char := dumpWords b.words

/-! ### Specification: sets of positions -/

/-- What a call does to a set of positions; the members of an argument are what its `IsBitSet` answers. -/
def effect (s : Nat → Prop) : Call → Nat → Prop
  | .reset => fun _ => False
  | .set i => fun j => s j ∨ j = i
  | .clear i => fun j => s j ∧ j ≠ i
  | .union o => fun j => s j ∨ o.isBitSet j = some true
  | .intersect o => fun j => s j ∧ o.isBitSet j = some true
  | .substract o => fun j => s j ∧ o.isBitSet j ≠ some true

/-- A sequence of calls on sets. -/
def effects : (Nat → Prop) → List Call → Nat → Prop
  | s, [] => s
  | s, c :: cs => effects (effect s c) cs

/-- The argument has room for the same positions. -/
def SameSize (n : Nat) : Call → Prop
  | .union o | .intersect o | .substract o => o.words.length = n
  | _ => True

/-- The index is inside. -/
def InRange (n : Nat) : Call → Prop
  | .set i | .clear i => i < n * 64
  | _ => True

/-! ### One call -/

theorem clearBit_spec {b b' : Bitmap} {i : Nat} (h : b.clearBit i = some b') :
    b'.words.length = b.words.length ∧ b'.bitCount = b.bitCount ∧ b'.idCount = b.idCount ∧
    ∀ j, bit b' j = (bit b j && !decide (j = i)) := by
  unfold Bitmap.clearBit at h
  split at h
  · rename_i hi
    simp only [Option.some.injEq] at h; subst h
    refine ⟨by simp, rfl, rfl, fun j => ?_⟩
    unfold bit
    simp only [List.getD_eq_getElem?_getD, List.getElem?_set]
    have hlt : i / 64 < b.words.length := by omega
    by_cases hw : i / 64 = j / 64
    · rw [if_pos hw, if_pos hlt]
      simp only [Option.getD_some]
      have h64 : 63 - j % 64 < 64 := by omega
      rw [BitVec.getLsbD_and, BitVec.getLsbD_not, BitVec.getLsbD_shiftLeft, BitVec.getLsbD_one, hw]
      congr 1
      rw [Bool.eq_iff_iff]
      simp only [Bool.and_eq_true, decide_eq_true_eq, Bool.not_eq_true', decide_eq_false_iff_not,
        Bool.and_eq_false_iff, Bool.not_eq_false', decide_eq_true_eq]
      omega
    · rw [if_neg hw]
      have : j ≠ i := fun e => hw (by rw [e])
      simp [this]
  · simp at h

theorem clearBit_ok (b : Bitmap) {i : Nat} (h : i < b.words.length * 64) : ∃ b', b.clearBit i = some b' := by
  unfold Bitmap.clearBit; rw [if_pos h]; exact ⟨_, rfl⟩

theorem isBitSet_iff (b : Bitmap) (i : Nat) : b.isBitSet i = some true ↔ i < b.words.length * 64 ∧ bit b i = true := by
  by_cases h : i < b.words.length * 64
  · rw [isBitSet_eq b h]; simp [h]
  · rw [isBitSet_none b (by omega)]; simp [h]

theorem bit_out (b : Bitmap) {i : Nat} (h : b.words.length * 64 ≤ i) : bit b i = false := by
  unfold bit
  rw [List.getD_eq_getElem?_getD, List.getElem?_eq_none (by omega)]
  simp

theorem isBitSet_bit (b : Bitmap) (i : Nat) : b.isBitSet i = some true ↔ bit b i = true := by
  rw [isBitSet_iff]
  constructor
  · exact fun h => h.2
  · intro h
    refine ⟨?_, h⟩
    by_contra hc
    rw [bit_out b (by omega)] at h
    cases h

theorem clearBytes_length : ∀ (ws : List (BitVec 64)) (n : Nat), (clearBytes n ws).length = ws.length
  | [], _ => rfl
  | w :: ws, n => by simp [clearBytes, clearBytes_length ws]

theorem call_none (b : Bitmap) (c : Call) : call b c = none ↔ ¬ InRange b.words.length c := by
  cases c <;> simp [call, InRange, Bitmap.setBit, Bitmap.clearBit]

theorem call_len {b b' : Bitmap} {c : Call} (hs : SameSize b.words.length c) (h : call b c = some b') :
    b'.words.length = b.words.length ∧ b'.bitCount = b.bitCount ∧ b'.idCount = b.idCount := by
  cases c with
  | reset => simp only [call, Option.some.injEq] at h; subst h; simp [Bitmap.reset]
  | set i => have := setBit_spec h; exact ⟨this.1, this.2.1, this.2.2.1⟩
  | clear i => have := clearBit_spec h; exact ⟨this.1, this.2.1, this.2.2.1⟩
  | union o => simp only [call, Option.some.injEq] at h; subst h; exact ⟨(shape_union b o).1, rfl, rfl⟩
  | intersect o =>
    simp only [call, Option.some.injEq] at h; subst h
    exact ⟨(shape_intersect b o hs.symm).1, rfl, rfl⟩
  | substract o => simp only [call, Option.some.injEq] at h; subst h; exact ⟨(shape_substract b o).1, rfl, rfl⟩

theorem call_effect {b b' : Bitmap} {c : Call} (hs : SameSize b.words.length c) (h : call b c = some b')
    {s : Nat → Prop} (hb : ∀ i, b.isBitSet i = some true ↔ s i) (i : Nat) :
    b'.isBitSet i = some true ↔ effect s c i := by
  have hl := (call_len hs h).1
  cases c with
  | reset => simp only [call, Option.some.injEq] at h; subst h; rw [isBitSet_bit, bit_reset]; simp [effect]
  | set j =>
    have := (setBit_spec h).2.2.2 i
    rw [isBitSet_bit, this]
    simp only [Bool.or_eq_true, decide_eq_true_eq, effect, ← hb, isBitSet_bit]
  | clear j =>
    have := (clearBit_spec h).2.2.2 i
    rw [isBitSet_bit, this]
    simp only [Bool.and_eq_true, Bool.not_eq_true', decide_eq_false_iff_not, effect, ← hb, isBitSet_bit, ne_eq]
  | union o =>
    simp only [call, Option.some.injEq] at h; subst h
    by_cases hi : i < b.words.length * 64
    · rw [isBitSet_bit, union_spec b o hi]
      simp only [Bool.or_eq_true, effect, ← hb, isBitSet_bit]
    · rw [isBitSet_none _ (by omega)]
      simp only [effect, ← hb]
      simp only [SameSize] at hs
      rw [isBitSet_none _ (by omega), isBitSet_none _ (by omega)]
      simp
  | intersect o =>
    simp only [call, Option.some.injEq] at h; subst h
    by_cases hi : i < b.words.length * 64
    · rw [isBitSet_bit, intersect_spec b o hs.symm hi]
      simp only [Bool.and_eq_true, effect, ← hb, isBitSet_bit]
    · rw [isBitSet_none _ (by omega)]
      simp only [effect, ← hb]
      rw [isBitSet_none b (by omega)]
      simp
  | substract o =>
    simp only [call, Option.some.injEq] at h; subst h
    by_cases hi : i < b.words.length * 64
    · rw [isBitSet_bit, substract_spec b o hi]
      simp only [Bool.and_eq_true, Bool.not_eq_true', effect, ← hb, isBitSet_bit, ne_eq, Bool.not_eq_true]
    · rw [isBitSet_none _ (by omega)]
      simp only [effect, ← hb]
      rw [isBitSet_none b (by omega)]
      simp

/-! ### C176 -/

/-- C176: any sequence of calls whose arguments have the same size makes the list hold exactly the
positions that the same operations on sets give, as `IsBitSet` reports them. -/
theorem c176_set_of_positions : ∀ (cs : List Call) (b b' : Bitmap) (s : Nat → Prop),
    (∀ c ∈ cs, SameSize b.words.length c) → (∀ i, b.isBitSet i = some true ↔ s i) → run b cs = some b' →
    (∀ i, b'.isBitSet i = some true ↔ effects s cs i) ∧
    (∀ i, b'.isBitSet i ≠ none ↔ b.isBitSet i ≠ none)
  | [], b, b', s, _, hb, h => by
    simp only [run, Option.some.injEq] at h; subst h
    exact ⟨hb, fun i => Iff.rfl⟩
  | c :: cs, b, b', s, hs, hb, h => by
    simp only [run] at h
    cases hc : call b c with
    | none => rw [hc] at h; simp at h
    | some b1 =>
      rw [hc, Option.bind_some] at h
      have hl := (call_len (hs c List.mem_cons_self) hc).1
      have ih := c176_set_of_positions cs b1 b' (effect s c)
        (fun d hd => by rw [hl]; exact hs d (List.mem_cons_of_mem _ hd))
        (call_effect (hs c List.mem_cons_self) hc hb) h
      refine ⟨ih.1, fun i => (ih.2 i).trans ?_⟩
      by_cases hi : i < b.words.length * 64
      · rw [isBitSet_eq b hi, isBitSet_eq b1 (by omega)]; simp
      · rw [isBitSet_none b (by omega), isBitSet_none b1 (by omega)]

/-- C176: the process ends (a failed CHECK) exactly if some `SetBit` or `ClearBit` is given an index beyond
the last word. -/
theorem c176_dies_iff : ∀ (cs : List Call) (b : Bitmap), (∀ c ∈ cs, SameSize b.words.length c) →
    (run b cs = none ↔ ∃ c ∈ cs, ¬ InRange b.words.length c)
  | [], b, _ => by simp [run]
  | c :: cs, b, hs => by
    simp only [run, List.mem_cons, exists_eq_or_imp]
    rw [← call_none]
    cases hc : call b c with
    | none => simp
    | some b1 =>
      have hl := (call_len (hs c List.mem_cons_self) hc).1
      rw [Option.bind_some, c176_dies_iff cs b1 (fun d hd => by rw [hl]; exact hs d (List.mem_cons_of_mem _ hd)), hl]
      simp

/-- C176: a new list has room for its bits rounded up to whole words, and starts with all of them unset
(value 0) or set (all ones). -/
theorem c176_new (bits ids i : Nat) :
    ((Bitmap.new bits ids 0#64).isBitSet i = none ↔ (bits + 63) / 64 * 64 ≤ i) ∧
    ((Bitmap.new bits ids 0#64).isBitSet i ≠ some true) ∧
    (i < bits → (Bitmap.new bits ids (BitVec.allOnes 64)).isBitSet i = some true) := by
  refine ⟨?_, ?_, fun h => ?_⟩
  · have hl : (Bitmap.new bits ids 0#64).words.length = (bits + 63) / 64 := by simp [Bitmap.new]
    by_cases hi : i < (bits + 63) / 64 * 64
    · rw [isBitSet_eq _ (by omega)]; simp; omega
    · rw [isBitSet_none _ (by omega)]; simp; omega
  · rw [ne_eq, isBitSet_bit, bit_new_zero]; simp
  · rw [isBitSet_bit]; exact bit_new_ones bits ids i h

theorem bitsOf_length (w : BitVec 64) : (bitsOf w).length = 64 := by simp [bitsOf]

theorem bitsOf_get (w : BitVec 64) {j : Nat} (h : j < 64) :
    (bitsOf w)[j]? = some (if w.getLsbD (63 - j) then '1' else '0') := by
  simp [bitsOf, h]

theorem dump_get : ∀ (ws : List (BitVec 64)) (k j : Nat), k < ws.length → j < 64 →
    (dumpWords ws)[65 * k + j]? = some (if (ws.getD k 0#64).getLsbD (63 - j) then '1' else '0')
  | [], k, j, h, _ => by simp at h
  | [w], k, j, h, hj => by
    have : k = 0 := by simpa using h
    subst this
    simp only [dumpWords, Nat.mul_zero, Nat.zero_add, List.getD_cons_zero]
    exact bitsOf_get w hj
  | w :: w' :: ws, 0, j, h, hj => by
    simp only [dumpWords, Nat.mul_zero, Nat.zero_add, List.getD_cons_zero]
    rw [List.getElem?_append_left (by rw [bitsOf_length]; exact hj)]
    exact bitsOf_get w hj
  | w :: w' :: ws, k + 1, j, h, hj => by
    simp only [dumpWords, List.getD_cons_succ]
    rw [List.getElem?_append_right (by rw [bitsOf_length]; omega), bitsOf_length,
      show 65 * (k + 1) + j - 64 = (65 * k + j) + 1 by omega, List.getElem?_cons_succ]
    exact dump_get (w' :: ws) k j (by simpa using h) hj

theorem dump_sep : ∀ (ws : List (BitVec 64)) (k : Nat), k + 1 < ws.length → (dumpWords ws)[65 * k + 64]? = some '-'
  | [], k, h => by simp at h
  | [w], k, h => by simp at h
  | w :: w' :: ws, 0, h => by
    simp only [dumpWords, Nat.mul_zero, Nat.zero_add]
    rw [List.getElem?_append_right (by rw [bitsOf_length]), bitsOf_length]
    simp
  | w :: w' :: ws, k + 1, h => by
    simp only [dumpWords]
    rw [List.getElem?_append_right (by rw [bitsOf_length]; omega), bitsOf_length,
      show 65 * (k + 1) + 64 - 64 = (65 * k + 64) + 1 by omega, List.getElem?_cons_succ]
    exact dump_sep (w' :: ws) k (by simpa using h)

theorem dump_len : ∀ (ws : List (BitVec 64)), (dumpWords ws).length = 65 * ws.length - 1
  | [] => rfl
  | [w] => by simp [dumpWords, bitsOf_length]
  | w :: w' :: ws => by
    have := dump_len (w' :: ws)
    simp only [dumpWords, List.length_append, bitsOf_length, List.length_cons] at this ⊢
    omega

/-- C176: `DumpBits` writes the answers of `IsBitSet` in order, 64 in a row, with '-' between the rows. -/
theorem c176_dump (b : Bitmap) :
    (dumpBits b).length = 65 * b.words.length - 1 ∧
    (∀ i v, b.isBitSet i = some v → (dumpBits b)[65 * (i / 64) + i % 64]? = some (if v then '1' else '0')) ∧
    (∀ k, k + 1 < b.words.length → (dumpBits b)[65 * k + 64]? = some '-') := by
  refine ⟨dump_len _, fun i v h => ?_, fun k h => dump_sep _ k h⟩
  by_cases hi : i < b.words.length * 64
  · rw [isBitSet_eq b hi, Option.some.injEq] at h
    subst h
    exact dump_get b.words (i / 64) (i % 64) (by omega) (by omega)
  · rw [isBitSet_none b (by omega)] at h; cases h

/-! ### C175: arguments of other sizes -/

theorem clearBytes_bit : ∀ (ws : List (BitVec 64)) (n k p : Nat), p < 64 →
    ((clearBytes n ws).getD k 0#64).getLsbD p =
      ((ws.getD k 0#64).getLsbD p && decide (n ≤ 8 * k + p / 8))
  | [], n, k, p, _ => by simp [clearBytes]
  | w :: ws, n, 0, p, hp => by
    simp only [clearBytes, List.getD_cons_zero]
    split
    · have : ¬ n ≤ 8 * 0 + p / 8 := by omega
      rw [decide_eq_false this]; simp
    · rw [BitVec.getLsbD_shiftLeft, BitVec.getLsbD_ushiftRight]
      by_cases h : n ≤ p / 8
      · have e : 8 * n + (p - 8 * n) = p := by omega
        rw [e]
        have h1 : ¬ p < 8 * n := by omega
        simp [h1, hp, h]
      · have h1 : p < 8 * n := by omega
        simp [h1, h]
  | w :: ws, n, k + 1, p, hp => by
    simp only [clearBytes, List.getD_cons_succ]
    rw [clearBytes_bit ws (n - 8) k p hp]
    congr 1
    rw [decide_eq_decide]
    omega

/-- What `Intersect` with a shorter list does: positions the other list has no room for are dropped only if
they lie in the first (difference of the sizes in words) BYTES of the rest; byte `7 - (i % 64) / 8` of word
`i / 64` holds position `i`. -/
theorem c175_intersect_shorter (a b : Bitmap) (hl : b.words.length ≤ a.words.length) {i : Nat} :
    (i < b.words.length * 64 → ((a.intersect b).isBitSet i = some true ↔
      a.isBitSet i = some true ∧ b.isBitSet i = some true)) ∧
    (b.words.length * 64 ≤ i → ((a.intersect b).isBitSet i = some true ↔
      a.isBitSet i = some true ∧
      a.words.length - b.words.length ≤ 8 * (i / 64 - b.words.length) + (7 - i % 64 / 8))) := by
  have hlen : ((zipPre (· &&& ·) a.words b.words).take b.words.length).length = b.words.length := by
    rw [List.length_take, zipPre_length]; omega
  constructor
  · intro hi
    rw [isBitSet_bit, isBitSet_bit, isBitSet_bit, ← Bool.and_eq_true, ← Bool.eq_iff_iff]
    unfold bit Bitmap.intersect
    simp only
    rw [List.getD_eq_getElem?_getD, List.getElem?_append_left (by rw [hlen]; omega), List.getElem?_take,
      if_pos (by omega), ← List.getD_eq_getElem?_getD, ← BitVec.getLsbD_and]
    congr 1
    have : ∀ (x y : List (BitVec 64)) (k : Nat), k < x.length → k < y.length →
        (zipPre (· &&& ·) x y).getD k 0#64 = x.getD k 0#64 &&& y.getD k 0#64 := by
      intro x
      induction x with
      | nil => intro y k h; simp at h
      | cons x xs ih =>
        intro y k h h'
        cases y with
        | nil => simp at h'
        | cons y ys =>
          cases k with
          | zero => simp [zipPre]
          | succ k =>
            simp only [zipPre, List.getD_cons_succ]
            exact ih ys k (by simpa using h) (by simpa using h')
    exact this _ _ _ (by omega) (by omega)
  · intro hi
    rw [isBitSet_bit, isBitSet_bit, ← decide_eq_true_iff (p := _ ≤ _), ← Bool.and_eq_true, ← Bool.eq_iff_iff]
    unfold bit Bitmap.intersect
    simp only
    rw [List.getD_eq_getElem?_getD, List.getElem?_append_right (by rw [hlen]; omega), hlen,
      ← List.getD_eq_getElem?_getD, clearBytes_bit _ _ _ _ (by omega)]
    congr 1
    · congr 1
      rw [List.getD_eq_getElem?_getD, List.getElem?_drop, ← List.getD_eq_getElem?_getD]
      congr 1; omega
    · rw [decide_eq_decide]
      omega

/-- What `Union` does with an argument of any size: positions the list itself has no room for are not
added. -/
theorem c175_union_any (a b : Bitmap) (i : Nat) :
    (a.union b).isBitSet i = some true ↔
      a.isBitSet i = some true ∨ (i < a.words.length * 64 ∧ b.isBitSet i = some true) := by
  by_cases hi : i < a.words.length * 64
  · rw [isBitSet_bit, union_spec a b hi]
    simp [isBitSet_bit, hi]
  · have := (shape_union a b).1
    rw [isBitSet_none _ (by omega), isBitSet_none a (by omega)]
    simp [hi]

/-- `Substract` is right with an argument of any size. -/
theorem c175_substract_any (a b : Bitmap) (i : Nat) :
    (a.substract b).isBitSet i = some true ↔ a.isBitSet i = some true ∧ b.isBitSet i ≠ some true := by
  by_cases hi : i < a.words.length * 64
  · rw [isBitSet_bit, substract_spec a b hi]
    simp [isBitSet_bit]
  · have := (shape_substract a b).1
    rw [isBitSet_none _ (by omega), isBitSet_none a (by omega)]
    simp

/-- C175 violation. After `Intersect` with a shorter list, positions that the other list does not hold are
still in the result: the rest is cleared by a `memset` that is given a number of words, not of bytes
(bitmap_posting_list.cc:41).  For every size: a list of all positions of `n + 1` words, intersected with a
list without room for any position, keeps position `64 * n`. -/
theorem c175_intersect_violated (n : Nat) :
    let a := Bitmap.new (64 * (n + 1)) 0 (BitVec.allOnes 64)
    let b := Bitmap.new 0 0 0#64
    b.isBitSet 0 = none ∧ (a.intersect b).isBitSet (64 * n) = some true := by
  intro a b
  have hb : b.words.length = 0 := rfl
  have ha : a.words.length = n + 1 := by
    show (Bitmap.new (64 * (n + 1)) 0 (BitVec.allOnes 64)).words.length = _
    simp only [Bitmap.new, List.length_replicate]; omega
  refine ⟨isBitSet_none b (by omega), ?_⟩
  rw [(c175_intersect_shorter a b (by omega)).2 (by omega)]
  refine ⟨?_, by omega⟩
  rw [isBitSet_bit]
  exact bit_new_ones _ _ _ (by omega)

/-- C175 violation. `Union` with a longer list loses the positions beyond the last word of the first
(bitmap_posting_list.cc:28-33), although the other list holds them. -/
theorem c175_union_violated : ∃ a b : Bitmap, ∃ i, b.isBitSet i = some true ∧ (a.union b).isBitSet i ≠ some true :=
  ⟨Bitmap.new 1 0 0#64, Bitmap.new 65 0 (BitVec.allOnes 64), 64, by decide +kernel, by decide +kernel⟩

/-! ### The hypotheses can be met -/

/-- Positions 3 and 70, then 3 is cleared and the rest united with `{5}` in two words: `{5, 70}`. -/
theorem w_c176 : ∃ o b', o.isBitSet 5 = some true ∧ (∀ c ∈ [Call.set 3, .set 70, .clear 3, .union o], SameSize 2 c) ∧
    run (Bitmap.new 100 2 0#64) [.set 3, .set 70, .clear 3, .union o] = some b' ∧
    b'.isBitSet 3 = some false ∧ b'.isBitSet 5 = some true ∧ b'.isBitSet 70 = some true ∧
    run (Bitmap.new 100 2 0#64) [.set 128] = none ∧
    (Bitmap.new 3 0 0#64 |>.setBit 1).map dumpBits =
      some "0100000000000000000000000000000000000000000000000000000000000000".toList := by
  refine ⟨⟨1, 100, [0x0400000000000000#64, 0]⟩, ⟨2, 100, [0x0400000000000000#64, 0x0200000000000000#64]⟩,
    by decide +kernel, ?_, by rfl, by decide +kernel, by decide +kernel, by decide +kernel, by rfl, by decide +kernel⟩
  intro c hc
  simp only [List.mem_cons, List.not_mem_nil, or_false] at hc
  rcases hc with rfl | rfl | rfl | rfl <;> simp [SameSize]

end Ltio.Inv.BitSet
