/-
Model of components/bloomfilter/bloomfilter.cc and property C16.

`H key i` is the pair of 64-bit hashes `MurmurHash3_x64_128(data, len, i << 0x1F | i * 0x55, result)`
(lines 45, 55, 69): the proofs hold for every function `H`. The table is `malloc`ed and not cleared
(line 32): the initial contents are arbitrary. `none` = undefined behaviour (`% 0`).
Not modelled: `Calculate` (floating point), allocation failure.
-/
namespace Ltio.Bloom

abbrev Byte := UInt8
variable {Key : Type}

/-- bloomfilter.h:44-46: `table_` (of `table_size_` bytes) and `args.k`. -/
structure Filter where
  table : List Byte
  k : Nat

/-- bloomfilter.cc:44-49: the values of `i` in `for (i = 0; i < k;) { ...; i += 2; }`. -/
def seeds (i k : Nat) : List Nat := if i < k then i :: seeds (i + 2) k else []
termination_by k - i

/-- The bit numbers used for a key, in the order they are used. -/
def bitsOf (H : Key → Nat → UInt64 × UInt64) (k : Nat) (key : Key) : List UInt64 :=
  (seeds 0 k).flatMap (fun i => [(H key i).1, (H key i).2])

/-- bloomfilter.cc:78, 84, 90. -/
def index (size : Nat) (t : UInt64) : Nat := (t >>> 3).toNat % size

/-- bloomfilter.cc:79-80: `1 << (t & 7)`. -/
def mask (t : UInt64) : Byte := 1 <<< UInt8.ofNat (t &&& 7).toNat

/-- bloomfilter.cc:77-81 `SetBit`. -/
def setBit (table : List Byte) (t : UInt64) : Option (List Byte) :=
  if table.length = 0 then none
  else some (table.set (index table.length t) (table.getD (index table.length t) 0 ||| mask t))

/-- bloomfilter.cc:83-87 `TestBit`. -/
def testBit (table : List Byte) (t : UInt64) : Option Bool :=
  if table.length = 0 then none
  else some (decide (table.getD (index table.length t) 0 &&& mask t ≠ 0))

/-- bloomfilter.cc:42-50 `Set`: the bits are set one after the other. -/
def setAll (table : List Byte) : List UInt64 → Option (List Byte)
  | [] => some table
  | t :: ts => match setBit table t with
    | none => none
    | some table => setAll table ts

/-- bloomfilter.cc:52-63 `IsSet`. -/
def testAll (table : List Byte) : List UInt64 → Option Bool
  | [] => some true
  | t :: ts => match testBit table t with
    | none => none
    | some false => some false
    | some true => testAll table ts

/-- bloomfilter.cc:65-75, 89-95 `TestAndSet`. -/
def testAndSetAll (table : List Byte) (hit : Bool) : List UInt64 → Option (List Byte × Bool)
  | [] => some (table, hit)
  | t :: ts => match testBit table t with
    | none => none
    | some b => match setBit table t with
      | none => none
      | some table => testAndSetAll table (hit && b) ts

inductive Op (Key : Type) where
  | set (key : Key)
  | testAndSet (key : Key)
  | isSet (key : Key)

/-- One call: new filter and returned value (`Set` returns nothing, modelled as `true`). -/
def step (H : Key → Nat → UInt64 × UInt64) (f : Filter) : Op Key → Option (Filter × Bool)
  | .set key => (setAll f.table (bitsOf H f.k key)).map (fun t => ({ f with table := t }, true))
  | .testAndSet key =>
    (testAndSetAll f.table true (bitsOf H f.k key)).map (fun r => ({ f with table := r.1 }, r.2))
  | .isSet key => (testAll f.table (bitsOf H f.k key)).map (fun b => (f, b))

def run (H : Key → Nat → UInt64 × UInt64) (f : Filter) : List (Op Key) → Option Filter
  | [] => some f
  | op :: ops => match step H f op with
    | none => none
    | some (f', _) => run H f' ops

/-! ### lemmas -/

/-- bit `t` is 1 -/
def On (table : List Byte) (t : UInt64) : Prop :=
  table.getD (index table.length t) 0 &&& mask t ≠ 0

instance (table : List Byte) (t : UInt64) : Decidable (On table t) := by unfold On; infer_instance

theorem mask_ne (t : UInt64) : mask t ≠ 0 := by
  have key : ∀ k : Fin 8, (1 : Byte) <<< UInt8.ofNat k.val ≠ 0 := by decide
  unfold mask
  have h : (t &&& 7).toNat < 8 := by
    have := Nat.and_le_right (n := t.toNat) (m := 7)
    rw [UInt64.toNat_and]
    exact Nat.lt_succ_of_le this
  exact key ⟨_, h⟩

theorem or_and_self (a m : Byte) : (a ||| m) &&& m = m := by
  apply UInt8.eq_of_toBitVec_eq
  ext i hi
  simp
  intro h; exact Or.inr h

theorem or_and_ne {a b m : Byte} (h : a &&& m ≠ 0) : (a ||| b) &&& m ≠ 0 := by
  intro e
  apply h
  apply UInt8.eq_of_toBitVec_eq
  have e' := congrArg UInt8.toBitVec e
  ext i hi
  have e2 := congrArg (fun v : BitVec 8 => v[i]) e'
  simp at e2 ⊢
  intro h1
  simp [h1] at e2
  exact e2

theorem setBit_some {table : List Byte} (h : table.length ≠ 0) (t : UInt64) :
    ∃ table', setBit table t = some table' ∧ table'.length = table.length ∧ On table' t ∧
      ∀ s, On table s → On table' s := by
  unfold setBit
  rw [if_neg h]
  have hlt : ∀ s, index table.length s < table.length := fun s => Nat.mod_lt _ (by omega)
  refine ⟨_, rfl, by simp, ?_, ?_⟩
  · unfold On
    simp only [List.length_set]
    rw [List.getD_eq_getElem?_getD, List.getElem?_set_self (hlt t)]
    simp only [Option.getD_some, or_and_self]
    exact mask_ne t
  · intro s hs
    unfold On at *
    simp only [List.length_set]
    rw [List.getD_eq_getElem?_getD]
    by_cases e : index table.length t = index table.length s
    · rw [e, List.getElem?_set_self (hlt s), Option.getD_some]
      exact or_and_ne hs
    · rw [List.getElem?_set_ne e, ← List.getD_eq_getElem?_getD]; exact hs

theorem setAll_some {table : List Byte} (h : table.length ≠ 0) (ts : List UInt64) :
    ∃ table', setAll table ts = some table' ∧ table'.length = table.length ∧
      (∀ t ∈ ts, On table' t) ∧ ∀ s, On table s → On table' s := by
  induction ts generalizing table with
  | nil => exact ⟨table, rfl, rfl, by simp, fun s h => h⟩
  | cons t ts ih =>
    obtain ⟨t1, a1, a2, a3, a4⟩ := setBit_some h t
    obtain ⟨t2, b1, b2, b3, b4⟩ := ih (table := t1) (by omega)
    refine ⟨t2, by simp only [setAll, a1, b1], by omega, ?_, fun s hs => b4 s (a4 s hs)⟩
    intro x hx
    rcases List.mem_cons.1 hx with rfl | hx
    · exact b4 _ a3
    · exact b3 x hx

theorem testAll_eq {table : List Byte} (h : table.length ≠ 0) (ts : List UInt64) :
    ∃ b, testAll table ts = some b ∧ (b = true ↔ ∀ t ∈ ts, On table t) := by
  induction ts with
  | nil => exact ⟨true, rfl, by simp⟩
  | cons t ts ih =>
    obtain ⟨b, h1, h2⟩ := ih
    have ht : testBit table t = some (decide (On table t)) := by unfold testBit On; rw [if_neg h]
    by_cases ho : On table t
    · refine ⟨b, by simp only [testAll, ht, ho, decide_true, h1], ?_⟩
      rw [h2]; simp [ho]
    · refine ⟨false, by simp only [testAll, ht, ho, decide_false], ?_⟩
      simp [ho]

theorem testAndSetAll_some {table : List Byte} (h : table.length ≠ 0) (hit : Bool) (ts : List UInt64) :
    ∃ table' b, testAndSetAll table hit ts = some (table', b) ∧ setAll table ts = some table' ∧
      (b = true ↔ hit = true ∧ ∀ t ∈ ts, On table t) := by
  induction ts generalizing table hit with
  | nil => exact ⟨table, hit, rfl, rfl, by simp⟩
  | cons t ts ih =>
    obtain ⟨t1, a1, a2, a3, a4⟩ := setBit_some h t
    have ht : testBit table t = some (decide (On table t)) := by unfold testBit On; rw [if_neg h]
    obtain ⟨t2, b, b1, b2, b3⟩ := ih (table := t1) (by omega) (hit && decide (On table t))
    refine ⟨t2, b, by simp only [testAndSetAll, ht, a1, b1], by simp only [setAll, a1, b2], ?_⟩
    rw [b3]
    simp only [Bool.and_eq_true, decide_eq_true_eq, List.mem_cons, forall_eq_or_imp]
    constructor
    · rintro ⟨⟨x, y⟩, z⟩
      refine ⟨x, y, fun s hs => ?_⟩
      -- a bit that is on after setting `t` was on before, or is the bit of `t`, which was on
      have := z s hs
      unfold setBit at a1
      rw [if_neg h] at a1
      simp only [Option.some.injEq] at a1
      subst a1
      have hlt : ∀ s, index table.length s < table.length := fun s => Nat.mod_lt _ (by omega)
      unfold On at this y ⊢
      simp only [List.length_set] at this
      rw [List.getD_eq_getElem?_getD] at this
      by_cases e : index table.length t = index table.length s
      · rw [e, List.getElem?_set_self (hlt s), Option.getD_some] at this
        rw [e] at y
        intro hc
        apply this
        -- (a ||| mt) &&& ms = 0 when a &&& ms = 0 and a &&& mt ≠ 0: masks differ
        generalize table.getD (index table.length s) 0 = a at *
        have key : ∀ i j : Fin 8, ∀ a : Byte, a &&& ((1 : Byte) <<< UInt8.ofNat i.val) ≠ 0 →
            a &&& ((1 : Byte) <<< UInt8.ofNat j.val) = 0 →
            (a ||| ((1 : Byte) <<< UInt8.ofNat i.val)) &&& ((1 : Byte) <<< UInt8.ofNat j.val) = 0 := by
          intro i j a h1 h2
          by_cases hij : i = j
          · subst hij; exact absurd h2 h1
          · have hd : ((1 : Byte) <<< UInt8.ofNat i.val) &&& ((1 : Byte) <<< UInt8.ofNat j.val) = 0 := by
              revert hij; revert i j; intro i j _ _ hij
              have : ∀ i j : Fin 8, i ≠ j →
                  ((1 : Byte) <<< UInt8.ofNat i.val) &&& ((1 : Byte) <<< UInt8.ofNat j.val) = 0 := by decide
              exact this i j hij
            apply UInt8.eq_of_toBitVec_eq
            have e1 := congrArg UInt8.toBitVec h2
            have e2 := congrArg UInt8.toBitVec hd
            ext q hq
            have f1 := congrArg (fun v : BitVec 8 => v[q]) e1
            have f2 := congrArg (fun v : BitVec 8 => v[q]) e2
            simp only [UInt8.toBitVec_and, UInt8.toBitVec_or, BitVec.getElem_and, BitVec.getElem_or] at f1 f2 ⊢
            have z0 : (UInt8.toBitVec 0)[q] = false := by simp
            rw [z0] at f1 f2 ⊢
            revert f1 f2
            cases (a.toBitVec)[q]
            · simp
            · simp; intro h _; exact h
        have b7 : ∀ t : UInt64, (t &&& 7).toNat < 8 := by
          intro t
          have := Nat.and_le_right (n := t.toNat) (m := 7)
          rw [UInt64.toNat_and]
          exact Nat.lt_succ_of_le this
        exact key ⟨_, b7 t⟩ ⟨_, b7 s⟩ a y hc
      · rw [List.getElem?_set_ne e, ← List.getD_eq_getElem?_getD] at this; exact this
    · rintro ⟨x, y, z⟩
      exact ⟨⟨x, y⟩, fun s hs => a4 s (z s hs)⟩

theorem step_some (H : Key → Nat → UInt64 × UInt64) {f : Filter} (h : f.table.length ≠ 0) (op : Op Key) :
    ∃ f' b, step H f op = some (f', b) ∧ f'.table.length = f.table.length ∧ f'.k = f.k ∧
      ∀ s, On f.table s → On f'.table s := by
  cases op with
  | set key =>
    obtain ⟨t, a1, a2, a3, a4⟩ := setAll_some h (bitsOf H f.k key)
    exact ⟨{ f with table := t }, true, by simp only [step, a1, Option.map_some], a2, rfl, a4⟩
  | testAndSet key =>
    obtain ⟨t, b, a1, a2, a3⟩ := testAndSetAll_some h true (bitsOf H f.k key)
    obtain ⟨t', b1, b2, b3, b4⟩ := setAll_some h (bitsOf H f.k key)
    rw [a2] at b1; simp only [Option.some.injEq] at b1; subst b1
    exact ⟨{ f with table := t }, b, by simp only [step, a1, Option.map_some], b2, rfl, b4⟩
  | isSet key =>
    obtain ⟨b, h1, h2⟩ := testAll_eq h (bitsOf H f.k key)
    exact ⟨f, b, by simp only [step, h1, Option.map_some], rfl, rfl, fun s hs => hs⟩

theorem run_some (H : Key → Nat → UInt64 × UInt64) {f : Filter} (h : f.table.length ≠ 0) (ops : List (Op Key)) :
    ∃ f', run H f ops = some f' ∧ f'.table.length = f.table.length ∧ f'.k = f.k ∧
      ∀ s, On f.table s → On f'.table s := by
  induction ops generalizing f with
  | nil => exact ⟨f, rfl, rfl, rfl, fun s hs => hs⟩
  | cons op ops ih =>
    obtain ⟨f1, b, a1, a2, a3, a4⟩ := step_some H h op
    obtain ⟨f2, b1, b2, b3, b4⟩ := ih (f := f1) (by omega)
    exact ⟨f2, by simp only [run, a1, b1], by omega, by rw [b3, a3], fun s hs => b4 s (a4 s hs)⟩

/-! ### properties -/

/-- **C16.** For every hash function, every non-empty table with arbitrary initial contents, every
history before and after: a key that was `Set` (or `TestAndSet`) tests positive forever. -/
theorem c16_no_false_negatives (H : Key → Nat → UInt64 × UInt64) (f : Filter) (hf : f.table.length ≠ 0)
    (before after : List (Op Key)) (key : Key) (op : Op Key) (hop : op = .set key ∨ op = .testAndSet key) :
    ∃ f' : Filter, run H f (before ++ op :: after) = some f' ∧ step H f' (.isSet key) = some (f', true) := by
  have hsplit : ∀ (l1 l2 : List (Op Key)) (f : Filter),
      run H f (l1 ++ l2) = (run H f l1).bind (fun g => run H g l2) := by
    intro l1
    induction l1 with
    | nil => intro l2 f; rfl
    | cons a l1 ih =>
      intro l2 f
      simp only [List.cons_append, run]
      cases step H f a with
      | none => rfl
      | some r => exact ih l2 r.1
  obtain ⟨f1, a1, a2, a3, _⟩ := run_some H hf before
  have h1 : f1.table.length ≠ 0 := by omega
  have hset : ∃ f2 b, step H f1 op = some (f2, b) ∧ f2.table.length = f1.table.length ∧ f2.k = f1.k ∧
      ∀ t ∈ bitsOf H f1.k key, On f2.table t := by
    obtain ⟨t, b1, b2, b3, b4⟩ := setAll_some h1 (bitsOf H f1.k key)
    rcases hop with rfl | rfl
    · exact ⟨{ f1 with table := t }, true, by simp only [step, b1, Option.map_some], b2, rfl, b3⟩
    · obtain ⟨t', b, c1, c2, c3⟩ := testAndSetAll_some h1 true (bitsOf H f1.k key)
      rw [b1] at c2; simp only [Option.some.injEq] at c2; subst c2
      exact ⟨{ f1 with table := t }, b, by simp only [step, c1, Option.map_some], b2, rfl, b3⟩
  obtain ⟨f2, b, c1, c2, c3, c4⟩ := hset
  obtain ⟨f3, d1, d2, d3, d4⟩ := run_some H (f := f2) (by omega) after
  refine ⟨f3, ?_, ?_⟩
  · rw [hsplit, a1]; simp only [Option.bind_some, run, c1, d1]
  · obtain ⟨b', e1, e2⟩ := testAll_eq (table := f3.table) (by omega) (bitsOf H f3.k key)
    have : b' = true := e2.2 (fun t ht => d4 t (c4 t (by rw [d3, c3] at ht; exact ht)))
    subst this
    simp only [step, e1, Option.map_some]

/-- **C16, TestAndSet.** It returns exactly what `IsSet` would have returned just before, and leaves
the table `Set` would have left -- even when the key's bits coincide with each other. -/
theorem c16_test_and_set (H : Key → Nat → UInt64 × UInt64) (f : Filter) (hf : f.table.length ≠ 0) (key : Key) :
    ∃ (f' : Filter) (b : Bool), step H f (.testAndSet key) = some (f', b) ∧
      step H f (.isSet key) = some (f, b) ∧ step H f (.set key) = some (f', true) := by
  obtain ⟨t, b, a1, a2, a3⟩ := testAndSetAll_some hf true (bitsOf H f.k key)
  obtain ⟨b', e1, e2⟩ := testAll_eq hf (bitsOf H f.k key)
  have hb : b' = b := by
    have : b' = true ↔ b = true := by rw [e2, a3]; simp
    cases b <;> cases b' <;> simp_all
  subst hb
  exact ⟨{ f with table := t }, b', by simp only [step, a1, Option.map_some], by simp only [step, e1, Option.map_some],
    by simp only [step, a2, Option.map_some]⟩

/-- The filter is not cleared on construction: with an unlucky initial table everything tests
positive although nothing was ever added. -/
theorem uninitialised_false_positive (H : Key → Nat → UInt64 × UInt64) (size k : Nat) (hs : size ≠ 0) (key : Key) :
    ∃ f : Filter, f.table.length = size ∧ f.k = k ∧ step H f (.isSet key) = some (f, true) := by
  refine ⟨⟨List.replicate size 0xFF, k⟩, by simp, rfl, ?_⟩
  obtain ⟨b, e1, e2⟩ := testAll_eq (table := List.replicate size 0xFF) (by simpa using hs) (bitsOf H k key)
  have hb : b = true := by
    apply e2.2
    intro t _
    unfold On
    rw [List.length_replicate]
    have hlt : index size t < size := Nat.mod_lt _ (by omega)
    rw [List.getD_eq_getElem?_getD, List.getElem?_replicate, if_pos hlt, Option.getD_some]
    have : (0xFF : Byte) &&& mask t = mask t := by
      have key : ∀ b : Byte, (0xFF : Byte) &&& b = b := by
        intro b
        apply UInt8.eq_of_toBitVec_eq
        simp only [UInt8.toBitVec_and]
        exact BitVec.allOnes_and
      exact key _
    rw [this]; exact mask_ne t
  subst hb
  simp only [step, e1, Option.map_some]

/-- Non-vacuity: a 2-byte filter with a toy hash; key 5 is found after being set, key 6 is not. -/
example : let H : Nat → Nat → UInt64 × UInt64 := fun key i => (UInt64.ofNat (key * 3 + i), UInt64.ofNat (key + i))
    (run H ⟨[0, 0], 3⟩ [.set 5, .set 9]).bind (fun f => (step H f (.isSet 5)).map (·.2)) = some true ∧
    (run H ⟨[0, 0], 3⟩ [.set 5]).bind (fun f => (step H f (.isSet 6)).map (·.2)) = some false := by
  decide +kernel

end Ltio.Bloom
