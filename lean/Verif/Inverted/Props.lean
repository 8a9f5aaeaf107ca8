import Verif.Inverted.Model
import Mathlib.Tactic.ByContra

/-
C54: a query of the inverted index returns exactly the matching documents.
-/
namespace Ltio.Inv
open Ltio.Text

/-! ### Bitmaps -/

/-- Bit `i` of a bitmap. -/
def bit (b : Bitmap) (i : Nat) : Bool := (b.words.getD (i / 64) 0#64).getLsbD (63 - i % 64)

theorem isBitSet_eq (b : Bitmap) {i : Nat} (h : i < b.words.length * 64) : b.isBitSet i = some (bit b i) := by
  unfold Bitmap.isBitSet bit
  rw [if_pos h]
  generalize b.words.getD (i / 64) 0#64 = w
  generalize hk : 63 - i % 64 = k
  have hk : k < 64 := by omega
  congr 1
  rw [Bool.eq_iff_iff, bne_iff_ne]
  constructor
  · intro hne
    by_contra hb
    apply hne
    apply BitVec.eq_of_getLsbD_eq
    intro j hj
    rw [BitVec.getLsbD_and, BitVec.getLsbD_shiftLeft, BitVec.getLsbD_one, BitVec.getLsbD_zero]
    by_cases hjk : j = k
    · subst hjk; simp [hb]
    · simp only [Bool.and_eq_false_iff, decide_eq_false_iff_not, Bool.not_eq_false', decide_eq_true_eq]
      by_cases hlt : j < k
      · exact Or.inr (Or.inl (Or.inr hlt))
      · exact Or.inr (Or.inr (Or.inr (by omega)))
  · intro hb he
    have := congrArg (·.getLsbD k) he
    simp only [BitVec.getLsbD_and, BitVec.getLsbD_shiftLeft, BitVec.getLsbD_one, BitVec.getLsbD_zero, hb] at this
    simp [hk] at this

theorem isBitSet_none (b : Bitmap) {i : Nat} (h : b.words.length * 64 ≤ i) : b.isBitSet i = none := by
  unfold Bitmap.isBitSet
  rw [if_neg (by omega)]

theorem setBit_spec {b b' : Bitmap} {i : Nat} (h : b.setBit i = some b') :
    b'.words.length = b.words.length ∧ b'.bitCount = b.bitCount ∧ b'.idCount = b.idCount ∧
    ∀ j, bit b' j = (bit b j || decide (j = i)) := by
  unfold Bitmap.setBit at h
  split at h
  · rename_i hi
    simp only [Option.some.injEq] at h; subst h
    refine ⟨by simp, rfl, rfl, fun j => ?_⟩
    unfold bit
    simp only [List.getD_eq_getElem?_getD, List.getElem?_set]
    have hlt : i / 64 < b.words.length := by omega
    by_cases hw : i / 64 = j / 64
    · rw [if_pos hw, if_pos hlt]
      simp only [Option.getD_some]
      rw [BitVec.getLsbD_or, BitVec.getLsbD_shiftLeft, BitVec.getLsbD_one, hw]
      congr 1
      rw [Bool.eq_iff_iff]
      simp only [Bool.and_eq_true, decide_eq_true_eq, Bool.not_eq_true', decide_eq_false_iff_not]
      omega
    · rw [if_neg hw]
      have : j ≠ i := fun e => hw (by rw [e])
      simp [this]
  · simp at h

theorem setBit_ok (b : Bitmap) {i : Nat} (h : i < b.words.length * 64) : ∃ b', b.setBit i = some b' := by
  unfold Bitmap.setBit; rw [if_pos h]; exact ⟨_, rfl⟩

theorem zipPre_length (f : BitVec 64 → BitVec 64 → BitVec 64) : ∀ a b, (zipPre f a b).length = a.length
  | [], _ => rfl
  | _ :: _, [] => rfl
  | x :: xs, y :: ys => by simp [zipPre, zipPre_length f xs ys]

theorem zipPre_getD (f : BitVec 64 → BitVec 64 → BitVec 64) (hf : ∀ x, f x 0#64 = x) :
    ∀ (a b : List (BitVec 64)) (k : Nat), k < a.length →
      (zipPre f a b).getD k 0#64 = f (a.getD k 0#64) (b.getD k 0#64)
  | [], _, k, h => by simp at h
  | x :: xs, [], k, _ => by simp [zipPre, hf]
  | x :: xs, y :: ys, 0, _ => by simp [zipPre]
  | x :: xs, y :: ys, k + 1, h => by
    simp only [zipPre, List.getD_cons_succ]
    exact zipPre_getD f hf xs ys k (by simpa using h)

theorem zipPre_getD_same (f : BitVec 64 → BitVec 64 → BitVec 64) :
    ∀ (a b : List (BitVec 64)) (k : Nat), a.length = b.length → k < a.length →
      (zipPre f a b).getD k 0#64 = f (a.getD k 0#64) (b.getD k 0#64)
  | [], _, k, _, h => by simp at h
  | x :: xs, [], k, h, _ => by simp at h
  | x :: xs, y :: ys, 0, _, _ => by simp [zipPre]
  | x :: xs, y :: ys, k + 1, hl, h => by
    simp only [zipPre, List.getD_cons_succ]
    exact zipPre_getD_same f xs ys k (by simpa using hl) (by simpa using h)

theorem union_spec (a b : Bitmap) {i : Nat} (h : i < a.words.length * 64) :
    bit (a.union b) i = (bit a i || bit b i) := by
  unfold bit Bitmap.union
  rw [zipPre_getD _ (by intro x; simp) _ _ _ (by omega), BitVec.getLsbD_or]

theorem substract_spec (a b : Bitmap) {i : Nat} (h : i < a.words.length * 64) :
    bit (a.substract b) i = (bit a i && !bit b i) := by
  unfold bit Bitmap.substract
  rw [zipPre_getD _ (by intro x; rw [BitVec.not_zero]; exact BitVec.and_allOnes) _ _ _ (by omega), BitVec.getLsbD_and, BitVec.getLsbD_not]
  have : 63 - i % 64 < 64 := by omega
  simp [this]

theorem intersect_words (a b : Bitmap) (h : a.words.length = b.words.length) :
    (a.intersect b).words = zipPre (· &&& ·) a.words b.words := by
  unfold Bitmap.intersect
  simp only
  rw [List.take_of_length_le (by rw [zipPre_length]; omega), List.drop_of_length_le (by omega)]
  simp [clearBytes]

theorem intersect_spec (a b : Bitmap) (hl : a.words.length = b.words.length) {i : Nat} (h : i < a.words.length * 64) :
    bit (a.intersect b) i = (bit a i && bit b i) := by
  unfold bit
  rw [intersect_words a b hl, zipPre_getD_same _ _ _ _ hl (by omega), BitVec.getLsbD_and]

/-- Same shape. -/
def Shape (a b : Bitmap) : Prop := a.words.length = b.words.length ∧ a.bitCount = b.bitCount

theorem shape_union (a b : Bitmap) : Shape (a.union b) a := ⟨zipPre_length _ _ _, rfl⟩
theorem shape_substract (a b : Bitmap) : Shape (a.substract b) a := ⟨zipPre_length _ _ _, rfl⟩
theorem shape_intersect (a b : Bitmap) (h : a.words.length = b.words.length) : Shape (a.intersect b) a :=
  ⟨by rw [intersect_words a b h, zipPre_length], rfl⟩
theorem shape_reset (a : Bitmap) : Shape a.reset a := ⟨by simp [Bitmap.reset], rfl⟩
theorem Shape.trans {a b c : Bitmap} (h : Shape a b) (h' : Shape b c) : Shape a c := ⟨h.1.trans h'.1, h.2.trans h'.2⟩

theorem bit_reset (a : Bitmap) (i : Nat) : bit a.reset i = false := by
  unfold bit Bitmap.reset
  simp only [List.getD_eq_getElem?_getD, List.getElem?_map]
  cases a.words[i / 64]? <;> simp

theorem unionAll_spec : ∀ (l : List Bitmap) (g : Bitmap), Shape (unionAll g l) g ∧
    ∀ i, i < g.words.length * 64 → bit (unionAll g l) i = (bit g i || l.any (fun b => bit b i))
  | [], g => ⟨⟨rfl, rfl⟩, by simp [unionAll]⟩
  | b :: l, g => by
    obtain ⟨h1, h2⟩ := unionAll_spec l (g.union b)
    have hs := shape_union g b
    refine ⟨h1.trans hs, fun i hi => ?_⟩
    have : unionAll g (b :: l) = unionAll (g.union b) l := rfl
    rw [this, h2 i (by rw [hs.1]; exact hi), union_spec g b hi, List.any_cons, Bool.or_assoc]

theorem substractAll_spec : ∀ (l : List Bitmap) (g : Bitmap), Shape (substractAll g l) g ∧
    ∀ i, i < g.words.length * 64 → bit (substractAll g l) i = (bit g i && !l.any (fun b => bit b i))
  | [], g => ⟨⟨rfl, rfl⟩, by simp [substractAll]⟩
  | b :: l, g => by
    obtain ⟨h1, h2⟩ := substractAll_spec l (g.substract b)
    have hs := shape_substract g b
    refine ⟨h1.trans hs, fun i hi => ?_⟩
    have : substractAll g (b :: l) = substractAll (g.substract b) l := rfl
    rw [this, h2 i (by rw [hs.1]; exact hi), substract_spec g b hi, List.any_cons, Bool.not_or, Bool.and_assoc]

theorem bit_new_zero (n m i : Nat) : bit (Bitmap.new n m 0#64) i = false := by
  unfold bit Bitmap.new
  simp only [List.getD_eq_getElem?_getD, List.getElem?_replicate]
  split <;> simp

theorem bit_new_ones (n m i : Nat) (h : i < n) : bit (Bitmap.new n m (BitVec.allOnes 64)) i = true := by
  unfold bit Bitmap.new
  simp only [List.getD_eq_getElem?_getD, List.getElem?_replicate]
  rw [if_pos (by omega), Option.getD_some, BitVec.getLsbD_allOnes]
  simp; omega

theorem setAll_spec : ∀ (is : List Nat) (b : Bitmap), (∀ i ∈ is, i < b.words.length * 64) →
    ∃ b', setAll b is = some b' ∧ b'.words.length = b.words.length ∧ b'.bitCount = b.bitCount ∧
      b'.idCount = b.idCount ∧ ∀ j, bit b' j = (bit b j || decide (j ∈ is))
  | [], b, _ => ⟨b, rfl, rfl, rfl, rfl, by simp⟩
  | i :: is, b, h => by
    obtain ⟨b1, e1⟩ := setBit_ok b (h i (by simp))
    obtain ⟨l1, c1, d1, s1⟩ := setBit_spec e1
    obtain ⟨b2, e2, l2, c2, d2, s2⟩ := setAll_spec is b1 (fun j hj => by rw [l1]; exact h j (by simp [hj]))
    refine ⟨b2, by simp [setAll, e1, e2], l2.trans l1, c2.trans c1, d2.trans d1, fun j => ?_⟩
    rw [s2, s1, Bool.or_assoc]
    congr 1
    rw [Bool.eq_iff_iff]; simp

/-! ### Reading a bitmap -/

theorem collect_spec (sorted : List Int) (b : Bitmap) : ∀ (is : List Nat),
    (∀ r, collect sorted b is = some r → (∀ i ∈ is, i < b.words.length * 64) ∧
      ∀ id, id ∈ r ↔ ∃ i ∈ is, bit b i = true ∧ sorted[i]? = some id) ∧
    ((∀ i ∈ is, i < b.words.length * 64) → ∃ r, collect sorted b is = some r)
  | [] => ⟨fun r h => by simp [collect] at h; subst h; simp, fun _ => ⟨[], rfl⟩⟩
  | i :: is => by
    obtain ⟨ih1, ih2⟩ := collect_spec sorted b is
    constructor
    · intro r h
      by_cases hi : i < b.words.length * 64
      · simp only [collect, isBitSet_eq b hi, Option.bind_some, Option.map_eq_some_iff] at h
        obtain ⟨r', hr', h⟩ := h
        obtain ⟨a1, a2⟩ := ih1 r' hr'
        refine ⟨fun j hj => ?_, fun id => ?_⟩
        · rcases List.mem_cons.1 hj with rfl | hj
          · exact hi
          · exact a1 j hj
        · subst h
          simp only [List.mem_cons, exists_eq_or_imp, ← a2 id]
          cases hb : bit b i with
          | false => simp
          | true =>
            cases hs : sorted[i]? with
            | none => simp
            | some x => simp [eq_comm]
      · simp [collect, isBitSet_none b (Nat.le_of_not_lt hi)] at h
    · intro h
      obtain ⟨r, hr⟩ := ih2 (fun j hj => h j (by simp [hj]))
      simp only [collect, isBitSet_eq b (h i (by simp)), Option.bind_some, hr, Option.map_some]
      exact ⟨_, rfl⟩

theorem getIds_some {sorted : List Int} {b : Bitmap} {r : List Int} (h : getIds sorted (some b) = some r) :
    b.bitCount < b.words.length * 64 ∧
    ∀ id, id ∈ r ↔ ∃ i, i ≤ b.bitCount ∧ bit b i = true ∧ sorted[i]? = some id := by
  obtain ⟨h1, h2⟩ := (collect_spec sorted b (List.range (b.bitCount + 1))).1 r h
  refine ⟨h1 _ (by simp), fun id => ?_⟩
  rw [h2]
  simp only [List.mem_range, Nat.lt_succ_iff]

theorem getIds_ok {sorted : List Int} {b : Bitmap} (h : b.bitCount < b.words.length * 64) :
    ∃ r, getIds sorted (some b) = some r :=
  (collect_spec sorted b (List.range (b.bitCount + 1))).2 (fun i hi => by simp at hi; omega)

theorem getIds_none {sorted : List Int} {b : Bitmap} (h : b.words.length * 64 ≤ b.bitCount) :
    getIds sorted (some b) = none := by
  rcases hg : getIds sorted (some b) with _ | r
  · rfl
  · have := (getIds_some hg).1; omega

/-! ### Ordered sets of ids -/

theorem mem_insId (a x : Int) : ∀ l, x ∈ insId a l ↔ x = a ∨ x ∈ l
  | [] => by simp [insId]
  | y :: l => by
    unfold insId
    split
    · simp
    · split
      · rename_i h; subst h; simp
      · simp only [List.mem_cons, mem_insId a x l]; tauto

theorem insId_sorted (a : Int) : ∀ l, List.Pairwise (· < ·) l → List.Pairwise (· < ·) (insId a l)
  | [], _ => by simp [insId]
  | y :: l, h => by
    have h' := List.pairwise_cons.1 h
    unfold insId
    split
    · rename_i hlt
      refine List.pairwise_cons.2 ⟨fun z hz => ?_, h⟩
      rcases List.mem_cons.1 hz with rfl | hz
      · exact hlt
      · exact lt_trans hlt (h'.1 z hz)
    · split
      · exact h
      · rename_i h1 h2
        refine List.pairwise_cons.2 ⟨fun z hz => ?_, insId_sorted a l h'.2⟩
        rcases (mem_insId a z l).1 hz with rfl | hz
        · omega
        · exact h'.1 z hz

theorem allIds_spec (docs : List Doc) :
    List.Pairwise (· < ·) (allIds docs) ∧ ∀ id, id ∈ allIds docs ↔ ∃ d ∈ docs, d.id = id := by
  have key : ∀ (docs : List Doc) (s : List Int), List.Pairwise (· < ·) s →
      List.Pairwise (· < ·) (docs.foldl (fun s d => insId d.id s) s) ∧
      ∀ id, id ∈ docs.foldl (fun s d => insId d.id s) s ↔ id ∈ s ∨ ∃ d ∈ docs, d.id = id := by
    intro docs
    induction docs with
    | nil => intro s hs; exact ⟨hs, by simp⟩
    | cons d ds ih =>
      intro s hs
      obtain ⟨h1, h2⟩ := ih (insId d.id s) (insId_sorted _ _ hs)
      refine ⟨h1, fun id => ?_⟩
      rw [List.foldl_cons, h2, mem_insId]
      simp only [List.mem_cons, exists_eq_or_imp]
      constructor
      · rintro ((h | h) | h)
        · exact Or.inr (Or.inl h.symm)
        · exact Or.inl h
        · exact Or.inr (Or.inr h)
      · rintro (h | h | h)
        · exact Or.inl (Or.inr h)
        · exact Or.inl (Or.inl h.symm)
        · exact Or.inr h
  have := key docs [] List.Pairwise.nil
  refine ⟨this.1, fun id => ?_⟩
  rw [show allIds docs = docs.foldl (fun s d => insId d.id s) [] from rfl, this.2]; simp

/-! ### Bitmaps of sets of ids -/

theorem idxOf_mono {sorted : List Int} (hs : List.Pairwise (· < ·) sorted) {a b : Int} (ha : a ∈ sorted)
    (hb : b ∈ sorted) (h : a ≤ b) : sorted.idxOf a ≤ sorted.idxOf b := by
  by_contra hc
  have hla := List.idxOf_lt_length_iff.2 ha
  have hlb := List.idxOf_lt_length_iff.2 hb
  have := List.pairwise_iff_getElem.1 hs (sorted.idxOf b) (sorted.idxOf a) hlb hla (by omega)
  rw [List.getElem_idxOf, List.getElem_idxOf] at this
  omega

/-- A bitmap is that of a set of ids. -/
def Holds (sorted ids : List Int) (b : Bitmap) : Prop :=
  b.idCount = ids.length ∧ b.bitCount = sorted.idxOf (ids.getLastD 0) + 1 ∧
  b.words.length = (b.bitCount + 63) / 64 ∧
  ∀ i, bit b i = true ↔ ∃ id ∈ ids, sorted[i]? = some id

theorem bitmapFor_spec {sorted ids : List Int} (hs : List.Pairwise (· < ·) sorted) (hi : List.Pairwise (· < ·) ids)
    (hsub : ∀ id ∈ ids, id ∈ sorted) : ∃ b, bitmapFor sorted ids = some b ∧ Holds sorted ids b := by
  unfold bitmapFor
  rw [if_pos hsub]
  have hmax : ∀ id ∈ ids, sorted.idxOf id ≤ sorted.idxOf (ids.getLastD 0) := by
    intro id hid
    have hne : ids ≠ [] := List.ne_nil_of_mem hid
    have hl : ids.getLastD 0 = ids.getLast hne := by
      rw [List.getLastD_eq_getLast?, List.getLast?_eq_getLast_of_ne_nil hne]; rfl
    rw [hl]
    refine idxOf_mono hs (hsub id hid) (hsub _ (List.getLast_mem hne)) ?_
    obtain ⟨k, hk, rfl⟩ := List.getElem_of_mem hid
    rw [List.getLast_eq_getElem]
    rcases Nat.lt_or_ge k (ids.length - 1) with h | h
    · exact le_of_lt (List.pairwise_iff_getElem.1 hi _ _ hk (by omega) h)
    · have : k = ids.length - 1 := by omega
      subst this; exact le_refl _
  obtain ⟨b, e, l, c, d, s⟩ := setAll_spec (ids.map sorted.idxOf)
    (Bitmap.new (sorted.idxOf (ids.getLastD 0) + 1) ids.length 0#64) (by
      intro i hi
      obtain ⟨id, hid, rfl⟩ := List.mem_map.1 hi
      have := hmax id hid
      simp only [Bitmap.new, List.length_replicate]
      omega)
  refine ⟨b, e, d, c, ?_, fun i => ?_⟩
  · rw [l, c]; simp [Bitmap.new]
  · rw [s, bit_new_zero]
    simp only [Bool.false_or, decide_eq_true_eq, List.mem_map]
    constructor
    · rintro ⟨id, hid, rfl⟩
      exact ⟨id, hid, List.getElem?_idxOf (hsub id hid)⟩
    · rintro ⟨id, hid, he⟩
      refine ⟨id, hid, ?_⟩
      have hn : sorted.Nodup := hs.imp (fun h => ne_of_lt h)
      obtain ⟨hlt, he⟩ := List.getElem?_eq_some_iff.1 he
      have h2 := List.getElem_idxOf (List.idxOf_lt_length_iff.2 (hsub id hid))
      exact (List.Nodup.getElem_inj_iff hn).1 (h2.trans he.symm)

end Ltio.Inv
