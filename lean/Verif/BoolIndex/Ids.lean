/-
Model of components/boolean_indexer/id_generator.{h,cc} and property C12.

`uint64_t` values are naturals; every place where bits could be shifted out is reduced
modulo 2^64.  `uint8_t` parameters are naturals below 256 (hypotheses of the theorems), the
narrowing conversion at the call site is `u8`.
-/
namespace Ltio.BoolIndex

/-- `ConjUtil::GenConjID` (id_generator.cc:10-15): `doc` is `int64_t`.  A non-negative doc is
used as is; a negative one sets bit 43 over its absolute value. -/
def genConjID (doc : Int) (idx size : Nat) : Nat :=
  (size <<< 52) ||| (idx <<< 44) ||| (if doc < 0 then 2 ^ 43 ||| doc.natAbs else doc.toNat)

/-- `ConjUtil::GetDocumentID` (id_generator.cc:17-21). -/
def getDocumentID (conj : Nat) : Int :=
  if (conj >>> 43) &&& 1 ≠ 0 then - ((conj &&& 0x7FFFFFFFFFF : Nat) : Int)
  else ((conj &&& 0x7FFFFFFFFFF : Nat) : Int)

/-- `ConjUtil::GetIndexInDoc` (id_generator.cc:23-25). -/
def getIndexInDoc (conj : Nat) : Nat := (conj >>> 44) &&& 0xFF

/-- `ConjUtil::GetConjunctionSize` (id_generator.cc:27-29). -/
def getConjunctionSize (conj : Nat) : Nat := (conj >>> 52) &&& 0xFF

/-- `EntryUtil::GenEntryID` (id_generator.cc:32-35). -/
def genEntryID (conj : Nat) (exclude : Bool) : Nat :=
  if exclude then (conj <<< 4) % 2 ^ 64 else (conj <<< 4) % 2 ^ 64 ||| 1

/-- `EntryUtil::IsInclude` (id_generator.cc:37-39). -/
def isInclude (e : Nat) : Bool := decide (e &&& 1 > 0)

/-- `EntryUtil::GetConjunctionId` (id_generator.cc:45-47). -/
def entryConj (e : Nat) : Nat := e >>> 4

/-- `EntryUtil::GetDocID` (id_generator.cc:49-51). -/
def entryDoc (e : Nat) : Int := getDocumentID (entryConj e)

/-- `NULLENTRY` (id_generator.h:11). -/
def nullEntry : Nat := 2 ^ 64 - 1

/-! ### arithmetic form -/

theorem or_eq_add (a b i : Nat) (h : b < 2 ^ i) : (a <<< i) ||| b = a * 2 ^ i + b := by
  rw [← Nat.shiftLeft_add_eq_or_of_lt h, Nat.shiftLeft_eq]

/-- The low 44 bits: sign and absolute value. -/
def docBits (doc : Int) : Nat := (if doc < 0 then 2 ^ 43 else 0) + doc.natAbs

theorem docBits_lt {doc : Int} (h : doc.natAbs < 2 ^ 43) : docBits doc < 2 ^ 44 := by
  unfold docBits; split <;> omega

theorem genConjID_eq {doc : Int} {idx size : Nat} (hd : doc.natAbs < 2 ^ 43) (hi : idx < 256) :
    genConjID doc idx size = size * 2 ^ 52 + idx * 2 ^ 44 + docBits doc := by
  have hb : (if doc < 0 then 2 ^ 43 ||| doc.natAbs else doc.toNat) = docBits doc := by
    unfold docBits
    split
    · have := or_eq_add 1 doc.natAbs 43 hd
      simpa [Nat.shiftLeft_eq] using this
    · omega
  unfold genConjID
  rw [hb, Nat.or_assoc, or_eq_add idx _ 44 (docBits_lt hd)]
  rw [or_eq_add size _ 52 (by have := docBits_lt hd; omega)]
  omega

theorem getDocumentID_eq (c : Nat) : getDocumentID c =
    if c / 2 ^ 43 % 2 ≠ 0 then - ((c % 2 ^ 43 : Nat) : Int) else ((c % 2 ^ 43 : Nat) : Int) := by
  unfold getDocumentID
  rw [show (0x7FFFFFFFFFF : Nat) = 2 ^ 43 - 1 from rfl, Nat.and_two_pow_sub_one_eq_mod,
    show (1 : Nat) = 2 ^ 1 - 1 from rfl, Nat.and_two_pow_sub_one_eq_mod, Nat.shiftRight_eq_div_pow]

theorem getIndexInDoc_eq (c : Nat) : getIndexInDoc c = c / 2 ^ 44 % 256 := by
  unfold getIndexInDoc
  rw [show (0xFF : Nat) = 2 ^ 8 - 1 from rfl, Nat.and_two_pow_sub_one_eq_mod,
    Nat.shiftRight_eq_div_pow]

theorem getConjunctionSize_eq (c : Nat) : getConjunctionSize c = c / 2 ^ 52 % 256 := by
  unfold getConjunctionSize
  rw [show (0xFF : Nat) = 2 ^ 8 - 1 from rfl, Nat.and_two_pow_sub_one_eq_mod,
    Nat.shiftRight_eq_div_pow]

theorem genEntryID_eq {c : Nat} (hc : c < 2 ^ 60) (x : Bool) :
    genEntryID c x = c * 16 + (if x then 0 else 1) := by
  unfold genEntryID
  have h1 : (c <<< 4) % 2 ^ 64 = c * 16 := by
    rw [Nat.shiftLeft_eq]; omega
  rw [h1]
  cases x with
  | true => simp
  | false =>
    have := or_eq_add c 1 4 (by decide)
    rw [Nat.shiftLeft_eq] at this
    simpa using this

theorem isInclude_eq (e : Nat) : isInclude e = decide (e % 2 = 1) := by
  unfold isInclude
  rw [show (1 : Nat) = 2 ^ 1 - 1 from rfl, Nat.and_two_pow_sub_one_eq_mod]
  simp only [Nat.reduceSub, Nat.reducePow, decide_eq_decide]
  omega

theorem entryConj_eq (e : Nat) : entryConj e = e / 16 := by
  unfold entryConj; rw [Nat.shiftRight_eq_div_pow]

theorem genConjID_lt {doc : Int} {idx size : Nat} (hd : doc.natAbs < 2 ^ 43) (hi : idx < 256)
    (hs : size < 256) : genConjID doc idx size < 2 ^ 60 := by
  rw [genConjID_eq hd hi]
  have := docBits_lt hd
  omega

/-! ### C12 -/

/-- **C12 (round trip).**  Document id, index and size are recovered from the conjunction id. -/
theorem c12_conj_roundtrip {doc : Int} {idx size : Nat} (hd : doc.natAbs < 2 ^ 43)
    (hi : idx < 256) (hs : size < 256) :
    getDocumentID (genConjID doc idx size) = doc ∧
    getIndexInDoc (genConjID doc idx size) = idx ∧
    getConjunctionSize (genConjID doc idx size) = size := by
  rw [getDocumentID_eq, getIndexInDoc_eq, getConjunctionSize_eq, genConjID_eq hd hi]
  unfold docBits
  refine ⟨?_, ?_, ?_⟩
  · split <;> split at * <;> omega
  · split <;> omega
  · split <;> omega

/-- **C12 (injective).**  Different (document, index, size) triples get different ids. -/
theorem c12_conj_injective {d d' : Int} {i i' s s' : Nat} (hd : d.natAbs < 2 ^ 43)
    (hd' : d'.natAbs < 2 ^ 43) (hi : i < 256) (hi' : i' < 256) (hs : s < 256) (hs' : s' < 256)
    (h : genConjID d i s = genConjID d' i' s') : d = d' ∧ i = i' ∧ s = s' := by
  obtain ⟨a1, a2, a3⟩ := c12_conj_roundtrip hd hi hs
  obtain ⟨b1, b2, b3⟩ := c12_conj_roundtrip hd' hi' hs'
  rw [h] at a1 a2 a3
  exact ⟨by rw [← a1, b1], by rw [← a2, b2], by rw [← a3, b3]⟩

/-- **C12 (order).**  Ids compare by size first. -/
theorem c12_size_major {d d' : Int} {i i' s s' : Nat} (hd : d.natAbs < 2 ^ 43)
    (hd' : d'.natAbs < 2 ^ 43) (hi : i < 256) (hi' : i' < 256) (h : s < s') :
    genConjID d i s < genConjID d' i' s' := by
  rw [genConjID_eq hd hi, genConjID_eq hd' hi']
  have := docBits_lt hd
  omega

/-- **C12 (entries).**  An entry id recovers its conjunction, document and polarity; entry ids
preserve the order of conjunctions; within a conjunction exclude precedes include with nothing
in between; no entry id is the end marker. -/
theorem c12_entries {c c' : Nat} (hc : c < 2 ^ 60) (hc' : c' < 2 ^ 60) (x y : Bool) :
    entryConj (genEntryID c x) = c ∧ isInclude (genEntryID c x) = !x ∧
    entryDoc (genEntryID c x) = getDocumentID c ∧
    (c < c' → genEntryID c x < genEntryID c' y) ∧
    genEntryID c false = genEntryID c true + 1 ∧
    genEntryID c x < nullEntry := by
  have h1 : entryConj (genEntryID c x) = c := by
    rw [entryConj_eq, genEntryID_eq hc]; cases x <;> simp <;> omega
  refine ⟨h1, ?_, by unfold entryDoc; rw [h1], ?_, ?_, ?_⟩
  · rw [isInclude_eq, genEntryID_eq hc]; cases x <;> simp <;> omega
  · intro h; rw [genEntryID_eq hc, genEntryID_eq hc']; cases x <;> cases y <;> simp <;> omega
  · rw [genEntryID_eq hc, genEntryID_eq hc]; simp
  · rw [genEntryID_eq hc]; unfold nullEntry; cases x <;> simp <;> omega

/-- The documented range is needed: document 2^43 is reported as document 0 (with the sign bit). -/
theorem c12_out_of_range : getDocumentID (genConjID (2 ^ 43) 0 1) = 0 := by decide

example : genConjID (-5) 3 2 = 2 * 2 ^ 52 + 3 * 2 ^ 44 + 2 ^ 43 + 5 ∧
    getDocumentID (genConjID (-5) 3 2) = -5 ∧ genConjID 7 255 1 < genConjID 1 0 2 := by decide

end Ltio.BoolIndex
