import Verif.Hash.CrcTab
import Verif.Hash.Sha1
import Mathlib.Data.List.Induction

/-
thirdparty/hash/crc.{h,cpp}: the table-driven CRCs, against the shift registers they stand for.

The loops over `[buf, buf + siz)` are folds over the bytes; table indices are `uint8_t`, so always
inside the 256 entries.
-/
namespace Ltio.Hash.Crc

/-! ### Specification: the CRC shift registers, bit by bit -/
namespace Spec

/-- One message bit into a register that shifts towards its most significant bit. -/
def msbStep (poly : BitVec w) (r : BitVec w) (bit : Bool) : BitVec w :=
  (r <<< 1) ^^^ (if r.msb ^^ bit then poly else 0#w)

/-- One message bit into a register that shifts towards its least significant bit. -/
def lsbStep (poly : BitVec w) (r : BitVec w) (bit : Bool) : BitVec w :=
  (r >>> 1) ^^^ (if r.getLsbD 0 ^^ bit then poly else 0#w)

/-- The bits of an octet, most significant first. -/
def msbBits (b : UInt8) : List Bool := [7, 6, 5, 4, 3, 2, 1, 0].map b.toBitVec.getLsbD

/-- The bits of an octet, least significant first. -/
def lsbBits (b : UInt8) : List Bool := [0, 1, 2, 3, 4, 5, 6, 7].map b.toBitVec.getLsbD

/-- The register after a message, most significant bits first. -/
def crcMsb (poly : BitVec w) (r : BitVec w) (m : List UInt8) : BitVec w :=
  (m.flatMap msbBits).foldl (msbStep poly) r

/-- The register after a message, least significant bits first. -/
def crcLsb (poly : BitVec w) (r : BitVec w) (m : List UInt8) : BitVec w :=
  (m.flatMap lsbBits).foldl (lsbStep poly) r

end Spec

/-! ### The code -/

/-- One turn of the loop of `_DECLARE_CRC_FUNC_` (crc.cpp:338) and of `crc64` (382). -/
def upd (w : Nat) (tab : List Nat) (code : BitVec w) (b : UInt8) : BitVec w :=
  BitVec.ofNat w (tab.getD ((code.truncate 8 ^^^ b.toBitVec).toNat) 0) ^^^ (code >>> 8)

/-- The functions of `_DECLARE_CRC_FUNC_` (crc.cpp:332-340). -/
def crc (w : Nat) (tab : List Nat) (start : BitVec w) (buf : List UInt8) : BitVec w := buf.foldl (upd w tab) start

/-- `crc8_atm` (crc.cpp:342). -/
def crc8Atm (start : BitVec 32) (buf : List UInt8) : BitVec 32 := crc 32 crc8AtmTable start buf
/-- `crc16_ansi` (crc.cpp:343). -/
def crc16Ansi (start : BitVec 32) (buf : List UInt8) : BitVec 32 := crc 32 crc16AnsiTable start buf
/-- `crc16_ccitt` (crc.cpp:344). -/
def crc16Ccitt (start : BitVec 32) (buf : List UInt8) : BitVec 32 := crc 32 crc16CcittTable start buf
/-- `crc32_ieee` (crc.cpp:345). -/
def crc32Ieee (start : BitVec 32) (buf : List UInt8) : BitVec 32 := crc 32 crc32IeeeTable start buf
/-- `crc32_ieee_le` (crc.cpp:346). -/
def crc32IeeeLe (start : BitVec 32) (buf : List UInt8) : BitVec 32 := crc 32 crc32IeeeLeTable start buf
/-- `crc64` (crc.cpp:378-385). -/
def crc64 (start : BitVec 64) (buf : List UInt8) : BitVec 64 := crc 64 crc64Tab start buf

/-- One turn of the loop of `crc32_ieee_le_rev` (crc.cpp:372-373). -/
def revStep (code : BitVec 32) (b : UInt8) : BitVec 32 :=
  ((BitVec.ofNat 32 (crc32IeeeLeTable.getD (crc32IeeeLeRevTable.getD (code >>> 24).toNat 0) 0) ^^^ code) <<< 8) |||
    (BitVec.ofNat 32 (crc32IeeeLeRevTable.getD (code >>> 24).toNat 0) ^^^ b.toBitVec.zeroExtend 32)

/-- `crc32_ieee_le_rev` (crc.cpp:368-376): from the last byte to the first. -/
def crc32IeeeLeRev (e : BitVec 32) (buf : List UInt8) : BitVec 32 := buf.reverse.foldl revStep e

/-! ### Pieces -/

/-- **C111 (a message in pieces)**: feeding the result for one block as the start of the next gives the
CRC of the concatenation, for each of the six functions. -/
theorem c111_blocks (w : Nat) (tab : List Nat) (start : BitVec w) (a b : List UInt8) :
    crc w tab (crc w tab start a) b = crc w tab start (a ++ b) := by
  unfold crc
  rw [List.foldl_append]

/-! ### Linearity of the registers -/

theorem byte_self (b : BitVec 8) : BitVec.ofNat 8 b.toNat = b := by
  apply BitVec.eq_of_toNat_eq
  rw [BitVec.toNat_ofNat, Nat.mod_eq_of_lt b.isLt]

theorem ite_xor (p : BitVec w) (x y : Bool) :
    (if x ^^ y then p else 0#w) = (if x then p else 0#w) ^^^ (if y then p else 0#w) := by
  cases x <;> cases y <;> simp

theorem msbStep_lin (p r s : BitVec w) (x y : Bool) :
    Spec.msbStep p (r ^^^ s) (x ^^ y) = Spec.msbStep p r x ^^^ Spec.msbStep p s y := by
  unfold Spec.msbStep
  rw [BitVec.shiftLeft_xor_distrib, BitVec.msb_xor]
  have e : (r.msb ^^ s.msb ^^ (x ^^ y)) = ((r.msb ^^ x) ^^ (s.msb ^^ y)) := by
    cases r.msb <;> cases s.msb <;> cases x <;> cases y <;> rfl
  rw [e, ite_xor]
  ac_rfl

theorem lsbStep_lin (p r s : BitVec w) (x y : Bool) :
    Spec.lsbStep p (r ^^^ s) (x ^^ y) = Spec.lsbStep p r x ^^^ Spec.lsbStep p s y := by
  unfold Spec.lsbStep
  rw [BitVec.ushiftRight_xor_distrib, BitVec.getLsbD_xor]
  have e : (r.getLsbD 0 ^^ s.getLsbD 0 ^^ (x ^^ y)) = ((r.getLsbD 0 ^^ x) ^^ (s.getLsbD 0 ^^ y)) := by
    cases r.getLsbD 0 <;> cases s.getLsbD 0 <;> cases x <;> cases y <;> rfl
  rw [e, ite_xor]
  ac_rfl

/-- Eight steps, most significant bit of the octet first. -/
def msb8 (p r : BitVec w) (b : BitVec 8) : BitVec w :=
  [7, 6, 5, 4, 3, 2, 1, 0].foldl (fun r i => Spec.msbStep p r (b.getLsbD i)) r

/-- Eight steps, least significant bit of the octet first. -/
def lsb8 (p r : BitVec w) (b : BitVec 8) : BitVec w :=
  [0, 1, 2, 3, 4, 5, 6, 7].foldl (fun r i => Spec.lsbStep p r (b.getLsbD i)) r

theorem msbFold_lin (p : BitVec w) (l : List Nat) (r s : BitVec w) (b c : BitVec 8) :
    l.foldl (fun r i => Spec.msbStep p r ((b ^^^ c).getLsbD i)) (r ^^^ s) =
      l.foldl (fun r i => Spec.msbStep p r (b.getLsbD i)) r ^^^
      l.foldl (fun r i => Spec.msbStep p r (c.getLsbD i)) s := by
  induction l generalizing r s with
  | nil => rfl
  | cons i l ih => simp only [List.foldl_cons]; rw [BitVec.getLsbD_xor, msbStep_lin, ih]

theorem lsbFold_lin (p : BitVec w) (l : List Nat) (r s : BitVec w) (b c : BitVec 8) :
    l.foldl (fun r i => Spec.lsbStep p r ((b ^^^ c).getLsbD i)) (r ^^^ s) =
      l.foldl (fun r i => Spec.lsbStep p r (b.getLsbD i)) r ^^^
      l.foldl (fun r i => Spec.lsbStep p r (c.getLsbD i)) s := by
  induction l generalizing r s with
  | nil => rfl
  | cons i l ih => simp only [List.foldl_cons]; rw [BitVec.getLsbD_xor, lsbStep_lin, ih]

theorem crcMsb_cons (p r : BitVec w) (b : UInt8) (m : List UInt8) :
    Spec.crcMsb p r (b :: m) = Spec.crcMsb p (msb8 p r b.toBitVec) m := by
  unfold Spec.crcMsb
  rw [List.flatMap_cons, List.foldl_append]
  rfl

theorem crcLsb_cons (p r : BitVec w) (b : UInt8) (m : List UInt8) :
    Spec.crcLsb p r (b :: m) = Spec.crcLsb p (lsb8 p r b.toBitVec) m := by
  unfold Spec.crcLsb
  rw [List.flatMap_cons, List.foldl_append]
  rfl

/-- A step without message bit on a register whose outgoing bit is 0 is a shift. -/
theorem msbStep_shift (p r : BitVec w) (h : r.msb = false) : Spec.msbStep p r false = r <<< 1 := by
  unfold Spec.msbStep; rw [h]; simp

theorem lsbStep_shift (p r : BitVec w) (h : r.getLsbD 0 = false) : Spec.lsbStep p r false = r >>> 1 := by
  unfold Spec.lsbStep; rw [h]; simp

theorem lsb8_high (p r : BitVec w) (h : ∀ i < 8, r.getLsbD i = false) : lsb8 p r 0#8 = r >>> 8 := by
  unfold lsb8
  simp only [List.foldl_cons, List.foldl_nil, BitVec.getLsbD_zero]
  have hk : ∀ k < 8, (r >>> k).getLsbD 0 = false := by
    intro k hk; rw [BitVec.getLsbD_ushiftRight]; exact h _ (by omega)
  have e : ∀ k : Nat, (r >>> k) >>> 1 = r >>> (k + 1) := fun k => (BitVec.shiftRight_add r k 1).symm
  rw [lsbStep_shift _ r (h 0 (by omega)), lsbStep_shift _ _ (hk 1 (by omega)), e, lsbStep_shift _ _ (hk 2 (by omega)), e,
    lsbStep_shift _ _ (hk 3 (by omega)), e, lsbStep_shift _ _ (hk 4 (by omega)), e, lsbStep_shift _ _ (hk 5 (by omega)), e,
    lsbStep_shift _ _ (hk 6 (by omega)), e, lsbStep_shift _ _ (hk 7 (by omega)), e]

theorem msb8_low (p r : BitVec w) (hw : 8 ≤ w) (h : ∀ i, w - 8 ≤ i → r.getLsbD i = false) : msb8 p r 0#8 = r <<< 8 := by
  unfold msb8
  simp only [List.foldl_cons, List.foldl_nil, BitVec.getLsbD_zero]
  have hk : ∀ k < 8, (r <<< k).msb = false := by
    intro k hk
    rw [BitVec.msb_eq_getLsbD_last, BitVec.getLsbD_shiftLeft]
    rw [h _ (by omega)]
    simp
  have h0 : r.msb = false := by rw [BitVec.msb_eq_getLsbD_last]; exact h _ (by omega)
  have e : ∀ k : Nat, (r <<< k) <<< 1 = r <<< (k + 1) := fun k => (BitVec.shiftLeft_add r k 1).symm
  rw [msbStep_shift _ r h0, msbStep_shift _ _ (hk 1 (by omega)), e, msbStep_shift _ _ (hk 2 (by omega)), e,
    msbStep_shift _ _ (hk 3 (by omega)), e, msbStep_shift _ _ (hk 4 (by omega)), e, msbStep_shift _ _ (hk 5 (by omega)), e,
    msbStep_shift _ _ (hk 6 (by omega)), e, msbStep_shift _ _ (hk 7 (by omega)), e]

/-! ### The reflected CRCs -/

/-- What a table of a reflected CRC has to hold, and the message bits enter like register bits. -/
def LsbTable (p : BitVec w) (tab : List Nat) : Prop :=
  ∀ i : Fin 256, BitVec.ofNat w (tab.getD i.val 0) = lsb8 p (BitVec.ofNat w i.val) 0#8 ∧
    lsb8 p 0#w (BitVec.ofNat 8 i.val) = lsb8 p (BitVec.ofNat w i.val) 0#8

theorem lsb_split (w : Nat) (r : BitVec w) (b : BitVec 8) :
    r ^^^ BitVec.ofNat w b.toNat = BitVec.ofNat w (r.truncate 8 ^^^ b).toNat ^^^ ((r >>> 8) <<< 8) := by
  apply BitVec.eq_of_getLsbD_eq
  intro i hi
  have e : ∀ x : BitVec 8, (BitVec.ofNat w x.toNat).getLsbD i = x.getLsbD i := by
    intro x
    rw [BitVec.getLsbD_ofNat]
    simp only [hi, decide_true, Bool.true_and]
    exact BitVec.testBit_toNat x
  rw [BitVec.getLsbD_xor, BitVec.getLsbD_xor, e, e, BitVec.getLsbD_xor, BitVec.truncate_eq_setWidth,
    BitVec.getLsbD_setWidth, BitVec.getLsbD_shiftLeft, BitVec.getLsbD_ushiftRight]
  by_cases h8 : i < 8
  · simp [h8, hi]
  · have e2 : 8 + (i - 8) = i := by omega
    have hb : b.getLsbD i = false := BitVec.getLsbD_of_ge b i (by omega)
    simp [h8, hi, hb, e2]

theorem upd_lsb (p : BitVec w) (tab : List Nat) (ht : LsbTable p tab) (r : BitVec w) (b : UInt8) :
    upd w tab r b = lsb8 p r b.toBitVec := by
  have h1 := ht ⟨(r.truncate 8 ^^^ b.toBitVec).toNat, BitVec.isLt _⟩
  have h2 := ht ⟨b.toBitVec.toNat, BitVec.isLt _⟩
  simp only at h1 h2
  rw [byte_self] at h2
  -- message bits act like register bits
  have a1 : lsb8 p r b.toBitVec = lsb8 p (r ^^^ BitVec.ofNat w b.toBitVec.toNat) 0#8 := by
    have e1 := lsbFold_lin p [0, 1, 2, 3, 4, 5, 6, 7] r 0#w 0#8 b.toBitVec
    have e2 := lsbFold_lin p [0, 1, 2, 3, 4, 5, 6, 7] r (BitVec.ofNat w b.toBitVec.toNat) 0#8 0#8
    rw [BitVec.xor_zero, BitVec.zero_xor] at e1
    rw [BitVec.xor_zero] at e2
    have e1' : lsb8 p r b.toBitVec = lsb8 p r 0#8 ^^^ lsb8 p 0#w b.toBitVec := e1
    have e2' : lsb8 p (r ^^^ BitVec.ofNat w b.toBitVec.toNat) 0#8 =
      lsb8 p r 0#8 ^^^ lsb8 p (BitVec.ofNat w b.toBitVec.toNat) 0#8 := e2
    rw [e1', e2', h2.2]
  have a2 := lsbFold_lin p [0, 1, 2, 3, 4, 5, 6, 7] (BitVec.ofNat w (r.truncate 8 ^^^ b.toBitVec).toNat)
    ((r >>> 8) <<< 8) 0#8 0#8
  rw [BitVec.xor_zero] at a2
  have a2' : lsb8 p (BitVec.ofNat w (r.truncate 8 ^^^ b.toBitVec).toNat ^^^ ((r >>> 8) <<< 8)) 0#8 =
    lsb8 p (BitVec.ofNat w (r.truncate 8 ^^^ b.toBitVec).toNat) 0#8 ^^^ lsb8 p ((r >>> 8) <<< 8) 0#8 := a2
  have a3 : lsb8 p ((r >>> 8) <<< 8) 0#8 = r >>> 8 := by
    rw [lsb8_high p _ (by intro i hi; rw [BitVec.getLsbD_shiftLeft]; simp [hi])]
    apply BitVec.eq_of_getLsbD_eq
    intro i hi
    rw [BitVec.getLsbD_ushiftRight, BitVec.getLsbD_shiftLeft, BitVec.getLsbD_ushiftRight]
    have e1 : 8 + i - 8 = i := by omega
    rw [e1]
    by_cases h : 8 + i < w
    · simp [h]
    · have : r.getLsbD (8 + i) = false := BitVec.getLsbD_of_ge r _ (by omega)
      simp [this]
  rw [a1, lsb_split w r b.toBitVec, a2', a3, ← h1.1]
  rfl

theorem crc_lsb (p : BitVec w) (tab : List Nat) (ht : LsbTable p tab) (r : BitVec w) (m : List UInt8) :
    crc w tab r m = Spec.crcLsb p r m := by
  induction m generalizing r with
  | nil => rfl
  | cons b m ih =>
    rw [crcLsb_cons, ← upd_lsb p tab ht, ← ih]
    rfl

theorem le_table : LsbTable 0xEDB88320#32 crc32IeeeLeTable := by unfold LsbTable; decide +kernel
theorem tab64 : LsbTable 0x95AC9329AC4BC9B5#64 crc64Tab := by unfold LsbTable; decide +kernel

/-! ### The CRCs that shift the other way: byte-swapped registers -/

/-- What the byte-swapping from a register to the code's variable has to do. -/
structure Swap (w : Nat) (sw : BitVec w → BitVec 32) : Prop where
  hw : 8 ≤ w
  bits : ∀ x i, (sw x).getLsbD i = (decide (i < w) && x.getLsbD (w - 8 - 8 * (i / 8) + i % 8))
  dvd : w % 8 = 0

/-- What a table of such a CRC has to hold. -/
def MsbTable (p : BitVec w) (sw : BitVec w → BitVec 32) (tab : List Nat) : Prop :=
  ∀ i : Fin 256, BitVec.ofNat 32 (tab.getD i.val 0) = sw (msb8 p (BitVec.ofNat w i.val <<< (w - 8)) 0#8) ∧
    msb8 p 0#w (BitVec.ofNat 8 i.val) = msb8 p (BitVec.ofNat w i.val <<< (w - 8)) 0#8

theorem sw_xor (h : Swap w sw) (x y : BitVec w) : sw (x ^^^ y) = sw x ^^^ sw y := by
  apply BitVec.eq_of_getLsbD_eq
  intro i hi
  rw [BitVec.getLsbD_xor, h.bits, h.bits, h.bits, BitVec.getLsbD_xor]
  cases decide (i < w) <;> simp

theorem sw_shift (h : Swap w sw) (x : BitVec w) : sw (x <<< 8) = sw x >>> 8 := by
  have hd := h.dvd
  have hw := h.hw
  apply BitVec.eq_of_getLsbD_eq
  intro i hi
  rw [BitVec.getLsbD_ushiftRight, h.bits, h.bits, BitVec.getLsbD_shiftLeft]
  by_cases h1 : 8 + i < w
  · have e1 : i < w := by omega
    have e2 : w - 8 - 8 * (i / 8) + i % 8 < w := by omega
    have e3 : ¬ (w - 8 - 8 * (i / 8) + i % 8 < 8) := by omega
    have e4 : w - 8 - 8 * (i / 8) + i % 8 - 8 = w - 8 - 8 * ((8 + i) / 8) + (8 + i) % 8 := by omega
    simp only [h1, e1, e2, e3, e4, decide_true, decide_false, Bool.true_and, Bool.not_false]
  · have e : decide (8 + i < w) = false := by simp; omega
    rw [e, Bool.false_and]
    by_cases h2 : i < w
    · have e3 : w - 8 - 8 * (i / 8) + i % 8 < 8 := by omega
      simp [e3]
    · simp [h2]

theorem sw_low (h : Swap w sw) (x : BitVec w) : (sw x).truncate 8 = (x >>> (w - 8)).truncate 8 := by
  have hw := h.hw
  apply BitVec.eq_of_getLsbD_eq
  intro i hi
  rw [BitVec.truncate_eq_setWidth, BitVec.truncate_eq_setWidth, BitVec.getLsbD_setWidth, BitVec.getLsbD_setWidth, h.bits,
    BitVec.getLsbD_ushiftRight]
  have e : w - 8 - 8 * (i / 8) + i % 8 = w - 8 + i := by omega
  have e2 : i < w := by omega
  rw [e]
  simp [e2]

theorem msb_split (w : Nat) (r : BitVec w) (b : BitVec 8) (hw : 8 ≤ w) :
    r ^^^ (BitVec.ofNat w b.toNat <<< (w - 8)) =
      (BitVec.ofNat w ((r >>> (w - 8)).truncate 8 ^^^ b).toNat <<< (w - 8)) ^^^ ((r <<< 8) >>> 8) := by
  apply BitVec.eq_of_getLsbD_eq
  intro i hi
  have e : ∀ x : BitVec 8, (BitVec.ofNat w x.toNat <<< (w - 8)).getLsbD i = (!decide (i < w - 8) && x.getLsbD (i - (w - 8))) := by
    intro x
    rw [BitVec.getLsbD_shiftLeft, BitVec.getLsbD_ofNat]
    have h1 : i - (w - 8) < w := by omega
    simp only [hi, h1, decide_true, Bool.true_and]
    congr 1
  rw [BitVec.getLsbD_xor, BitVec.getLsbD_xor, e, e, BitVec.getLsbD_xor, BitVec.truncate_eq_setWidth,
    BitVec.getLsbD_setWidth, BitVec.getLsbD_ushiftRight, BitVec.getLsbD_ushiftRight, BitVec.getLsbD_shiftLeft]
  by_cases h8 : i < w - 8
  · have h1 : 8 + i < w := by omega
    have h2 : ¬ (8 + i < 8) := by omega
    have h3 : 8 + i - 8 = i := by omega
    simp [h8, h1]
  · have h1 : ¬ (8 + i < w) := by omega
    have h2 : i - (w - 8) < 8 := by omega
    have h3 : w - 8 + (i - (w - 8)) = i := by omega
    simp [h8, h1, h2, h3]

theorem upd_msb (p : BitVec w) (sw : BitVec w → BitVec 32) (tab : List Nat) (hs : Swap w sw) (ht : MsbTable p sw tab)
    (r : BitVec w) (b : UInt8) : upd 32 tab (sw r) b = sw (msb8 p r b.toBitVec) := by
  have hw := hs.hw
  have hx : (sw r).truncate 8 ^^^ b.toBitVec = (r >>> (w - 8)).truncate 8 ^^^ b.toBitVec := by rw [sw_low hs]
  have h1 := ht ⟨((r >>> (w - 8)).truncate 8 ^^^ b.toBitVec).toNat, BitVec.isLt _⟩
  have h2 := ht ⟨b.toBitVec.toNat, BitVec.isLt _⟩
  simp only at h1 h2
  rw [byte_self] at h2
  have a1 : msb8 p r b.toBitVec = msb8 p (r ^^^ (BitVec.ofNat w b.toBitVec.toNat <<< (w - 8))) 0#8 := by
    have e1 := msbFold_lin p [7, 6, 5, 4, 3, 2, 1, 0] r 0#w 0#8 b.toBitVec
    have e2 := msbFold_lin p [7, 6, 5, 4, 3, 2, 1, 0] r (BitVec.ofNat w b.toBitVec.toNat <<< (w - 8)) 0#8 0#8
    rw [BitVec.xor_zero, BitVec.zero_xor] at e1
    rw [BitVec.xor_zero] at e2
    have e1' : msb8 p r b.toBitVec = msb8 p r 0#8 ^^^ msb8 p 0#w b.toBitVec := e1
    have e2' : msb8 p (r ^^^ (BitVec.ofNat w b.toBitVec.toNat <<< (w - 8))) 0#8 =
      msb8 p r 0#8 ^^^ msb8 p (BitVec.ofNat w b.toBitVec.toNat <<< (w - 8)) 0#8 := e2
    rw [e1', e2', h2.2]
  have a2 := msbFold_lin p [7, 6, 5, 4, 3, 2, 1, 0]
    (BitVec.ofNat w ((r >>> (w - 8)).truncate 8 ^^^ b.toBitVec).toNat <<< (w - 8)) ((r <<< 8) >>> 8) 0#8 0#8
  rw [BitVec.xor_zero] at a2
  have a2' : msb8 p ((BitVec.ofNat w ((r >>> (w - 8)).truncate 8 ^^^ b.toBitVec).toNat <<< (w - 8)) ^^^ ((r <<< 8) >>> 8)) 0#8 =
    msb8 p (BitVec.ofNat w ((r >>> (w - 8)).truncate 8 ^^^ b.toBitVec).toNat <<< (w - 8)) 0#8 ^^^
      msb8 p ((r <<< 8) >>> 8) 0#8 := a2
  have a3 : msb8 p ((r <<< 8) >>> 8) 0#8 = r <<< 8 := by
    rw [msb8_low p _ hw (by
      intro i hi
      rw [BitVec.getLsbD_ushiftRight, BitVec.getLsbD_shiftLeft]
      have : ¬ (8 + i < w) := by omega
      simp [this])]
    apply BitVec.eq_of_getLsbD_eq
    intro i hi
    rw [BitVec.getLsbD_shiftLeft, BitVec.getLsbD_shiftLeft, BitVec.getLsbD_ushiftRight, BitVec.getLsbD_shiftLeft]
    by_cases h : i < 8
    · simp [h]
    · have e1 : 8 + (i - 8) = i := by omega
      rw [e1]
      simp [h, hi]
  rw [a1, msb_split w r b.toBitVec hw, a2', a3, sw_xor hs, sw_shift hs, ← h1.1]
  unfold upd
  rw [hx]

theorem crc_msb (p : BitVec w) (sw : BitVec w → BitVec 32) (tab : List Nat) (hs : Swap w sw) (ht : MsbTable p sw tab)
    (r : BitVec w) (m : List UInt8) : crc 32 tab (sw r) m = sw (Spec.crcMsb p r m) := by
  induction m generalizing r with
  | nil => rfl
  | cons b m ih =>
    rw [crcMsb_cons, ← ih, ← upd_msb p sw tab hs ht]
    rfl

/-- An 8-bit register in a 32-bit variable. -/
def sw8 (x : BitVec 8) : BitVec 32 := x.zeroExtend 32
/-- A 16-bit register, its two octets swapped, in a 32-bit variable. -/
def sw16 (x : BitVec 16) : BitVec 32 := (x.extractLsb' 0 8 ++ x.extractLsb' 8 8).zeroExtend 32
/-- A 32-bit register, its four octets in the opposite order. -/
def sw32 (x : BitVec 32) : BitVec 32 :=
  x.extractLsb' 0 8 ++ x.extractLsb' 8 8 ++ x.extractLsb' 16 8 ++ x.extractLsb' 24 8

theorem swap8 : Swap 8 sw8 := by
  refine ⟨by omega, fun x i => ?_, rfl⟩
  unfold sw8
  rw [BitVec.zeroExtend_eq_setWidth, BitVec.getLsbD_setWidth]
  by_cases h : i < 8
  · have h1 : i < 32 := by omega
    have e : 8 - 8 - 8 * (i / 8) + i % 8 = i := by omega
    rw [e]; simp [h, h1]
  · rw [BitVec.getLsbD_of_ge x i (by omega)]; simp [h]

theorem swap16 : Swap 16 sw16 := by
  refine ⟨by omega, fun x i => ?_, rfl⟩
  unfold sw16
  rw [BitVec.zeroExtend_eq_setWidth, BitVec.getLsbD_setWidth, BitVec.getLsbD_append, BitVec.getLsbD_extractLsb',
    BitVec.getLsbD_extractLsb']
  by_cases h1 : i < 8
  · have e : 16 - 8 - 8 * (i / 8) + i % 8 = 8 + i := by omega
    have h2 : i < 32 := by omega
    have h3 : i < 16 := by omega
    rw [e]; simp only [h1, h2, h3, if_true, decide_true, Bool.true_and]
  · by_cases h2 : i < 16
    · have e : 16 - 8 - 8 * (i / 8) + i % 8 = 0 + (i - 8) := by omega
      have h3 : i < 32 := by omega
      have h4 : i - 8 < 8 := by omega
      rw [e]; simp only [h1, h2, h3, h4, if_false, decide_true, Bool.true_and]
    · have h4 : ¬ (i - 8 < 8) := by omega
      simp only [h1, h2, h4, if_false, decide_false, Bool.false_and, Bool.and_false]

theorem swap32 : Swap 32 sw32 := by
  refine ⟨by omega, fun x i => ?_, rfl⟩
  unfold sw32
  rw [BitVec.getLsbD_append, BitVec.getLsbD_append, BitVec.getLsbD_append, BitVec.getLsbD_extractLsb',
    BitVec.getLsbD_extractLsb', BitVec.getLsbD_extractLsb', BitVec.getLsbD_extractLsb']
  by_cases h1 : i < 8
  · have e : 32 - 8 - 8 * (i / 8) + i % 8 = 24 + i := by omega
    have h3 : i < 32 := by omega
    rw [e]; simp only [h1, h3, if_true, decide_true, Bool.true_and]
  · by_cases h2 : i - 8 < 8
    · have e : 32 - 8 - 8 * (i / 8) + i % 8 = 16 + (i - 8) := by omega
      have h3 : i < 32 := by omega
      rw [e]; simp only [h1, h2, h3, if_true, if_false, decide_true, Bool.true_and]
    · by_cases h4 : i - 8 - 8 < 8
      · have e : 32 - 8 - 8 * (i / 8) + i % 8 = 8 + (i - 8 - 8) := by omega
        have h3 : i < 32 := by omega
        rw [e]; simp only [h1, h2, h3, h4, if_true, if_false, decide_true, Bool.true_and]
      · by_cases h5 : i < 32
        · have e : 32 - 8 - 8 * (i / 8) + i % 8 = 0 + (i - 8 - 8 - 8) := by omega
          have h6 : i - 8 - 8 - 8 < 8 := by omega
          rw [e]; simp only [h1, h2, h4, h5, h6, if_false, decide_true, Bool.true_and]
        · have h6 : ¬ (i - 8 - 8 - 8 < 8) := by omega
          simp only [h1, h2, h4, h5, h6, if_false, decide_false, Bool.false_and]

theorem tab8 : MsbTable 0x07#8 sw8 crc8AtmTable := by unfold MsbTable; decide +kernel
theorem tabAnsi : MsbTable 0x8005#16 sw16 crc16AnsiTable := by unfold MsbTable; decide +kernel
theorem tabCcitt : MsbTable 0x1021#16 sw16 crc16CcittTable := by unfold MsbTable; decide +kernel
theorem tabIeee : MsbTable 0x04C11DB7#32 sw32 crc32IeeeTable := by unfold MsbTable; decide +kernel

/-- **C111 (crc32_ieee_le)**: the shift register of the reflected polynomial 0xEDB88320, for every
start value and every block. -/
theorem c111_crc32_le (start : BitVec 32) (buf : List UInt8) :
    crc32IeeeLe start buf = Spec.crcLsb 0xEDB88320#32 start buf := crc_lsb _ _ le_table _ _

/-- **C111 (crc64)**: the shift register of the reflected Jones polynomial. -/
theorem c111_crc64 (start : BitVec 64) (buf : List UInt8) :
    crc64 start buf = Spec.crcLsb 0x95AC9329AC4BC9B5#64 start buf := crc_lsb _ _ tab64 _ _

/-- **C111 (crc8_atm)**: the 8-bit register of x^8+x^2+x+1, from every 8-bit start. -/
theorem c111_crc8 (start : BitVec 8) (buf : List UInt8) :
    crc8Atm (sw8 start) buf = sw8 (Spec.crcMsb 0x07#8 start buf) := crc_msb _ _ _ swap8 tab8 _ _

/-- **C111 (crc16_ansi)**: the 16-bit register of 0x8005; start and result have their octets swapped. -/
theorem c111_crc16_ansi (start : BitVec 16) (buf : List UInt8) :
    crc16Ansi (sw16 start) buf = sw16 (Spec.crcMsb 0x8005#16 start buf) := crc_msb _ _ _ swap16 tabAnsi _ _

/-- **C111 (crc16_ccitt)**: the 16-bit register of 0x1021; start and result have their octets swapped. -/
theorem c111_crc16_ccitt (start : BitVec 16) (buf : List UInt8) :
    crc16Ccitt (sw16 start) buf = sw16 (Spec.crcMsb 0x1021#16 start buf) := crc_msb _ _ _ swap16 tabCcitt _ _

/-- **C111 (crc32_ieee)**: the 32-bit register of 0x04C11DB7; start and result have their octets in the
opposite order. -/
theorem c111_crc32 (start : BitVec 32) (buf : List UInt8) :
    crc32Ieee (sw32 start) buf = sw32 (Spec.crcMsb 0x04C11DB7#32 start buf) := crc_msb _ _ _ swap32 tabIeee _ _

/-- The check values published for the six registers (message "123456789"). -/
example : Spec.crcMsb 0x07#8 0 (List.map UInt8.ofNat [49, 50, 51, 52, 53, 54, 55, 56, 57]) = 0xf4#8 ∧
    Spec.crcMsb 0x1021#16 0 (List.map UInt8.ofNat [49, 50, 51, 52, 53, 54, 55, 56, 57]) = 0x31c3#16 ∧
    Spec.crcMsb 0x8005#16 0 (List.map UInt8.ofNat [49, 50, 51, 52, 53, 54, 55, 56, 57]) = 0xfee8#16 ∧
    ~~~ Spec.crcMsb 0x04C11DB7#32 0xffffffff (List.map UInt8.ofNat [49, 50, 51, 52, 53, 54, 55, 56, 57]) = 0xfc891918#32 ∧
    ~~~ Spec.crcLsb 0xEDB88320#32 0xffffffff (List.map UInt8.ofNat [49, 50, 51, 52, 53, 54, 55, 56, 57]) = 0xcbf43926#32 ∧
    Spec.crcLsb 0x95AC9329AC4BC9B5#64 0 (List.map UInt8.ofNat [49, 50, 51, 52, 53, 54, 55, 56, 57]) =
      0xe9c6d914c4b8d9ca#64 := by decide +kernel

/-! ### Going back -/

theorem rev_table : ∀ i : Fin 256,
    crc32IeeeLeRevTable.getD (crc32IeeeLeTable.getD i.val 0 / 2 ^ 24) 0 = i.val ∧ crc32IeeeLeTable.getD i.val 0 < 2 ^ 32 := by
  decide +kernel

theorem rev_table' : ∀ i : Fin 256,
    crc32IeeeLeTable.getD (crc32IeeeLeRevTable.getD i.val 0) 0 / 2 ^ 24 = i.val ∧ crc32IeeeLeRevTable.getD i.val 0 < 256 := by
  decide +kernel

/-- The top octet of `table[i] ^ (code >> 8)` is that of the table entry. -/
theorem top_upd (w : Nat) (hw : 8 ≤ w) (t : Nat) (ht : t < 2 ^ w) (c : BitVec w) :
    ((BitVec.ofNat w t ^^^ (c >>> 8)) >>> (w - 8)).toNat = t / 2 ^ (w - 8) := by
  rw [BitVec.ushiftRight_xor_distrib]
  have : (c >>> 8) >>> (w - 8) = 0#w := by
    rw [← BitVec.shiftRight_add]
    apply BitVec.eq_of_toNat_eq
    rw [BitVec.toNat_ushiftRight, Nat.shiftRight_eq_div_pow]
    have e : 8 + (w - 8) = w := by omega
    rw [e]
    simp [Nat.div_eq_of_lt c.isLt]
  rw [this, BitVec.xor_zero, BitVec.toNat_ushiftRight, BitVec.toNat_ofNat, Nat.mod_eq_of_lt ht, Nat.shiftRight_eq_div_pow]

theorem zext_low (x : BitVec 8) : BitVec.ofNat 32 x.toNat = x.zeroExtend 32 := by
  apply BitVec.eq_of_toNat_eq
  have := x.isLt
  simp only [BitVec.zeroExtend_eq_setWidth, BitVec.toNat_setWidth, BitVec.toNat_ofNat]

theorem join_low (c : BitVec 32) : ((c >>> 8) <<< 8) ||| (c.truncate 8).zeroExtend 32 = c := by
  apply BitVec.eq_of_getLsbD_eq
  intro i hi
  rw [BitVec.getLsbD_or, BitVec.getLsbD_shiftLeft, BitVec.getLsbD_ushiftRight, BitVec.zeroExtend_eq_setWidth,
    BitVec.truncate_eq_setWidth, BitVec.getLsbD_setWidth, BitVec.getLsbD_setWidth]
  by_cases h : i < 8
  · simp [h, hi]
  · have e : 8 + (i - 8) = i := by omega
    simp [h, hi, e]

theorem rev_upd (c : BitVec 32) (b : UInt8) : revStep (upd 32 crc32IeeeLeTable c b) b = c := by
  have h := rev_table ⟨(c.truncate 8 ^^^ b.toBitVec).toNat, BitVec.isLt _⟩
  simp only at h
  unfold upd revStep
  have ht := top_upd 32 (by omega) _ h.2 c
  rw [show 32 - 8 = 24 from rfl] at ht
  rw [ht, h.1]
  rw [zext_low, ← BitVec.xor_assoc, BitVec.xor_self, BitVec.zero_xor]
  have e : BitVec.zeroExtend 32 (c.truncate 8 ^^^ b.toBitVec) ^^^ BitVec.zeroExtend 32 b.toBitVec =
      BitVec.zeroExtend 32 (c.truncate 8) := by
    simp only [BitVec.zeroExtend_eq_setWidth]
    rw [BitVec.setWidth_xor, BitVec.xor_assoc, BitVec.xor_self, BitVec.xor_zero]
  rw [e]
  exact join_low c

theorem upd_rev (c : BitVec 32) (b : UInt8) : upd 32 crc32IeeeLeTable (revStep c b) b = c := by
  have hlt : (c >>> 24).toNat < 256 := by
    rw [BitVec.toNat_ushiftRight, Nat.shiftRight_eq_div_pow]; have := c.isLt; omega
  have h := rev_table' ⟨(c >>> 24).toNat, hlt⟩
  simp only at h
  unfold revStep
  generalize hi : crc32IeeeLeRevTable.getD (c >>> 24).toNat 0 = i at h ⊢
  -- the low octet of the state before
  have hlow : ((((BitVec.ofNat 32 (crc32IeeeLeTable.getD i 0) ^^^ c) <<< 8) |||
      (BitVec.ofNat 32 i ^^^ b.toBitVec.zeroExtend 32)).truncate 8 ^^^ b.toBitVec) = BitVec.ofNat 8 i := by
    apply BitVec.eq_of_getLsbD_eq
    intro j hj
    rw [BitVec.getLsbD_xor, BitVec.truncate_eq_setWidth, BitVec.getLsbD_setWidth, BitVec.getLsbD_or,
      BitVec.getLsbD_shiftLeft, BitVec.getLsbD_xor (x := BitVec.ofNat 32 i), BitVec.zeroExtend_eq_setWidth,
      BitVec.getLsbD_setWidth, BitVec.getLsbD_ofNat, BitVec.getLsbD_ofNat]
    have h32 : j < 32 := by omega
    simp only [hj, h32, decide_true, Bool.true_and, Bool.not_true, Bool.false_and, Bool.and_false, Bool.false_or]
    cases i.testBit j <;> cases b.toBitVec.getLsbD j <;> rfl
  have hhigh : ((((BitVec.ofNat 32 (crc32IeeeLeTable.getD i 0) ^^^ c) <<< 8) |||
      (BitVec.ofNat 32 i ^^^ b.toBitVec.zeroExtend 32)) >>> 8) = BitVec.ofNat 32 (crc32IeeeLeTable.getD i 0) ^^^ c := by
    have htop : ∀ j, 24 ≤ j → (BitVec.ofNat 32 (crc32IeeeLeTable.getD i 0) ^^^ c).getLsbD j = false := by
      intro j hj
      by_cases h32 : j < 32
      · have e1 : (BitVec.ofNat 32 (crc32IeeeLeTable.getD i 0)) >>> 24 = c >>> 24 := by
          apply BitVec.eq_of_toNat_eq
          rw [← h.1, BitVec.toNat_ushiftRight, BitVec.toNat_ofNat, Nat.shiftRight_eq_div_pow]
          have := (rev_table ⟨i, h.2⟩).2
          simp only at this
          rw [Nat.mod_eq_of_lt this]
        have e2 := congrArg (fun x => x.getLsbD (j - 24)) e1
        simp only [BitVec.getLsbD_ushiftRight] at e2
        have e3 : 24 + (j - 24) = j := by omega
        rw [e3] at e2
        rw [BitVec.getLsbD_xor, e2, Bool.xor_self]
      · exact BitVec.getLsbD_of_ge _ _ (by omega)
    apply BitVec.eq_of_getLsbD_eq
    intro j hj
    rw [BitVec.getLsbD_ushiftRight, BitVec.getLsbD_or, BitVec.getLsbD_shiftLeft, BitVec.getLsbD_xor (x := BitVec.ofNat 32 i),
      BitVec.zeroExtend_eq_setWidth, BitVec.getLsbD_setWidth, BitVec.getLsbD_ofNat]
    have e1 : i.testBit (8 + j) = false := Nat.testBit_lt_two_pow (Nat.lt_of_lt_of_le h.2 (by
      rw [show 256 = 2 ^ 8 by decide]; exact Nat.pow_le_pow_right (by omega) (by omega)))
    have e2 : b.toBitVec.getLsbD (8 + j) = false := BitVec.getLsbD_of_ge _ _ (by omega)
    have e3 : 8 + j - 8 = j := by omega
    have e4 : ¬ (8 + j < 8) := by omega
    rw [e1, e2, e3]
    by_cases h1 : 8 + j < 32
    · simp [h1, e4]
    · rw [htop j (by omega)]; simp
  unfold upd
  rw [hlow, hhigh, BitVec.toNat_ofNat, Nat.mod_eq_of_lt h.2, ← BitVec.xor_assoc, BitVec.xor_self, BitVec.zero_xor]

/-- **C112 (back to the start)**: `crc32_ieee_le_rev` recovers the start value from the CRC and the
block. -/
theorem c112_rev_crc (start : BitVec 32) (buf : List UInt8) :
    crc32IeeeLeRev (crc32IeeeLe start buf) buf = start := by
  unfold crc32IeeeLeRev crc32IeeeLe crc
  induction buf generalizing start with
  | nil => rfl
  | cons b buf ih =>
    rw [List.reverse_cons, List.foldl_append]
    simp only [List.foldl_cons, List.foldl_nil]
    rw [ih]
    exact rev_upd start b

/-- **C112 (a start value for every result)**: from the start `crc32_ieee_le_rev` gives, the block has
the wanted CRC. -/
theorem c112_crc_rev (e : BitVec 32) (buf : List UInt8) :
    crc32IeeeLe (crc32IeeeLeRev e buf) buf = e := by
  unfold crc32IeeeLeRev crc32IeeeLe crc
  induction buf generalizing e with
  | nil => rfl
  | cons b buf ih =>
    rw [List.reverse_cons, List.foldl_append, List.foldl_cons]
    simp only [List.foldl_cons, List.foldl_nil]
    rw [upd_rev, ih]

/-! ### Errors a CRC always detects -/

/-- The property of the table that makes the code detect every burst: the top octets of the entries are
all different, and the entries fit in `k` octets. -/
def TopInj (k : Nat) (tab : List Nat) : Prop :=
  ∀ i : Fin 256, tab.findIdx (fun t => t / 2 ^ (8 * (k - 1)) == tab.getD i.val 0 / 2 ^ (8 * (k - 1))) = i.val ∧
    tab.getD i.val 0 < 2 ^ (8 * k)

theorem topInj_inj (k : Nat) (tab : List Nat) (h : TopInj k tab) (i j : Nat) (hi : i < 256) (hj : j < 256)
    (e : tab.getD i 0 / 2 ^ (8 * (k - 1)) = tab.getD j 0 / 2 ^ (8 * (k - 1))) : i = j := by
  have h1 := (h ⟨i, hi⟩).1
  have h2 := (h ⟨j, hj⟩).1
  simp only at h1 h2
  rw [e] at h1
  omega

/-- The state stays within `k` octets. -/
theorem upd_lt (w k : Nat) (tab : List Nat) (h : TopInj k tab) (c : BitVec w)
    (hc : c.toNat < 2 ^ (8 * k)) (b : UInt8) : (upd w tab c b).toNat < 2 ^ (8 * k) := by
  unfold upd
  rw [BitVec.toNat_xor]
  apply Nat.xor_lt_two_pow
  · have := (h ⟨(c.truncate 8 ^^^ b.toBitVec).toNat, BitVec.isLt _⟩).2
    simp only at this
    rw [BitVec.toNat_ofNat]
    exact Nat.lt_of_le_of_lt (Nat.mod_le _ _) this
  · rw [BitVec.toNat_ushiftRight, Nat.shiftRight_eq_div_pow]
    exact Nat.lt_of_le_of_lt (Nat.div_le_self _ _) hc

theorem crc_lt (w k : Nat) (tab : List Nat) (h : TopInj k tab) (m : List UInt8) (c : BitVec w)
    (hc : c.toNat < 2 ^ (8 * k)) : (crc w tab c m).toNat < 2 ^ (8 * k) := by
  induction m generalizing c with
  | nil => exact hc
  | cons b m ih => exact ih _ (upd_lt w k tab h c hc b)

/-- The top octet of the new state. -/
theorem upd_top (w k : Nat) (hk : 1 ≤ k) (hw : 8 * k ≤ w) (tab : List Nat) (h : TopInj k tab) (c : BitVec w)
    (hc : c.toNat < 2 ^ (8 * k)) (b : UInt8) :
    (upd w tab c b).toNat / 2 ^ (8 * (k - 1)) =
      tab.getD (c.truncate 8 ^^^ b.toBitVec).toNat 0 / 2 ^ (8 * (k - 1)) := by
  have ht := (h ⟨(c.truncate 8 ^^^ b.toBitVec).toNat, BitVec.isLt _⟩).2
  simp only at ht
  unfold upd
  have e : ∀ x : BitVec w, x.toNat / 2 ^ (8 * (k - 1)) = (x >>> (8 * (k - 1))).toNat := by
    intro x; rw [BitVec.toNat_ushiftRight, Nat.shiftRight_eq_div_pow]
  rw [e, BitVec.ushiftRight_xor_distrib]
  have z : (c >>> 8) >>> (8 * (k - 1)) = 0#w := by
    rw [← BitVec.shiftRight_add]
    apply BitVec.eq_of_toNat_eq
    rw [BitVec.toNat_ushiftRight, Nat.shiftRight_eq_div_pow]
    have e : 8 + 8 * (k - 1) = 8 * k := by omega
    rw [e, Nat.div_eq_of_lt hc]
    simp
  rw [z, BitVec.xor_zero, BitVec.toNat_ushiftRight, BitVec.toNat_ofNat, Nat.mod_eq_of_lt, Nat.shiftRight_eq_div_pow]
  exact Nat.lt_of_lt_of_le ht (Nat.pow_le_pow_right (by omega) hw)

/-- Equal high octets of the new states come from equal indices and equal higher octets before. -/
theorem upd_inj (w k sh : Nat) (hk : 1 ≤ k) (hw : 8 * k ≤ w) (hs : 8 * sh + 8 ≤ 8 * k) (tab : List Nat) (h : TopInj k tab)
    (c c' : BitVec w) (hc : c.toNat < 2 ^ (8 * k)) (hc' : c'.toNat < 2 ^ (8 * k)) (b b' : UInt8)
    (e : (upd w tab c b) >>> (8 * sh) = (upd w tab c' b') >>> (8 * sh)) :
    c.truncate 8 ^^^ b.toBitVec = c'.truncate 8 ^^^ b'.toBitVec ∧ c >>> (8 * sh + 8) = c' >>> (8 * sh + 8) := by
  have e1 : (upd w tab c b).toNat / 2 ^ (8 * (k - 1)) = (upd w tab c' b').toNat / 2 ^ (8 * (k - 1)) := by
    have := congrArg (fun x => x.toNat / 2 ^ (8 * (k - 1) - 8 * sh)) e
    simp only [BitVec.toNat_ushiftRight, Nat.shiftRight_eq_div_pow, Nat.div_div_eq_div_mul, ← Nat.pow_add] at this
    have e2 : 8 * sh + (8 * (k - 1) - 8 * sh) = 8 * (k - 1) := by omega
    rw [e2] at this
    exact this
  rw [upd_top w k hk hw tab h c hc b, upd_top w k hk hw tab h c' hc' b'] at e1
  have e3 := topInj_inj k tab h _ _ (BitVec.isLt _) (BitVec.isLt _) e1
  have e4 : c.truncate 8 ^^^ b.toBitVec = c'.truncate 8 ^^^ b'.toBitVec := BitVec.eq_of_toNat_eq e3
  refine ⟨e4, ?_⟩
  unfold upd at e
  rw [e4, BitVec.ushiftRight_xor_distrib, BitVec.ushiftRight_xor_distrib] at e
  have e5 : (c >>> 8) >>> (8 * sh) = (c' >>> 8) >>> (8 * sh) := by
    have := congrArg (fun x => (BitVec.ofNat w (tab.getD (c'.truncate 8 ^^^ b'.toBitVec).toNat 0) >>> (8 * sh)) ^^^ x) e
    simp only [← BitVec.xor_assoc, BitVec.xor_self, BitVec.zero_xor] at this
    exact this
  rw [← BitVec.shiftRight_add, ← BitVec.shiftRight_add] at e5
  have e6 : 8 * sh + 8 = 8 + 8 * sh := by omega
  rw [e6]
  exact e5

theorem state_ext (w : Nat) (c c' : BitVec w) (h1 : c.truncate 8 = c'.truncate 8) (h2 : c >>> 8 = c' >>> 8) : c = c' := by
  apply BitVec.eq_of_getLsbD_eq
  intro i hi
  by_cases h : i < 8
  · have := congrArg (fun x => x.getLsbD i) h1
    simp only [BitVec.truncate_eq_setWidth, BitVec.getLsbD_setWidth, h, decide_true, Bool.true_and] at this
    exact this
  · have := congrArg (fun x => x.getLsbD (i - 8)) h2
    simp only [BitVec.getLsbD_ushiftRight] at this
    have e : 8 + (i - 8) = i := by omega
    rw [e] at this
    exact this

/-- A CRC is injective in its start value. -/
theorem crc_start_inj (w k : Nat) (hk : 1 ≤ k) (hw : 8 * k ≤ w) (tab : List Nat) (h : TopInj k tab) (m : List UInt8)
    (c c' : BitVec w) (hc : c.toNat < 2 ^ (8 * k)) (hc' : c'.toNat < 2 ^ (8 * k)) (e : crc w tab c m = crc w tab c' m) :
    c = c' := by
  induction m generalizing c c' with
  | nil => exact e
  | cons b m ih =>
    have e1 := ih _ _ (upd_lt w k tab h c hc b) (upd_lt w k tab h c' hc' b) e
    have e2 := upd_inj w k 0 hk hw (by omega) tab h c c' hc hc' b b (by rw [e1])
    rw [Nat.mul_zero, Nat.zero_add] at e2
    refine state_ext w c c' ?_ e2.2
    have := congrArg (fun x => x ^^^ b.toBitVec) e2.1
    simp only [BitVec.xor_assoc, BitVec.xor_self, BitVec.xor_zero] at this
    exact this

theorem burst_aux (w k : Nat) (hk : 1 ≤ k) (hw : 8 * k ≤ w) (tab : List Nat) (h : TopInj k tab) (s : BitVec w)
    (hs : s.toNat < 2 ^ (8 * k)) (n : Nat) : ∀ (sh : Nat) (b b' : List UInt8), b.length = n → b'.length = n → n + sh ≤ k →
      (crc w tab s b) >>> (8 * sh) = (crc w tab s b') >>> (8 * sh) → b = b' := by
  induction n with
  | zero =>
    intro sh b b' hb hb' _ _
    rw [List.length_eq_zero_iff.mp hb, List.length_eq_zero_iff.mp hb']
  | succ n ih =>
    intro sh b b' hb hb' hn e
    have hne : b ≠ [] := by intro h0; rw [h0] at hb; simp at hb
    have hne' : b' ≠ [] := by intro h0; rw [h0] at hb'; simp at hb'
    rw [← List.dropLast_concat_getLast hne, ← List.dropLast_concat_getLast hne'] at e ⊢
    have hl : b.dropLast.length = n := by rw [List.length_dropLast]; omega
    have hl' : b'.dropLast.length = n := by rw [List.length_dropLast]; omega
    generalize b.dropLast = p at e hl ⊢
    generalize b'.dropLast = p' at e hl' ⊢
    generalize b.getLast hne = x at e ⊢
    generalize b'.getLast hne' = x' at e ⊢
    rw [← c111_blocks, ← c111_blocks] at e
    have e1 := upd_inj w k sh hk hw (by omega) tab h (crc w tab s p) (crc w tab s p')
      (crc_lt w k tab h p s hs) (crc_lt w k tab h p' s hs) x x' e
    have e2 := ih (sh + 1) p p' hl hl' (by omega) (by
      have : 8 * (sh + 1) = 8 * sh + 8 := by omega
      rw [this]; exact e1.2)
    subst e2
    have e3 := congrArg (fun y => (crc w tab s p).truncate 8 ^^^ y) e1.1
    simp only [← BitVec.xor_assoc, BitVec.xor_self, BitVec.zero_xor] at e3
    have : x = x' := UInt8.toBitVec_inj.mp e3
    rw [this]

/-- Two messages that are equal outside `k` consecutive octets and have the same CRC are equal. -/
theorem burst (w k : Nat) (hk : 1 ≤ k) (hw : 8 * k ≤ w) (tab : List Nat) (h : TopInj k tab) (s : BitVec w)
    (hs : s.toNat < 2 ^ (8 * k)) (pre b b' post : List UInt8) (hb : b.length ≤ k) (hl : b'.length = b.length)
    (e : crc w tab s (pre ++ b ++ post) = crc w tab s (pre ++ b' ++ post)) : b = b' := by
  rw [← c111_blocks w tab s (pre ++ b), ← c111_blocks w tab s (pre ++ b'), ← c111_blocks w tab s pre b,
    ← c111_blocks w tab s pre b'] at e
  have hp := crc_lt w k tab h pre s hs
  have e1 := crc_start_inj w k hk hw tab h post _ _ (crc_lt w k tab h b _ hp) (crc_lt w k tab h b' _ hp) e
  exact burst_aux w k hk hw tab h _ hp b.length 0 b b' rfl hl (by omega) (by rw [e1])

theorem top8 : TopInj 1 crc8AtmTable := by unfold TopInj; decide +kernel
theorem topAnsi : TopInj 2 crc16AnsiTable := by unfold TopInj; decide +kernel
theorem topCcitt : TopInj 2 crc16CcittTable := by unfold TopInj; decide +kernel
theorem topIeee : TopInj 4 crc32IeeeTable := by unfold TopInj; decide +kernel
theorem topLe : TopInj 4 crc32IeeeLeTable := by unfold TopInj; decide +kernel
theorem top64 : TopInj 8 crc64Tab := by unfold TopInj; decide +kernel

/-- **C112 (bursts)**: changing a message only within as many consecutive octets as the CRC is wide
changes the CRC: 4 octets for the two 32-bit ones and 8 for `crc64`, for every start value, position
and message. -/
theorem c112_burst (pre b b' post : List UInt8) (hl : b'.length = b.length) (hne : b ≠ b') :
    (∀ s : BitVec 32, b.length ≤ 4 →
      crc32Ieee s (pre ++ b ++ post) ≠ crc32Ieee s (pre ++ b' ++ post) ∧
      crc32IeeeLe s (pre ++ b ++ post) ≠ crc32IeeeLe s (pre ++ b' ++ post)) ∧
    (∀ s : BitVec 64, b.length ≤ 8 → crc64 s (pre ++ b ++ post) ≠ crc64 s (pre ++ b' ++ post)) := by
  refine ⟨fun s hb => ⟨fun e => hne ?_, fun e => hne ?_⟩, fun s hb e => hne ?_⟩
  · exact burst 32 4 (by omega) (by omega) _ topIeee s s.isLt pre b b' post hb hl e
  · exact burst 32 4 (by omega) (by omega) _ topLe s s.isLt pre b b' post hb hl e
  · exact burst 64 8 (by omega) (by omega) _ top64 s s.isLt pre b b' post hb hl e

/-- **C112 (bursts, narrow CRCs)**: the same for `crc8_atm` (one octet, start below 2^8) and the 16-bit
ones (two octets, start below 2^16). -/
theorem c112_burst_narrow (pre b b' post : List UInt8) (hl : b'.length = b.length) (hne : b ≠ b') (s : BitVec 32) :
    (s.toNat < 2 ^ 8 → b.length ≤ 1 → crc8Atm s (pre ++ b ++ post) ≠ crc8Atm s (pre ++ b' ++ post)) ∧
    (s.toNat < 2 ^ 16 → b.length ≤ 2 →
      crc16Ansi s (pre ++ b ++ post) ≠ crc16Ansi s (pre ++ b' ++ post) ∧
      crc16Ccitt s (pre ++ b ++ post) ≠ crc16Ccitt s (pre ++ b' ++ post)) := by
  refine ⟨fun hs hb e => hne ?_, fun hs hb => ⟨fun e => hne ?_, fun e => hne ?_⟩⟩
  · exact burst 32 1 (by omega) (by omega) _ top8 s hs pre b b' post hb hl e
  · exact burst 32 2 (by omega) (by omega) _ topAnsi s hs pre b b' post hb hl e
  · exact burst 32 2 (by omega) (by omega) _ topCcitt s hs pre b b' post hb hl e

/-- **C112 (the start value matters)**: different 32-bit (64-bit) start values give different CRCs of the
same message. -/
theorem c112_start (m : List UInt8) :
    (∀ s s' : BitVec 32, crc32Ieee s m = crc32Ieee s' m → s = s') ∧
    (∀ s s' : BitVec 32, crc32IeeeLe s m = crc32IeeeLe s' m → s = s') ∧
    (∀ s s' : BitVec 64, crc64 s m = crc64 s' m → s = s') := by
  refine ⟨fun s s' e => ?_, fun s s' e => ?_, fun s s' e => ?_⟩
  · exact crc_start_inj 32 4 (by omega) (by omega) _ topIeee m s s' s.isLt s'.isLt e
  · exact crc_start_inj 32 4 (by omega) (by omega) _ topLe m s s' s.isLt s'.isLt e
  · exact crc_start_inj 64 8 (by omega) (by omega) _ top64 m s s' s.isLt s'.isLt e

/-- A burst of four octets in the middle of a message. -/
example : crc32IeeeLe 0xffffffff#32 ([1, 2] ++ [3, 4, 5, 6] ++ [7]) ≠
    crc32IeeeLe 0xffffffff#32 ([1, 2] ++ [9, 4, 5, 0] ++ [7]) :=
  ((c112_burst [1, 2] [3, 4, 5, 6] [9, 4, 5, 0] [7] rfl (by decide)).1 _ (by decide)).2

end Ltio.Hash.Crc
