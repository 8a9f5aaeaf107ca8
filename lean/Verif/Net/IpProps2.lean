import Verif.Net.IpProps

/-
C49, continued: classification, mapped addresses, text forms, socket addresses.
-/
namespace Ltio.Ip
open Ltio.Text

/-! ### Classification -/

/-- The number of a dotted quad. -/
def dotted (a b c d : Nat) : Nat := ((a * 256 + b) * 256 + c) * 256 + d

/-- The reserved IPv4 ranges as intervals (first and last address). -/
def reservedRanges : List (Nat × Nat) :=
  [(dotted 0 0 0 0, dotted 0 255 255 255), (dotted 10 0 0 0, dotted 10 255 255 255),
   (dotted 100 64 0 0, dotted 100 127 255 255), (dotted 127 0 0 0, dotted 127 255 255 255),
   (dotted 169 254 0 0, dotted 169 254 255 255), (dotted 172 16 0 0, dotted 172 31 255 255),
   (dotted 192 0 2 0, dotted 192 0 2 255), (dotted 192 88 99 0, dotted 192 88 99 255),
   (dotted 192 168 0 0, dotted 192 168 255 255), (dotted 198 18 0 0, dotted 198 19 255 255),
   (dotted 198 51 100 0, dotted 198 51 100 255), (dotted 203 0 113 0, dotted 203 0 113 255),
   (dotted 224 0 0 0, dotted 255 255 255 255)]

theorem anyMatch_spec (a : Addr) : ∀ rs : List (List UInt8 × Nat),
    (∀ r ∈ rs, r.2 ≤ 8 * a.length ∧ r.2 ≤ 8 * r.1.length) →
    anyMatch a rs = some (decide (∃ r ∈ rs, InBlock a r.1 r.2)) := by
  intro rs
  induction rs with
  | nil => intro _; simp [anyMatch]
  | cons r rs ih =>
    intro h
    obtain ⟨p, n⟩ := r
    have h0 := h (p, n) (by simp)
    simp only [anyMatch, prefixCheck_spec a p n h0.1 h0.2]
    by_cases hb : InBlock a p n
    · have e : decide (InBlock a p n) = true := decide_eq_true hb
      have e2 : decide (∃ r ∈ (p, n) :: rs, InBlock a r.1 r.2) = true :=
        decide_eq_true ⟨(p, n), by simp, hb⟩
      rw [e, e2]
    · have e : decide (InBlock a p n) = false := decide_eq_false hb
      rw [e]
      simp only
      rw [ih (fun r hr => h r (by simp [hr]))]
      congr 1
      rw [decide_eq_decide]
      simp only [List.mem_cons, exists_eq_or_imp]
      constructor
      · exact Or.inr
      · rintro (h | h)
        · exact absurd h hb
        · exact h

/-- **C49 (public IPv4 addresses).**  An IPv4 address is reported publicly routable exactly when it
is in none of the reserved ranges. -/
theorem c49_routable_v4 (l : Layout) (a : Addr) (h : a.length = 4) :
    routable l a = some (decide (∀ r ∈ reservedRanges, ¬ (r.1 ≤ num a ∧ num a ≤ r.2))) := by
  have h4 : isV4 a = true := by simp [isV4, h]
  unfold routable routableV4
  rw [if_pos h4, anyMatch_spec a _ (by rw [h]; decide), Option.map_some]
  congr 1
  rw [← decide_not, decide_eq_decide]
  have hlt : num a < 2 ^ 32 := by
    have := num_lt a
    rw [h] at this
    simpa using this
  simp only [InBlock, h]
  generalize num a = v at hlt
  simp only [reservedV4, reservedRanges, List.mem_cons, List.not_mem_nil, or_false, exists_eq_or_imp,
    exists_eq_left, forall_eq_or_imp, forall_eq, num, List.foldl_cons, List.foldl_nil, dotted,
    List.length_cons, List.length_nil]
  simp only [UInt8.reduceToNat, Nat.reduceMul, Nat.reduceAdd, Nat.reduceSub, Nat.reducePow,
    Nat.reduceDiv]
  omega

/-- **C49 (loopback and link-local).**  127.0.0.0/8 and ::1; 169.254.0.0/16, its mapped form and
fe80::/10. -/
theorem c49_loopback (a : Addr) :
    (a.length = 4 → (isLoopback a = true ↔ InBlock a [127, 0, 0, 0] 8)) ∧
    (a.length = 16 → (isLoopback a = true ↔ num a = 1)) := by
  constructor
  · intro h
    match a, h with
    | [x, y, z, w], _ =>
      have e : num [x, y, z, w] / 2 ^ (8 * [x, y, z, w].length - 8) = x.toNat := by
        have := num_lt [y, z, w]
        rw [num_cons]
        simp only [List.length_cons, List.length_nil] at this ⊢
        omega
      simp only [isLoopback, isV4, InBlock, e]
      have e2 : num [127, 0, 0, 0] / 2 ^ (8 * [(127 : UInt8), 0, 0, 0].length - 8) = 127 := by decide
      rw [e2]
      simp only [List.length_cons, List.length_nil, beq_self_eq_true, if_true,
        List.getElem?_cons_zero, beq_iff_eq, Option.some.injEq]
      constructor
      · rintro rfl; rfl
      · intro h; exact UInt8.toNat_inj.1 h
  · intro h
    have h4 : isV4 a = false := by simp [isV4, h]
    have h6 : isV6 a = true := by simp [isV6, h]
    have hsplit : a = a.take 15 ++ [a.getD 15 0] := by
      have h15 : 15 < a.length := by omega
      conv => lhs; rw [← List.take_append_drop 15 a]
      congr 1
      rw [List.drop_eq_getElem_cons h15, List.drop_eq_nil_of_le (by omega)]
      simp [List.getD_eq_getElem?_getD, h15]
    have hnum : num a = num (a.take 15) * 256 + (a.getD 15 0).toNat := by
      conv => lhs; rw [hsplit]
      unfold num
      rw [List.foldl_append]
      simp only [List.foldl_cons, List.foldl_nil]
      omega
    have hz : (a.take 15).all (· == 0) = true ↔ num (a.take 15) = 0 := by
      generalize a.take 15 = t
      induction t with
      | nil => simp [num]
      | cons x t ih =>
        rw [num_cons, List.all_cons, Bool.and_eq_true, ih]
        have hp : 0 < 256 ^ t.length := by positivity
        constructor
        · rintro ⟨h1, h2⟩
          rw [h2]
          have : x = 0 := by simpa using h1
          simp [this]
        · intro h
          have h1 : x.toNat * 256 ^ t.length = 0 := by omega
          have h2 : x.toNat = 0 := by
            rcases Nat.mul_eq_zero.1 h1 with h | h
            · exact h
            · omega
          exact ⟨by simpa using UInt8.toNat_inj.1 (by simpa using h2), by omega⟩
    have hl : (a[15]? == some 1) = true ↔ (a.getD 15 0).toNat = 1 := by
      have h15 : 15 < a.length := by omega
      simp only [List.getD_eq_getElem?_getD, List.getElem?_eq_getElem h15, Option.getD_some,
        beq_iff_eq, Option.some.injEq]
      constructor
      · intro h; rw [h]; rfl
      · intro h; exact UInt8.toNat_inj.1 h
    unfold isLoopback
    simp only [h4, h6, Bool.false_eq_true, if_false, if_true, Bool.and_eq_true, hz, hl, hnum]
    omega

theorem link_local_v4 (a : Addr) :
    (a.length = 4 → (isLinkLocal a = true ↔ InBlock a [169, 254, 0, 0] 16)) := by
  intro h
  match a, h with
  | [x, y, z, w], _ =>
    have e : num [x, y, z, w] / 2 ^ (8 * [x, y, z, w].length - 16) = x.toNat * 256 + y.toNat := by
      have := num_lt [z, w]
      rw [num_cons, num_cons]
      simp only [List.length_cons, List.length_nil] at this ⊢
      omega
    have e2 : num [169, 254, 0, 0] / 2 ^ (8 * [(169 : UInt8), 254, 0, 0].length - 16) =
      169 * 256 + 254 := by decide
    simp only [isLinkLocal, isV4, InBlock, e, e2]
    simp only [List.length_cons, List.length_nil, beq_self_eq_true, if_true,
      List.getElem?_cons_zero, List.getElem?_cons_succ, Bool.and_eq_true, beq_iff_eq,
      Option.some.injEq]
    have hx := x.toNat_lt
    have hy := y.toNat_lt
    constructor
    · rintro ⟨rfl, rfl⟩; rfl
    · intro h
      exact ⟨UInt8.toNat_inj.1 (by show x.toNat = 169; omega),
        UInt8.toNat_inj.1 (by show y.toNat = 254; omega)⟩

/-- **C49 (link-local).**  An IPv4 address is link-local exactly if it is in 169.254.0.0/16, an
IPv4-mapped one if the embedded address is, any other IPv6 address if it is in fe80::/10, and nothing
else is. -/
theorem c49_link_local (a : Addr) :
    (a.length = 4 → (isLinkLocal a = true ↔ InBlock a [169, 254, 0, 0] 16)) ∧
    (a.length = 16 → a.take 12 = mappedPrefix → (isLinkLocal a = true ↔ InBlock (a.drop 12) [169, 254, 0, 0] 16)) ∧
    (a.length = 16 → a.take 12 ≠ mappedPrefix → (isLinkLocal a = true ↔ InBlock a [0xFE, 0x80] 10)) ∧
    (a.length ≠ 4 → a.length ≠ 16 → isLinkLocal a = false) := by
  refine ⟨link_local_v4 a, fun h ht => ?_, fun h ht => ?_, fun h4 h6 => ?_⟩
  · have hv4 : isV4 a = false := by simp [isV4, h]
    have hm : isMapped a = true := by simp [isMapped, isV6, h, ht]
    have hd : (a.drop 12).length = 4 := by simp [h]
    rw [← link_local_v4 _ hd]
    have hd4 : isV4 (a.drop 12) = true := by simp [isV4, hd]
    simp only [isLinkLocal, hv4, hm, hd4, if_true, Bool.false_eq_true, if_false, List.getElem?_drop]
  · have hv4 : isV4 a = false := by simp [isV4, h]
    have hm : isMapped a = false := by simp [isMapped, isV6, h, ht]
    have hv6 : isV6 a = true := by simp [isV6, h]
    have e := prefixCheck_spec a [0xFE, 0x80] 10 (by omega) (by decide)
    match a, h with
    | x :: y :: r, _ =>
      have hmask : maskOf 2 = 0xC0 := by decide
      have hc : ((0x80 : UInt8) &&& 0xC0) = 0x80 := by decide
      have hp : prefixCheck (x :: y :: r) [0xFE, 0x80] 10 =
          some (decide (x = 0xFE) && (y &&& 0xC0 == 0x80)) := by
        simp only [prefixCheck, show 10 / 8 = 1 from rfl, show 10 % 8 = 2 from rfl, checkBytes,
          List.getElem?_cons_zero]
        by_cases hx : x = 0xFE
        · simp [hx, hmask, hc]
        · simp [hx]
      rw [hp] at e
      simp only [Option.some.injEq] at e
      have : isLinkLocal (x :: y :: r) = (decide (x = 0xFE) && (y &&& 0xC0 == 0x80)) := by
        simp only [isLinkLocal, hv4, hm, hv6, if_true, Bool.false_eq_true, if_false, List.getElem?_cons_zero,
          List.getD_cons_succ, List.getD_cons_zero]
        congr 1
      rw [this, e, decide_eq_true_iff]
  · simp [isLinkLocal, isV4, isV6, isMapped, h4, h6]

/-! ### Mapped addresses -/

/-- **C49 (mapping).**  The mapped form of an IPv4 address is an IPv4-mapped IPv6 address whose
last four bytes are the address; different addresses have different mapped forms. -/
theorem c49_to_mapped (a : Addr) (h : a.length = 4) :
    ∃ m, toMapped a = some m ∧ isMapped m = true ∧ m.drop 12 = a ∧
      ∀ b, toMapped b = some m → b = a := by
  have h4 : isV4 a = true := by simp [isV4, h]
  refine ⟨mappedPrefix ++ a, by simp [toMapped, h4], ?_, by simp [mappedPrefix], ?_⟩
  · simp [isMapped, isV6, mappedPrefix, h]
  · intro b hb
    unfold toMapped at hb
    split at hb
    · simpa using hb
    · simp at hb

/-- **C49 violated: mapping back never works.**  The end of the copied range is the end of another
array: wherever the two objects are placed, the conversion throws, aborts or reads outside the
address. -/
theorem c49_violation_from_mapped (l : Layout) (a : Addr) : fromMapped l a = none := by
  unfold fromMapped
  rcases l.disjoint with h | h
  · simp only
    rw [if_neg (by omega), if_pos (by omega)]
  · simp only
    rw [if_pos (by omega)]

/-- ... and so asking whether an IPv4-mapped address is publicly routable never gives an answer. -/
theorem c49_violation_routable_mapped (l : Layout) (a : Addr) (h : isMapped a = true) :
    routable l a = none := by
  have hl : a.length = 16 := by
    simp only [isMapped, isV6, Bool.and_eq_true, beq_iff_eq] at h; exact h.1
  have h4 : isV4 a = false := by simp [isV4, hl]
  have h6 : isV6 a = true := by simp [isV6, hl]
  have ht : a.take 12 = mappedPrefix := by
    simp only [isMapped, Bool.and_eq_true, beq_iff_eq] at h; exact h.2
  have ha : a = mappedPrefix ++ a.drop 12 := by rw [← ht, List.take_append_drop]
  have hn : num a < 256 ^ 6 := by
    have h2 : a = [0, 0, 0, 0, 0, 0, 0, 0, 0, 0] ++ ([255, 255] ++ a.drop 12) := by
      conv => lhs; rw [ha]
      rfl
    have h3 : num a = num ([255, 255] ++ a.drop 12) := by
      conv => lhs; rw [h2]
      rfl
    rw [h3]
    have := num_lt ([255, 255] ++ a.drop 12)
    simpa [hl] using this
  have hm : anyMatch a [([0x20, 0], 3), ([0xff, 0], 8)] = some false := by
    rw [anyMatch_spec a _ (by rw [hl]; decide)]
    congr 1
    rw [decide_eq_false_iff_not]
    simp only [List.mem_cons, List.not_mem_nil, or_false, exists_eq_or_imp, exists_eq_left, InBlock,
      hl]
    have e1 : num [32, 0] / 2 ^ (8 * [(32 : UInt8), 0].length - 3) = 1 := by decide
    have e2 : num [255, 0] / 2 ^ (8 * [(255 : UInt8), 0].length - 8) = 255 := by decide
    rw [e1, e2, Nat.div_eq_of_lt (Nat.lt_trans hn (by decide)),
      Nat.div_eq_of_lt (Nat.lt_trans hn (by decide))]
    decide
  unfold routable routableV6
  simp only [h4, h6, Bool.false_eq_true, if_false, if_true, hm, h, c49_violation_from_mapped,
    Option.bind_none]

/-- **C49 (public IPv6 addresses).**  An IPv6 address that is not an IPv4-mapped one is reported publicly routable exactly
if it is in 2000::/3 or ff00::/8. -/
theorem c49_routable_v6 (l : Layout) (a : Addr) (h : a.length = 16) (hm : isMapped a = false) :
    routable l a = some (decide (num a / 2 ^ 125 = 1 ∨ num a / 2 ^ 120 = 255)) := by
  have h4 : isV4 a = false := by simp [isV4, h]
  have h6 : isV6 a = true := by simp [isV6, h]
  have e1 : num [32, 0] / 2 ^ (8 * [(32 : UInt8), 0].length - 3) = 1 := by decide
  have e2 : num [255, 0] / 2 ^ (8 * [(255 : UInt8), 0].length - 8) = 255 := by decide
  have hany : anyMatch a [([0x20, 0], 3), ([0xff, 0], 8)] =
      some (decide (num a / 2 ^ 125 = 1 ∨ num a / 2 ^ 120 = 255)) := by
    rw [anyMatch_spec a _ (by rw [h]; decide)]
    congr 1
    rw [decide_eq_decide]
    simp only [List.mem_cons, List.not_mem_nil, or_false, exists_eq_or_imp, exists_eq_left, InBlock, h, e1, e2]
  unfold routable routableV6
  rw [h4, h6, hany, hm]
  by_cases hp : num a / 2 ^ 125 = 1 ∨ num a / 2 ^ 120 = 255
  · simp only [decide_eq_true hp]; rfl
  · simp only [decide_eq_false hp]; rfl

/-- Witness: 2001:db8::1 and fe80::1. -/
theorem w_c49_routable_v6 (l : Layout) :
    routable l [0x20, 0x01, 0x0d, 0xb8, 0, 0, 0, 0, 0, 0, 0, 0, 0, 0, 0, 1] = some true ∧
    routable l [0xfe, 0x80, 0, 0, 0, 0, 0, 0, 0, 0, 0, 0, 0, 0, 0, 1] = some false := by
  constructor
  · rw [c49_routable_v6 l _ rfl (by decide)]; decide
  · rw [c49_routable_v6 l _ rfl (by decide)]; decide

/-- **C49 (zero).**  `IsZero` holds exactly for the addresses 0.0.0.0 and ::, not for an empty one. -/
theorem c49_zero (a : Addr) (h : a.length = 0 ∨ a.length = 4 ∨ a.length = 16) :
    isZero a = true ↔ a = [0, 0, 0, 0] ∨ a = [0, 0, 0, 0, 0, 0, 0, 0, 0, 0, 0, 0, 0, 0, 0, 0] := by
  have key : isZero a = true ↔ a = List.replicate a.length 0 ∧ a ≠ [] := by
    unfold isZero
    rw [Bool.and_eq_true, List.all_eq_true, Bool.not_eq_true', List.isEmpty_eq_false_iff]
    constructor
    · rintro ⟨x, y⟩
      exact ⟨List.eq_replicate_of_mem (fun b hb => by simpa using x b hb), y⟩
    · rintro ⟨x, y⟩
      refine ⟨fun b hb => ?_, y⟩
      rw [x] at hb
      simp [List.eq_of_mem_replicate hb]
  rw [key]
  constructor
  · rintro ⟨x, y⟩
    rcases h with h | h | h
    · exact absurd (List.length_eq_zero_iff.1 h) y
    · rw [h] at x; exact Or.inl x
    · rw [h] at x; exact Or.inr x
  · rintro (rfl | rfl) <;> exact ⟨rfl, by simp⟩

/-! ### Text forms -/

/-- **C49 violated: every CIDR literal is rejected.**  Whatever the address text and the prefix
length, `address/length` is refused, because the end of the text is reached while reading the
length. -/
theorem c49_violation_cidr (pton : Pton) (ip : Str) (n : Nat) (hip : '/' ∉ ip) :
    parseCIDR pton (ip ++ '/' :: Url.decimal n) = none := by
  have hd : ∀ c ∈ Url.decimal n, Url.isDigit c = true := fun c hc => Url.digit_of_toDigits hc
  have hs : '/' ∉ Url.decimal n := fun h => Url.digit_ne (hd _ h) (by decide) rfl
  unfold parseCIDR
  rw [Url.split_two '/' ip _ hip hs]
  simp only
  cases assignLiteral pton ip [] with
  | mk ok a =>
    cases ok with
    | false => rfl
    | true =>
      simp only
      have hp : (parseToU32 (Url.decimal n)).1 = false := by
        have hne : Url.decimal n ≠ [] := Nat.toDigits_ne_nil
        have hv : ∀ c ∈ Url.decimal n, Url.isSpace c = false := by
          intro c hc
          have := hd c hc
          simp only [Url.isDigit, Bool.and_eq_true, decide_eq_true_eq] at this
          simp only [Url.isSpace, Bool.or_eq_false_iff, beq_eq_false_iff_ne, Bool.and_eq_false_iff,
            decide_eq_false_iff_not]
          omega
        have h1 : (Url.decimal n).dropWhile Url.isSpace = Url.decimal n := by
          cases hc : Url.decimal n with
          | nil => exact absurd hc hne
          | cons c t => rw [List.dropWhile_cons, hv c (by rw [hc]; simp)]; rfl
        have h2 : (Url.decimal n).takeWhile Url.isDigit = Url.decimal n :=
          List.takeWhile_eq_self_iff.2 hd
        have h3 : (Url.decimal n).dropWhile Url.isDigit = [] := List.dropWhile_eq_nil_iff.2 hd
        unfold parseToU32
        simp only [h1, h2, h3, hne, if_false]
        split <;> rfl
      generalize parseToU32 (Url.decimal n) = q at hp
      obtain ⟨b, v⟩ := q
      simp only at hp
      subst hp
      rfl

/-- **C49 (CIDR literals).**  Whatever text is accepted as a CIDR block, the prefix length reported is
no longer than the address and the address is one that the text's first part spells. -/
theorem c49_cidr_range (pton : Pton) (s : Str) (a : Addr) (n : Nat) (h : parseCIDR pton s = some (a, n)) :
    n ≤ 8 * a.length ∧ ∃ ip bits, split s ['/'] false = some [ip, bits] ∧
      pton (decide (':' ∈ ip)) (ip.takeWhile (fun c => c.toNat != 0)) = some a := by
  unfold parseCIDR at h
  split at h
  · rename_i ip bits hs
    split at h
    · simp at h
    · rename_i a' ha
      split at h
      · rename_i n' hn
        split at h
        · simp at h
        · rename_i hle
          simp only [Option.some.injEq, Prod.mk.injEq] at h
          obtain ⟨rfl, rfl⟩ := h
          refine ⟨by omega, ip, bits, hs, ?_⟩
          unfold assignLiteral at ha
          simp only [List.append_nil] at ha
          split at ha
          · rename_i b hb
            simp only [Prod.mk.injEq, true_and] at ha
            rw [hb, ha]
          · simp at ha
      · simp at h
  · simp at h

/-- Such a text exists: with a space after the number the literal is accepted, unless it is longer than
the address. -/
theorem w_c49_cidr (pton : Pton) (h : pton false "10.0.0.0".toList = some [10, 0, 0, 0]) :
    parseCIDR pton "10.0.0.0/8 ".toList = some ([10, 0, 0, 0], 8) ∧
    parseCIDR pton "10.0.0.0/32 ".toList = some ([10, 0, 0, 0], 32) ∧
    parseCIDR pton "10.0.0.0/33 ".toList = none := by
  have a1 : split "10.0.0.0/8 ".toList ['/'] false = some ["10.0.0.0".toList, "8 ".toList] := by decide +kernel
  have a2 : split "10.0.0.0/32 ".toList ['/'] false = some ["10.0.0.0".toList, "32 ".toList] := by decide +kernel
  have a3 : split "10.0.0.0/33 ".toList ['/'] false = some ["10.0.0.0".toList, "33 ".toList] := by decide +kernel
  have b : assignLiteral pton "10.0.0.0".toList [] = (true, [10, 0, 0, 0]) := by
    unfold assignLiteral
    have e1 : ("10.0.0.0".toList ++ []).takeWhile (fun c : Char => c.toNat != 0) = "10.0.0.0".toList := by decide +kernel
    have e2 : decide (':' ∈ "10.0.0.0".toList) = false := by decide +kernel
    simp only [e1, e2, h]
  have p1 : parseToU32 "8 ".toList = (true, some 8) := by decide +kernel
  have p2 : parseToU32 "32 ".toList = (true, some 32) := by decide +kernel
  have p3 : parseToU32 "33 ".toList = (true, some 33) := by decide +kernel
  refine ⟨?_, ?_, ?_⟩
  · unfold parseCIDR; simp only [a1, b, p1]; rfl
  · unfold parseCIDR; simp only [a2, b, p2]; rfl
  · unfold parseCIDR; simp only [a3, b, p3]; rfl

/-- **C49 violated: every bracketed IPv6 literal is rejected**, because the text handed to
`inet_pton` still ends with the bracket (which no address contains). -/
theorem c49_violation_bracketed (pton : Pton) (hb : ∀ f s, ']' ∈ s → pton f s = none) (ip : Str)
    (hnul : ∀ c ∈ ip, c.toNat ≠ 0) : parseHostname pton ('[' :: (ip ++ [']'])) = none := by
  have hlen : ('[' :: (ip ++ [']'])).length - 2 = ip.length := by simp
  have hcond : 2 ≤ ('[' :: (ip ++ [']'])).length ∧ ('[' :: (ip ++ [']'])).head? = some '[' ∧
      ('[' :: (ip ++ [']'])).getLast? = some ']' := by
    refine ⟨by simp, rfl, ?_⟩
    rw [← List.cons_append, List.getLast?_append]; simp
  unfold parseHostname
  rw [if_pos hcond, hlen, List.drop_succ_cons, List.drop_zero, List.take_left]
  unfold assignLiteral
  have : (ip ++ [']']).takeWhile (fun c => c.toNat != 0) = ip ++ [']'] := by
    apply List.takeWhile_eq_self_iff.2
    intro c hc
    rcases List.mem_append.1 hc with h | h
    · simpa using hnul c h
    · simp only [List.mem_singleton] at h; subst h; decide
  simp only [this, hb _ _ (show ']' ∈ ip ++ [']'] by simp)]

/-- **C49 (hostnames).**  A host without brackets is accepted exactly when it is an IPv4 literal. -/
theorem c49_hostname (pton : Pton) (s : Str) (hbr : s.head? ≠ some '[')
    (hnul : ∀ c ∈ s, c.toNat ≠ 0) (a : Addr) :
    parseHostname pton s = some a ↔ pton (decide (':' ∈ s)) s = some a ∧ a.length = 4 := by
  have hc : (s ++ []).takeWhile (fun c => c.toNat != 0) = s := by
    rw [List.append_nil]
    apply List.takeWhile_eq_self_iff.2
    intro c hc; simpa using hnul c hc
  unfold parseHostname assignLiteral
  rw [if_neg (fun h => hbr h.2.1)]
  simp only [hc]
  cases pton (decide (':' ∈ s)) s with
  | none => simp
  | some b =>
    by_cases hl : b.length = 4
    · simp only [isV4, hl, beq_self_eq_true, if_true, Option.some.injEq]
      exact ⟨fun h => ⟨h, by rw [← h]; exact hl⟩, fun h => h.1⟩
    · have hf : isV4 b = false := by simp [isV4, hl]
      simp only [hf, Bool.false_eq_true, if_false, Option.some.injEq]
      constructor
      · intro h; simp at h
      · rintro ⟨rfl, h⟩; exact absurd h hl

/-- **C49 violated: the text of an IPv4 address** is padded with NUL characters, so it is not the
address text unless that has 15 characters ("127.0.0.1" for instance never compares equal). -/
theorem c49_violation_to_string (ntop : Bool → List UInt8 → Str) (a : Addr) (st : List UInt8)
    (h : a.length = 4) (hl : (ntop false a).length < 15) :
    (toStr ntop a st).length = 15 ∧ toStr ntop a st ≠ ntop false a := by
  have h4 : isV4 a = true := by simp [isV4, h]
  have e : (toStr ntop a st).length = 15 := by
    unfold toStr
    rw [if_pos h4, List.length_append, List.length_replicate]; omega
  exact ⟨e, fun he => by rw [he] at e; omega⟩

/-- **C49 violated: the text of an invalid (empty) address** is documented to be empty, but always
has 45 characters or more. -/
theorem c49_violation_to_string_invalid (ntop : Bool → List UInt8 → Str) (st : List UInt8) :
    45 ≤ (toStr ntop [] st).length := by
  unfold toStr
  rw [if_neg (by decide), List.length_append, List.length_replicate]; omega

/-- **C49 (text).**  Read as a C string, the text is the address text. -/
theorem c49_to_string_partial (ntop : Bool → List UInt8 → Str) (a : Addr) (st : List UInt8)
    (hn : ∀ f s, ∀ c ∈ ntop f s, c.toNat ≠ 0) :
    (a.length = 4 → (toStr ntop a st).takeWhile (fun c => c.toNat != 0) = ntop false a) ∧
    (a.length ≠ 4 → (toStr ntop a st).takeWhile (fun c => c.toNat != 0) = ntop true st) := by
  have key : ∀ (t : Str) (k : Nat), (∀ c ∈ t, c.toNat ≠ 0) →
      (t ++ List.replicate k (Char.ofNat 0)).takeWhile (fun c => c.toNat != 0) = t := by
    intro t k ht
    rw [List.takeWhile_append_of_pos (by intro c hc; simpa using ht c hc)]
    cases k with
    | zero => simp
    | succ k =>
      have hz : (Char.ofNat 0).toNat = 0 := by decide
      rw [List.replicate_succ, List.takeWhile_cons, hz]; simp
  unfold toStr
  constructor
  · intro h
    rw [if_pos (by simp [isV4, h])]
    exact key _ _ (hn _ _)
  · intro h
    rw [if_neg (by simp [isV4, h])]
    exact key _ _ (hn _ _)

/-! ### Socket addresses -/

/-- **C49 (socket addresses).**  For every valid end point and enough room, the socket address has
the right size and reads back as the same end point; an invalid address or too little room gives
none. -/
theorem c49_sockaddr (e : EndPoint) (room : Nat) :
    (e.addr.length = 4 → 16 ≤ room → ∃ s, toSockAddr e room = some s ∧ s.length = 16 ∧
      fromSockAddr s = some e) ∧
    (e.addr.length = 16 → 28 ≤ room → ∃ s, toSockAddr e room = some s ∧ s.length = 28 ∧
      fromSockAddr s = some e) ∧
    (e.addr.length ≠ 4 → e.addr.length ≠ 16 → toSockAddr e room = none) ∧
    (room < 16 → toSockAddr e room = none) ∧
    (e.addr.length = 16 → room < 28 → toSockAddr e room = none) := by
  obtain ⟨a, port⟩ := e
  have hport : UInt16.ofNat ((UInt8.ofNat (port.toNat / 256)).toNat * 256 +
      (UInt8.ofNat (port.toNat % 256)).toNat) = port := by
    have hp := port.toNat_lt
    apply UInt16.toNat_inj.1
    rw [UInt16.toNat_ofNat', UInt8.toNat_ofNat', UInt8.toNat_ofNat']
    omega
  refine ⟨?_, ?_, ?_, ?_, ?_⟩
  · intro h hr
    refine ⟨_, by simp only [toSockAddr, h, if_true]; rw [if_neg (by omega)], ?_, ?_⟩
    · simp [h]
    · simp only [fromSockAddr, List.cons_append, List.nil_append]
      rw [if_pos (by decide), if_neg (by simp [h]), hport]
      have : (a ++ List.replicate 8 0).take 4 = a := by rw [← h, List.take_left]
      rw [this]
  · intro (h : a.length = 16) hr
    refine ⟨_, by simp only [toSockAddr]; rw [if_neg (by omega), if_pos h, if_neg (by omega)], ?_, ?_⟩
    · simp [h]
    · simp only [fromSockAddr, List.cons_append, List.nil_append, List.append_assoc]
      rw [if_neg (by decide), if_pos (by decide), if_neg (by simp [h]), hport]
      have : ((List.replicate 4 0 ++ (a ++ List.replicate 4 0)).drop 4).take 16 = a := by
        rw [List.drop_left' (by simp), ← h, List.take_left]
      rw [this]
  · intro h1 h2
    simp [toSockAddr, h1, h2]
  · intro h
    simp only [toSockAddr]
    rw [if_pos h, if_pos (show room < 28 by omega)]
    simp
  · intro (h : a.length = 16) hr
    simp only [toSockAddr]
    rw [if_neg (by omega), if_pos h, if_pos hr]

/-! ### Concrete cases -/

example : matchesPrefix [192, 168, 5, 7] [192, 168, 0, 0] 16 = some true := by decide
example : matchesPrefix [192, 168, 5, 7] (mappedPrefix ++ [192, 168, 4, 0]) 119 = some true := by
  decide
example : maskPrefixLength [255, 255, 240, 0] = some 20 := by decide
example : isMapped (mappedPrefix ++ [8, 8, 8, 8]) = true := by decide
example : ∃ l : Layout, l.obj = 0 := ⟨⟨0, 100, by decide⟩, rfl⟩
example : dotted 8 8 8 8 = num [8, 8, 8, 8] := by decide

end Ltio.Ip
