import Mathlib.Tactic.Linarith
import Mathlib.Algebra.Order.Ring.Nat

/-
Model of base/utils/gzip/gzip_utils.cc (C102): the buffer management around zlib.  zlib itself is a
parameter with the contract of its manual.
-/
namespace Ltio.Gzip

abbrev Byte := UInt8

/-- One run of `deflate(.., Z_FINISH)` or `inflate(.., 0)` over an input that is all there: the bytes it
has to write, what it returns in the end, and what the `i`th call returns that finds `w` bytes written and
room for `a`.  A call writes as much as fits, and returns `Z_OK` (0) if there is more to write; with no room
it returns `Z_BUF_ERROR` (-5).  A call with room to spare may return `Z_OK` once, because it made progress,
as `inflate` does for data that are cut off; then the next call returns the final value. -/
structure Stream where
  data : List Byte
  final : Int
  call : Nat → Nat → Nat → Int
  no_room : ∀ i w, call i w 0 = -5
  more : ∀ i w a, 0 < a → a < data.length - w → call i w a = 0
  exact : ∀ i w a, 0 < a → a = data.length - w → call i w a = 0 ∨ call i w a = final
  last : ∀ i w a, 0 < a → data.length - w < a → call i w a = final ∨
    (call i w a = 0 ∧ ∀ a', 0 < a' → call (i + 1) data.length a' = final)
  final_ne : final ≠ 0

/-- zlib, for one format: valid levels, compression and decompression.  `Z_STREAM_END` is 1. -/
structure Zlib where
  levelOk : Int → Bool
  deflate : Int → List Byte → Stream
  inflate : List Byte → Stream
  deflate_end : ∀ l x, (deflate l x).final = 1
  inverse : ∀ l x, (inflate (deflate l x).data).data = x ∧ (inflate (deflate l x).data).final = 1

/-- `std::string::resize`. -/
def resize (s : List Byte) (n : Nat) : List Byte := s.take n ++ List.replicate (n - s.length) 0

/-- State of the loops at their end: what zlib returned, the string and `total_out`. -/
structure Res where
  ret : Int
  buf : List Byte
  total : Nat

/-- Writing bytes into the string. -/
def write (buf : List Byte) (pos : Nat) (bs : List Byte) : List Byte :=
  buf.take pos ++ bs ++ buf.drop (pos + bs.length)

/-- `avail_out`, of 32 bits. -/
def room (buf : List Byte) (total : Nat) : Nat := (buf.length - total) % 4294967296

/-- Bytes of a call. -/
def chunk (S : Stream) (total avail : Nat) : List Byte := (S.data.drop total).take avail

/-- The loop, the same in all four functions (gzip_utils.cc:62-83, 111-132, 159-180, 208-228); `none` if it
has not ended after `fuel` rounds. -/
def loop : Nat → Nat → Stream → List Byte → Nat → Option Res
  | 0, _, _, _, _ => none
  | n + 1, i, S, buf, total =>
    let a := room buf total
    let bs := chunk S total a
    let ret := S.call i total a
    let buf' := write buf total bs
    let t := total + bs.length
    if ret = 1 then some ⟨ret, buf', t⟩
    else
      let buf'' := if buf'.length = t then resize buf' (buf'.length * 2) else buf'
      if ret = 0 then loop n (i + 1) S buf'' t else some ⟨ret, buf'', t⟩

/-- Rounds that are always enough (proved below). -/
def FUEL : Nat := 32

/-- `avail_in`, of 32 bits: of a longer input zlib gets the remainder of its size only, in every round. -/
def given (s : List Byte) : List Byte := s.take (s.length % 4294967296)

/-- `compress_gzip` and `compress_deflate` (gzip_utils.cc:42-142), which differ in the format: return value
and output string; `out` is what the string held before. -/
def compress (Z : Zlib) (level : Int) (s out : List Byte) : Option (Int × List Byte) :=
  if Z.levelOk level = false then some (-1, out)
  else (loop FUEL 0 (Z.deflate level (given s)) (resize out 16384) 0).map (fun r =>
    if r.ret = 1 then (0, resize r.buf r.total) else (-1, r.buf))

/-- `decompress_deflate` (gzip_utils.cc:144-193). -/
def decompressDeflate (Z : Zlib) (s out : List Byte) : Option (Int × List Byte) :=
  (loop FUEL 0 (Z.inflate (given s)) (resize out 16384) 0).map (fun r =>
    if r.ret = 1 then (0, resize r.buf r.total) else (-r.ret, r.buf))

/-- `decompress_gzip` (gzip_utils.cc:195-239): the string is not cut to what was written. -/
def decompressGzip (Z : Zlib) (s out : List Byte) : Option (Int × List Byte) :=
  (loop FUEL 0 (Z.inflate (given s)) (resize out 16384) 0).map (fun r =>
    if r.ret = 1 then (0, r.buf) else (-1, r.buf))

/-! ### Proofs -/

theorem resize_length (s : List Byte) (n : Nat) : (resize s n).length = n := by
  simp only [resize, List.length_append, List.length_take, List.length_replicate]; omega

theorem resize_take {s : List Byte} {n : Nat} (h : n ≤ s.length) : resize s n = s.take n := by
  have : n - s.length = 0 := by omega
  simp [resize, this]

/-- What the string holds after `t` bytes have been written and it has been resized to `cap`. -/
def held (S : Stream) (old : List Byte) (t cap : Nat) : List Byte :=
  S.data.take t ++ (resize (resize old 16384) cap).drop t

theorem held_length {S : Stream} {old : List Byte} {t cap : Nat} (h1 : t ≤ S.data.length) (h2 : t ≤ cap) :
    (held S old t cap).length = cap := by
  simp only [held, List.length_append, List.length_take, List.length_drop, resize_length]; omega

theorem write_held {S : Stream} {old : List Byte} {t cap n : Nat} (h1 : t ≤ S.data.length) :
    write (held S old t cap) t (chunk S t n) = held S old (t + (chunk S t n).length) cap := by
  have hl : (S.data.take t).length = t := by simp; omega
  have e1 : (held S old t cap).take t = S.data.take t := by
    rw [held, List.take_append_of_le_length (by omega), List.take_of_length_le (by omega)]
  have hc : (chunk S t n).length = min n (S.data.length - t) := by simp [chunk]
  have e2 : (held S old t cap).drop (t + (chunk S t n).length) =
      (resize (resize old 16384) cap).drop (t + (chunk S t n).length) := by
    rw [held, List.drop_append, hl, List.drop_of_length_le (by omega), List.nil_append,
      List.drop_drop]
    congr 1; omega
  have e3 : S.data.take t ++ chunk S t n = S.data.take (t + (chunk S t n).length) := by
    rw [List.take_add, hc]
    congr 1
    by_cases h : n ≤ S.data.length - t
    · rw [Nat.min_eq_left h, chunk]
    · rw [Nat.min_eq_right (by omega), chunk, List.take_of_length_le (by simp; omega),
        List.take_of_length_le (by simp)]
  rw [write, e1, e2, e3, held]

theorem grow_held {S : Stream} {old : List Byte} {cap : Nat} (h1 : cap ≤ S.data.length) (h2 : 16384 ≤ cap) :
    resize (held S old cap cap) (cap * 2) = held S old cap (cap * 2) := by
  have hl : (held S old cap cap).length = cap := held_length h1 (Nat.le_refl _)
  have e0 : held S old cap cap = S.data.take cap := by
    rw [held, List.drop_of_length_le (by rw [resize_length]), List.append_nil]
  have e1 : (S.data.take cap).length = cap := by simp; omega
  have e2 : resize (resize old 16384) (cap * 2) = resize old 16384 ++ List.replicate (cap * 2 - 16384) 0 := by
    rw [resize, resize_length, List.take_of_length_le (by rw [resize_length]; omega)]
  have e3 : (resize (resize old 16384) (cap * 2)).drop cap = List.replicate (cap * 2 - cap) 0 := by
    have e4 : cap * 2 - 16384 - (cap - 16384) = cap * 2 - cap := by omega
    rw [e2, List.drop_append, resize_length, List.drop_of_length_le (by rw [resize_length]; omega),
      List.nil_append, List.drop_replicate, e4]
  rw [resize, hl, e0, List.take_of_length_le (by omega), held, e3]

/-- The capacities of the string. -/
theorem cap_bound {k : Nat} (h : k ≤ 18) : 16384 * 2 ^ k ≤ 4294967296 := by
  calc 16384 * 2 ^ k ≤ 16384 * 2 ^ 18 := Nat.mul_le_mul_left _ (Nat.pow_le_pow_right (by decide) h)
    _ = 4294967296 := by decide

/-- What a loop that has ended gives. -/
def Ended (S : Stream) (old : List Byte) (r : Res) : Prop :=
  r.ret = S.final ∧ (S.final = 1 → r.total = S.data.length ∧ ∃ k, r.buf = held S old S.data.length (16384 * 2 ^ k) ∧
    S.data.length ≤ 16384 * 2 ^ k ∧ (k = 0 ∨ 16384 * 2 ^ (k - 1) ≤ S.data.length))

theorem round_eq {n i : Nat} {S : Stream} {old : List Byte} {t cap : Nat} (h1 : t ≤ S.data.length) :
    loop (n + 1) i S (held S old t cap) t =
      (if S.call i t (room (held S old t cap) t) = 1 then
        some ⟨S.call i t (room (held S old t cap) t),
          held S old (t + (chunk S t (room (held S old t cap) t)).length) cap,
          t + (chunk S t (room (held S old t cap) t)).length⟩
      else
        if S.call i t (room (held S old t cap) t) = 0 then
          loop n (i + 1) S (if (held S old (t + (chunk S t (room (held S old t cap) t)).length) cap).length =
              t + (chunk S t (room (held S old t cap) t)).length then
            resize (held S old (t + (chunk S t (room (held S old t cap) t)).length) cap)
              ((held S old (t + (chunk S t (room (held S old t cap) t)).length) cap).length * 2)
            else held S old (t + (chunk S t (room (held S old t cap) t)).length) cap)
            (t + (chunk S t (room (held S old t cap) t)).length)
        else some ⟨S.call i t (room (held S old t cap) t),
          if (held S old (t + (chunk S t (room (held S old t cap) t)).length) cap).length =
              t + (chunk S t (room (held S old t cap) t)).length then
            resize (held S old (t + (chunk S t (room (held S old t cap) t)).length) cap)
              ((held S old (t + (chunk S t (room (held S old t cap) t)).length) cap).length * 2)
            else held S old (t + (chunk S t (room (held S old t cap) t)).length) cap,
          t + (chunk S t (room (held S old t cap) t)).length⟩) := by
  simp only [loop, write_held h1]

/-- The last round. -/
theorem round_final {n i : Nat} {S : Stream} {old : List Byte} {t cap : Nat} (h1 : t ≤ S.data.length)
    (h2 : t < cap) (h3 : cap - t < 4294967296) (h4 : S.data.length - t < cap - t)
    (hl : S.call i t (cap - t) = S.final) :
    ∃ r, loop (n + 1) i S (held S old t cap) t = some r ∧ r.ret = S.final ∧
      r.total = S.data.length ∧ r.buf = held S old S.data.length cap := by
  have hr : room (held S old t cap) t = cap - t := by
    rw [room, held_length h1 (by omega), Nat.mod_eq_of_lt h3]
  have hc : t + (chunk S t (cap - t)).length = S.data.length := by simp [chunk]; omega
  rw [round_eq h1, hr, hl, hc]
  by_cases hf : S.final = 1
  · rw [if_pos hf]; exact ⟨_, rfl, rfl, rfl, rfl⟩
  · rw [if_neg hf, if_neg S.final_ne, if_neg (by rw [held_length (Nat.le_refl _) (by omega)]; omega)]
    exact ⟨_, rfl, rfl, rfl, rfl⟩

/-- The last rounds: one, or two if the first reports progress. -/
theorem round_last {n i : Nat} {S : Stream} {old : List Byte} {t cap : Nat} (h1 : t ≤ S.data.length)
    (h2 : t < cap) (h3 : cap - t < 4294967296) (h4 : S.data.length - t < cap - t) :
    ∃ r, loop (n + 2) i S (held S old t cap) t = some r ∧ r.ret = S.final ∧
      r.total = S.data.length ∧ r.buf = held S old S.data.length cap := by
  rcases S.last i t (cap - t) (by omega) h4 with hl | ⟨hl, hn⟩
  · exact round_final h1 h2 h3 h4 hl
  · have hr : room (held S old t cap) t = cap - t := by
      rw [room, held_length h1 (by omega), Nat.mod_eq_of_lt h3]
    have hc : t + (chunk S t (cap - t)).length = S.data.length := by simp [chunk]; omega
    have hlen : (held S old S.data.length cap).length = cap := held_length (Nat.le_refl _) (by omega)
    have e : loop (n + 1 + 1) i S (held S old t cap) t =
        loop (n + 1) (i + 1) S (held S old S.data.length cap) S.data.length := by
      rw [round_eq h1, hr, hl, hc, if_neg (by decide), if_pos rfl, hlen, if_neg (by omega)]
    rw [e]
    exact round_final (Nat.le_refl _) (by omega) (by omega) (by omega) (hn _ (by omega))

/-- A round that fills the string and goes on. -/
theorem round_more {n i : Nat} {S : Stream} {old : List Byte} {t cap : Nat} (h2 : t < cap)
    (h3 : cap - t < 4294967296) (h4 : cap ≤ S.data.length) (h5 : 16384 ≤ cap)
    (h6 : S.call i t (cap - t) = 0) :
    loop (n + 1) i S (held S old t cap) t = loop n (i + 1) S (held S old cap (cap * 2)) cap := by
  have h1 : t ≤ S.data.length := by omega
  have hr : room (held S old t cap) t = cap - t := by
    rw [room, held_length h1 (by omega), Nat.mod_eq_of_lt h3]
  have hc : t + (chunk S t (cap - t)).length = cap := by simp [chunk]; omega
  have hl : (held S old cap cap).length = cap := held_length h4 (Nat.le_refl _)
  rw [round_eq h1, hr, h6, hc, if_neg (by decide), if_pos rfl, hl, if_pos rfl, grow_held h4 h5]

theorem loop_ends (S : Stream) (old : List Byte) (hlen : S.data.length < 4294967296) :
    ∀ (j k n i t : Nat), j + k = 18 → j + 3 ≤ n →
      ((k = 0 ∧ t = 0) ∨ (1 ≤ k ∧ t = 16384 * 2 ^ (k - 1))) → t ≤ S.data.length →
      ∃ r, loop n i S (held S old t (16384 * 2 ^ k)) t = some r ∧ Ended S old r := by
  intro j
  induction j with
  | zero =>
    intro k n i t hk hn ht hd
    obtain ⟨n, rfl⟩ : ∃ m, n = m + 2 := ⟨n - 2, by omega⟩
    have hk18 : k = 18 := by omega
    subst hk18
    have ht' : t = 16384 * 2 ^ 17 := by rcases ht with h | h; omega; exact h.2
    have e : 16384 * 2 ^ 17 = 2147483648 := by decide
    have e2 : 16384 * 2 ^ 18 = 4294967296 := by decide
    obtain ⟨r, h1, h2, h3, h4⟩ := round_last (n := n) (S := S) (old := old) (t := t) (cap := 16384 * 2 ^ 18)
      hd (by omega) (by omega) (by omega)
    exact ⟨r, h1, h2, fun _ => ⟨h3, 18, h4, by omega, Or.inr (by show 16384 * 2 ^ 17 ≤ _; omega)⟩⟩
  | succ j ih =>
    intro k n i t hk hn ht hd
    obtain ⟨n, rfl⟩ : ∃ m, n = m + 2 := ⟨n - 2, by omega⟩
    have hcap := cap_bound (k := k) (by omega)
    have hcap' : 16384 * 2 ^ k ≤ 2147483648 := by
      calc 16384 * 2 ^ k ≤ 16384 * 2 ^ 17 := Nat.mul_le_mul_left _ (Nat.pow_le_pow_right (by decide) (by omega))
        _ = 2147483648 := by decide
    have hpos : 0 < 2 ^ k := Nat.pos_of_ne_zero (by simp)
    have htc : t < 16384 * 2 ^ k ∧ (k = 0 ∨ 16384 * 2 ^ (k - 1) ≤ t) := by
      rcases ht with h | h
      · exact ⟨by rw [h.2]; omega, Or.inl h.1⟩
      · have : 2 ^ k = 2 ^ (k - 1) * 2 := by rw [← Nat.pow_succ]; congr 1; omega
        exact ⟨by rw [h.2, this]; have : 0 < 2 ^ (k - 1) := Nat.pos_of_ne_zero (by simp); omega, Or.inr (by omega)⟩
    have hmore : 16384 * 2 ^ k ≤ S.data.length → S.call i t (16384 * 2 ^ k - t) = 0 →
        ∃ r, loop (n + 2) i S (held S old t (16384 * 2 ^ k)) t = some r ∧ Ended S old r := by
      intro hle hz
      rw [round_more (n := n + 1) htc.1 (by omega) hle (by omega) hz]
      have e : 16384 * 2 ^ k * 2 = 16384 * 2 ^ (k + 1) := by rw [Nat.pow_succ]; omega
      rw [e]
      exact ih (k + 1) (n + 1) (i + 1) (16384 * 2 ^ k) (by omega) (by omega) (Or.inr ⟨by omega, by simp⟩) hle
    by_cases hlt : S.data.length - t < 16384 * 2 ^ k - t
    · obtain ⟨r, h1, h2, h3, h4⟩ := round_last (n := n) (S := S) (old := old) (t := t) (cap := 16384 * 2 ^ k)
        hd htc.1 (by omega) hlt
      refine ⟨r, h1, h2, fun _ => ⟨h3, k, h4, by omega, ?_⟩⟩
      rcases htc.2 with h | h
      · exact Or.inl h
      · exact Or.inr (by omega)
    · have hle : 16384 * 2 ^ k ≤ S.data.length := by omega
      by_cases heq : 16384 * 2 ^ k = S.data.length
      · rcases S.exact i t (16384 * 2 ^ k - t) (by omega) (by omega) with hz | hz
        · exact hmore hle hz
        · have hr : room (held S old t (16384 * 2 ^ k)) t = 16384 * 2 ^ k - t := by
            rw [room, held_length hd (by omega), Nat.mod_eq_of_lt (by omega)]
          have hc : t + (chunk S t (16384 * 2 ^ k - t)).length = 16384 * 2 ^ k := by simp [chunk]; omega
          rw [round_eq hd, hr, hz, hc]
          by_cases hf : S.final = 1
          · rw [if_pos hf]
            refine ⟨_, rfl, rfl, fun _ => ⟨heq, k, by rw [← heq], by omega, ?_⟩⟩
            rcases htc.2 with h | h
            · exact Or.inl h
            · exact Or.inr (by omega)
          · rw [if_neg hf, if_neg S.final_ne]
            exact ⟨_, rfl, rfl, fun h => absurd h hf⟩
      · exact hmore hle (S.more i t _ (by omega) (by omega))

theorem start_held (S : Stream) (old : List Byte) : resize old 16384 = held S old 0 (16384 * 2 ^ 0) := by
  have : resize (resize old 16384) 16384 = resize old 16384 := by
    rw [resize_take (by rw [resize_length]), List.take_of_length_le (by rw [resize_length])]
  simp [held, this]

theorem run_ends (S : Stream) (old : List Byte) (hlen : S.data.length < 4294967296) :
    ∃ r, loop FUEL 0 S (resize old 16384) 0 = some r ∧ Ended S old r := by
  rw [start_held S old]
  exact loop_ends S old hlen 18 0 FUEL 0 0 (by omega) (by decide) (Or.inl ⟨rfl, rfl⟩) (by omega)

/-- Output beyond 4 GiB: the loop ends with `Z_BUF_ERROR`. -/
theorem loop_large (S : Stream) (old : List Byte) (hlen : 4294967296 < S.data.length) :
    ∀ (j k n i t : Nat), j + k = 19 → j + 2 ≤ n →
      ((k = 0 ∧ t = 0) ∨ (1 ≤ k ∧ t = 16384 * 2 ^ (k - 1))) →
      ∃ r, loop n i S (held S old t (16384 * 2 ^ k)) t = some r ∧ r.ret = -5 := by
  intro j
  induction j with
  | zero =>
    intro k n i t hk hn ht
    obtain ⟨n, rfl⟩ : ∃ m, n = m + 1 := ⟨n - 1, by omega⟩
    have hk18 : k = 19 := by omega
    subst hk18
    have ht' : t = 16384 * 2 ^ 18 := by rcases ht with h | h; omega; exact h.2
    have e : 16384 * 2 ^ 18 = 4294967296 := by decide
    have e2 : 16384 * 2 ^ 19 = 8589934592 := by decide
    have hd : t ≤ S.data.length := by omega
    have hr : room (held S old t (16384 * 2 ^ 19)) t = 0 := by
      rw [room, held_length hd (by omega), e2, ht', e]
    rw [round_eq hd, hr, S.no_room, if_neg (by decide), if_neg (by decide)]
    exact ⟨_, rfl, rfl⟩
  | succ j ih =>
    intro k n i t hk hn ht
    obtain ⟨n, rfl⟩ : ∃ m, n = m + 1 := ⟨n - 1, by omega⟩
    have hcap := cap_bound (k := k) (by omega)
    have hpos : 0 < 2 ^ k := Nat.pos_of_ne_zero (by simp)
    have htc : t < 16384 * 2 ^ k ∧ 16384 * 2 ^ k - t < 4294967296 := by
      rcases ht with h | h
      · have := h.1
        subst this
        rw [h.2]; constructor <;> decide
      · have : 2 ^ k = 2 ^ (k - 1) * 2 := by rw [← Nat.pow_succ]; congr 1; omega
        have : 0 < 2 ^ (k - 1) := Nat.pos_of_ne_zero (by simp)
        exact ⟨by omega, by omega⟩
    rw [round_more htc.1 htc.2 (by omega) (by omega) (S.more i t _ (by omega) (by omega))]
    have e : 16384 * 2 ^ k * 2 = 16384 * 2 ^ (k + 1) := by rw [Nat.pow_succ]; omega
    rw [e]
    exact ih (k + 1) n (i + 1) (16384 * 2 ^ k) (by omega) (by omega) (Or.inr ⟨by omega, by simp⟩)

theorem given_id {s : List Byte} (h : s.length < 4294967296) : given s = s := by
  rw [given, Nat.mod_eq_of_lt h, List.take_length]

theorem held_take (S : Stream) (old : List Byte) {k : Nat} (h : S.data.length ≤ 16384 * 2 ^ k) :
    resize (held S old S.data.length (16384 * 2 ^ k)) S.data.length = S.data := by
  rw [resize_take (by rw [held_length (Nat.le_refl _) h]; exact h), held,
    List.take_append_of_le_length (by simp), List.take_take]
  simp

/-- **C103.** Compressing succeeds with exactly what zlib writes for the input, whatever the output string
held, if input and output are below 4 GiB; an invalid level is reported. -/
theorem c103_compress (Z : Zlib) (l : Int) (s out : List Byte) (hs : s.length < 4294967296)
    (hz : (Z.deflate l s).data.length < 4294967296) :
    (Z.levelOk l = true → compress Z l s out = some (0, (Z.deflate l s).data)) ∧
    (Z.levelOk l = false → compress Z l s out = some (-1, out)) := by
  constructor
  · intro hl
    obtain ⟨r, hr, he, hk⟩ := run_ends (Z.deflate l s) out hz
    obtain ⟨ht, k, hb, hle, _⟩ := hk (Z.deflate_end l s)
    rw [compress, if_neg (by simp [hl]), given_id hs, hr]
    simp only [Option.map_some]
    rw [he, Z.deflate_end, if_pos rfl, hb, ht, held_take _ _ hle]
  · intro hl
    rw [compress, if_pos hl]

/-- **C103.** `decompress_deflate` gives exactly what zlib writes and 0 if the data are good, and another
number if they are not; it ends in any case.  Output below 4 GiB. -/
theorem c103_inflate (Z : Zlib) (s out : List Byte) (hs : s.length < 4294967296)
    (hz : (Z.inflate s).data.length < 4294967296) :
    ((Z.inflate s).final = 1 → decompressDeflate Z s out = some (0, (Z.inflate s).data)) ∧
    ((Z.inflate s).final ≠ 1 → ∃ c o, decompressDeflate Z s out = some (c, o) ∧ c ≠ 0) := by
  obtain ⟨r, hr, he, hk⟩ := run_ends (Z.inflate s) out hz
  constructor
  · intro hf
    obtain ⟨ht, k, hb, hle, _⟩ := hk hf
    rw [decompressDeflate, given_id hs, hr]
    simp only [Option.map_some]
    rw [he, hf, if_pos rfl, hb, ht, held_take _ _ hle]
  · intro hf
    refine ⟨-r.ret, r.buf, ?_, ?_⟩
    · rw [decompressDeflate, given_id hs, hr]
      simp only [Option.map_some]
      rw [he, if_neg hf]
    · rw [he]; have := (Z.inflate s).final_ne; omega

/-- **C103.** Compressing with `compress_deflate` and decompressing with `decompress_deflate` gives the data
back. -/
theorem c103_deflate_round_trip (Z : Zlib) (l : Int) (s o1 o2 : List Byte) (hl : Z.levelOk l = true)
    (hs : s.length < 4294967296) (hz : (Z.deflate l s).data.length < 4294967296) :
    (compress Z l s o1).bind (fun r => decompressDeflate Z r.2 o2) = some (0, s) := by
  rw [(c103_compress Z l s o1 hs hz).1 hl, Option.bind_some]
  obtain ⟨h1, h2⟩ := Z.inverse l s
  have := (c103_inflate Z (Z.deflate l s).data o2 hz (by rw [h1]; exact hs)).1 h2
  rw [this, h1]

/-- **C102.** `decompress_gzip` gives 0 and, at the beginning of its output, what zlib writes, if the data
are good, and -1 if they are not; it ends in any case. -/
theorem c102_gunzip_prefix (Z : Zlib) (s out : List Byte) (hs : s.length < 4294967296)
    (hz : (Z.inflate s).data.length < 4294967296) :
    ((Z.inflate s).final = 1 → ∃ o, decompressGzip Z s out = some (0, o) ∧
      o.take (Z.inflate s).data.length = (Z.inflate s).data) ∧
    ((Z.inflate s).final ≠ 1 → ∃ o, decompressGzip Z s out = some (-1, o)) := by
  obtain ⟨r, hr, he, hk⟩ := run_ends (Z.inflate s) out hz
  constructor
  · intro hf
    obtain ⟨ht, k, hb, hle, _⟩ := hk hf
    refine ⟨r.buf, ?_, ?_⟩
    · rw [decompressGzip, given_id hs, hr]
      simp only [Option.map_some]
      rw [he, hf, if_pos rfl]
    · rw [hb, held, List.take_append_of_le_length (by simp), List.take_take]
      simp
  · intro hf
    refine ⟨r.buf, ?_⟩
    rw [decompressGzip, given_id hs, hr]
    simp only [Option.map_some]
    rw [he, if_neg hf]

/-- **C102, violation.** `decompress_gzip` does not cut its output: data shorter than 16 KiB come back
followed by what the output string held there before, or zero bytes, 16 KiB in all. -/
theorem c102_gunzip_padded (Z : Zlib) (l : Int) (s o1 o2 : List Byte) (hl : Z.levelOk l = true)
    (hs : s.length < 16384) (hz : (Z.deflate l s).data.length < 4294967296) :
    (compress Z l s o1).bind (fun r => decompressGzip Z r.2 o2) =
      some (0, s ++ (resize o2 16384).drop s.length) ∧
    s ++ (resize o2 16384).drop s.length ≠ s := by
  rw [(c103_compress Z l s o1 (by omega) hz).1 hl, Option.bind_some]
  obtain ⟨h1, h2⟩ := Z.inverse l s
  obtain ⟨r, hr, he, hk⟩ := run_ends (Z.inflate (Z.deflate l s).data) o2 (by rw [h1]; omega)
  obtain ⟨ht, k, hb, hle, hmin⟩ := hk h2
  have hk0 : k = 0 := by
    rcases hmin with h | h
    · exact h
    · rw [h1] at h
      have : 0 < 2 ^ (k - 1) := Nat.pos_of_ne_zero (by simp)
      omega
  constructor
  · rw [decompressGzip, given_id hz, hr]
    simp only [Option.map_some]
    rw [he, h2, if_pos rfl, hb, hk0, held, h1]
    have : resize (resize o2 16384) (16384 * 2 ^ 0) = resize o2 16384 := by
      rw [resize_take (by rw [resize_length]; decide), List.take_of_length_le (by rw [resize_length]; decide)]
    rw [this, List.take_length]
  · intro hc
    have := congrArg List.length hc
    rw [List.length_append, List.length_drop, resize_length] at this
    omega

/-- **C102, violation.** Of an input of 4 GiB or more, only as many bytes as the remainder of its size by
4 GiB are compressed, and success is reported. -/
theorem c102_large_input (Z : Zlib) (l : Int) (s out : List Byte) (hl : Z.levelOk l = true)
    (hs : 4294967296 ≤ s.length) (hz : (Z.deflate l (given s)).data.length < 4294967296) :
    compress Z l s out = some (0, (Z.deflate l (given s)).data) ∧ given s ≠ s ∧
    (Z.inflate (Z.deflate l (given s)).data).data = given s := by
  refine ⟨?_, ?_, (Z.inverse l _).1⟩
  · obtain ⟨r, hr, he, hk⟩ := run_ends (Z.deflate l (given s)) out hz
    obtain ⟨ht, k, hb, hle, _⟩ := hk (Z.deflate_end l _)
    rw [compress, if_neg (by simp [hl]), hr]
    simp only [Option.map_some]
    rw [he, Z.deflate_end, if_pos rfl, hb, ht, held_take _ _ hle]
  · intro hc
    have := congrArg List.length hc
    rw [given, List.length_take] at this
    have := Nat.mod_lt s.length (show 0 < 4294967296 by decide)
    omega

/-- **C103.** Data of more than 4 GiB are refused, by all functions: no function goes on forever or
returns a part of them as success. -/
theorem c103_large_output (Z : Zlib) (s out : List Byte) (hz : 4294967296 < (Z.inflate (given s)).data.length) :
    (∃ o, decompressDeflate Z s out = some (5, o)) ∧ ∃ o, decompressGzip Z s out = some (-1, o) := by
  have h := loop_large (Z.inflate (given s)) out hz 19 0 FUEL 0 0 (by omega) (by decide) (Or.inl ⟨rfl, rfl⟩)
  rw [← start_held] at h
  obtain ⟨r, hr, he⟩ := h
  constructor
  · refine ⟨r.buf, ?_⟩
    rw [decompressDeflate, hr]
    simp only [Option.map_some]
    rw [he]; rfl
  · refine ⟨r.buf, ?_⟩
    rw [decompressGzip, hr]
    simp only [Option.map_some]
    rw [he]; rfl

/-- A stream that writes given bytes. -/
def storedStream (d : List Byte) (f : Int) (h : f ≠ 0) : Stream where
  data := d
  final := f
  call _ w a := if a = 0 then -5 else if a < d.length - w then 0 else f
  no_room _ w := by simp
  more _ w a h1 h2 := by rw [if_neg (by omega), if_pos h2]
  exact _ w a h1 h2 := Or.inr (by rw [if_neg (by omega), if_neg (by omega)])
  last _ w a h1 h2 := Or.inl (by rw [if_neg (by omega), if_neg (by omega)])
  final_ne := h

/-- A format that stores the data after a mark. -/
def stored : Zlib where
  levelOk l := decide (-1 ≤ l ∧ l ≤ 9)
  deflate _ x := storedStream (1 :: x) 1 (by decide)
  inflate s := if s.head? = some 1 then storedStream s.tail 1 (by decide) else storedStream [] (-3) (by decide)
  deflate_end _ _ := rfl
  inverse l x := by simp [storedStream]

/-- The contract of C102 can be met: a format, with bad data and a round trip. -/
theorem w_c102 : (compress stored 9 [7, 8] []).bind (fun r => decompressDeflate stored r.2 [5]) = some (0, [7, 8]) ∧
    (∃ o, decompressGzip stored [2, 7] [] = some (-1, o)) ∧ stored.levelOk 10 = false := by
  refine ⟨c103_deflate_round_trip stored 9 [7, 8] [] [5] (by decide) (by decide) (by decide), ?_, by decide⟩
  exact (c102_gunzip_prefix stored [2, 7] [] (by decide) (by decide)).2 (by decide)

end Ltio.Gzip
