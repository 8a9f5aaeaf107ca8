import Mathlib.Data.List.Basic
/-
Model of the RESP decoder used by the redis client codec (thirdparty/resp/resp/decoder.hpp).

A chunk of input is a list of bytes.  Every return path of the code returns `(outcome, size)`;
so does the model, and the sizes are modelled as written.  `buf_` is the list of its bytes.
`bulk_size_` is only read in state `st_bulk` (lines 373-401), so it is an argument of that state.
`array_stack_` and `value_stack_` are always pushed and popped together, except for the completed
value pushed right before `get_result` pops it, so they are one list of frames.  `long` is 64 bits.
Not modelled: failing allocations (`reserve` of a huge announced size).
-/
namespace Ltio.Redis

/-- `value_type` and `unique_value` (resp/unique_value.hpp:27-35,42-): a decoded value. -/
inductive Val where
  | null
  | str (b : List UInt8)
  | err (b : List UInt8)
  | int (i : Int)
  | bulk (b : List UInt8)
  | arr (vs : List Val)

/-- `enum state` (decoder.hpp:27-48), with `bulk_size_` as the argument of `st_bulk`. -/
inductive Stat where
  | start | str | strLf | errStr | errLf | int | intLf
  | bulkSize | bulkSizeLf | bulk (remaining : Nat) | bulkCr | bulkLf | arrSize | arrSizeLf
deriving DecidableEq, Repr

/-- `stat_` and `buf_` (decoder.hpp:587-590). -/
structure Leaf where
  stat : Stat
  buf : List UInt8
deriving DecidableEq, Repr

/-- `ischar(c) && !isctrl(c)` (decoder.hpp:75-83) for the signed `char` of that byte. -/
def printable (c : UInt8) : Bool := 32 ≤ c.toNat && c.toNat < 127

/-- `isdigit(c) || c == '-'`. -/
def numChar (c : UInt8) : Bool := (48 ≤ c.toNat && c.toNat ≤ 57) || c.toNat == 45

/-- The digits `strtol` reads, up to the first other character. -/
def digitsVal : Nat → List UInt8 → Nat
  | acc, [] => acc
  | acc, c :: cs =>
    if 48 ≤ c.toNat ∧ c.toNat ≤ 57 then digitsVal (10 * acc + (c.toNat - 48)) cs else acc

/-- `strtol(numstr, 0, 10)` on text of digits and '-' (lines 317, 466, 550), with saturation. -/
def strtol (b : List UInt8) : Int :=
  match b with
  | [] => 0
  | c :: cs =>
    if c.toNat = 45 then max (-(2 ^ 63)) (-(digitsVal 0 cs : Int))
    else min (2 ^ 63 - 1) (digitsVal 0 (c :: cs) : Int)

/-- Ways the byte loop of `decode_chunk` ends; the number is the size returned. -/
inductive Scan where
  | inc (l : Leaf) (k : Nat)
  | err (l : Leaf) (k : Nat)
  | val (l : Leaf) (k : Nat) (v : Val)
  | hdr (l : Leaf) (k : Nat) (n : Nat)   -- an array of `n ≥ 1` elements was announced
  | crash                                -- assertion or overflow of `numstr[32]`

/-- What to do with one byte outside `st_bulk` and the start of a bulk body. -/
inductive Act where
  | go (l : Leaf)
  | err (l : Leaf)
  | val (l : Leaf) (v : Val)
  | body (n : Nat)           -- a bulk string of `n ≥ 1` bytes starts
  | hdr (l : Leaf) (n : Nat)
  | crash

/-- Reading the characters of a number (lines 248-273, 430-455, 514-539). -/
def numStep (b : List UInt8) (c : UInt8) (same lf : Stat) : Act :=
  if c.toNat = 13 then
    if b.isEmpty then .err ⟨.start, b⟩ else .go ⟨lf, b⟩
  else if numChar c then .go ⟨same, b ++ [c]⟩
  else .err ⟨.start, b⟩

/-- Reading the characters of a line (lines 214-247). -/
def lineStep (b : List UInt8) (c : UInt8) (same lf : Stat) : Act :=
  if c.toNat = 13 then .go ⟨lf, b⟩
  else if printable c then .go ⟨same, b ++ [c]⟩
  else .err ⟨.start, b⟩

/-- Lines 186-572 for one byte `c`, except `st_bulk`. -/
def act (s : Stat) (b : List UInt8) (c : UInt8) : Act :=
  match s with
  | .start =>
    if c.toNat = 43 then .go ⟨.str, []⟩
    else if c.toNat = 45 then .go ⟨.errStr, []⟩
    else if c.toNat = 58 then .go ⟨.int, []⟩
    else if c.toNat = 36 then .go ⟨.bulkSize, []⟩
    else if c.toNat = 42 then .go ⟨.arrSize, []⟩
    else .err ⟨.start, []⟩
  | .str => lineStep b c .str .strLf
  | .errStr => lineStep b c .errStr .errLf
  | .bulkSize => numStep b c .bulkSize .bulkSizeLf
  | .arrSize => numStep b c .arrSize .arrSizeLf
  | .int => numStep b c .int .intLf
  | .strLf => if c.toNat = 10 then .val ⟨.start, b⟩ (.str b) else .err ⟨.start, b⟩
  | .errLf => if c.toNat = 10 then .val ⟨.start, b⟩ (.err b) else .err ⟨.start, b⟩
  | .bulkLf => if c.toNat = 10 then .val ⟨.start, b⟩ (.bulk b) else .err ⟨.start, b⟩
  | .bulkCr => if c.toNat = 13 then .go ⟨.bulkLf, b⟩ else .err ⟨.start, b⟩
  | .intLf =>
    if c.toNat = 10 then
      if b.length < 32 then .val ⟨.start, []⟩ (.int (strtol b)) else .crash
    else .err ⟨.start, b⟩
  | .bulkSizeLf =>
    if c.toNat = 10 then
      if b.length < 32 then
        if strtol b = -1 then .val ⟨.start, []⟩ .null
        else if strtol b = 0 then .go ⟨.bulkCr, []⟩
        else if strtol b < 0 then .err ⟨.start, []⟩
        else .body (strtol b).toNat
      else .crash
    else .err ⟨.start, b⟩
  | .arrSizeLf =>
    if c.toNat = 10 then
      if b.length < 32 then
        if strtol b = -1 ∨ strtol b = 0 then .val ⟨.start, []⟩ (.arr [])
        else if strtol b < 0 then .err ⟨.start, []⟩
        else .hdr ⟨.start, []⟩ (strtol b).toNat
      else .crash
    else .err ⟨.start, b⟩
  | .bulk _ => .crash   -- not used: handled by `scan`

/-- The byte loop of `decode_chunk` (lines 178-576) at index `i`, `bs` being the bytes from `i`. -/
def scan (l : Leaf) (i : Nat) (bs : List UInt8) : Scan :=
  match bs with
  | [] => .inc l i
  | c :: cs =>
    match l.stat with
    | .bulk m =>
      -- lines 373-401; `available = size - i`, `canRead = min(available, bulk_size_)`,
      -- and `buf_.append(ptr + i, canRead - i)` (line 381) as written
      if min (cs.length + 1) m < i then .crash
      else if m - min (cs.length + 1) m > 0 then
        .inc ⟨.bulk (m - min (cs.length + 1) m),
          l.buf ++ (c :: cs).take (min (cs.length + 1) m - i)⟩ (i + min (cs.length + 1) m)
      else if m = 0 then .crash   -- `assert(bulk_size_ > 0)`
      else scan ⟨.bulkCr, l.buf ++ (c :: cs).take (min (cs.length + 1) m - i)⟩
        (i + min (cs.length + 1) m) ((c :: cs).drop (min (cs.length + 1) m))
    | s =>
      match act s l.buf c with
      | .go l' => scan l' (i + 1) cs
      | .err l' => .err l' (i + 1)
      | .val l' v => .val l' (i + 1) v
      | .hdr l' n => .hdr l' (i + 1) n
      | .crash => .crash
      | .body n =>
        -- lines 340-363; `available = size - i - 1`, `canRead = min(bulk_size_, available)`
        if n > cs.length then
          .inc ⟨.bulk (n - min n cs.length), cs.take (min n cs.length)⟩ (i + min n cs.length + 1)
        else scan ⟨.bulkCr, cs.take (min n cs.length)⟩ (i + min n cs.length + 1)
          (cs.drop (min n cs.length))
termination_by bs.length
decreasing_by all_goals (simp only [List.length_drop, List.length_cons]; omega)

/-- A frame of `array_stack_` / `value_stack_`: elements still missing, elements decoded. -/
abbrev Frame := Nat × List Val

/-- The decoder object; the outermost array is first (it is the top of the C++ stacks). -/
structure Dec where
  leaf : Leaf
  stack : List Frame

def Dec.init : Dec := ⟨⟨.start, []⟩, []⟩

/-- `result` (resp/result.hpp) with the decoder left behind. -/
inductive R where
  | inc (d : Dec) (k : Nat)
  | err (d : Dec) (k : Nat)
  | ok (d : Dec) (k : Nat) (v : Val)
  | crash

/-- `res.size(res.size() + i + 1)` (line 497). -/
def R.shift (i : Nat) : R → R
  | .inc d k => .inc d (i + k)
  | .err d k => .err d (i + k)
  | .ok d k v => .ok d (i + k) v
  | .crash => .crash

theorem scan_hdr_pos (bs : List UInt8) : ∀ (l : Leaf) (i : Nat) (l' : Leaf) (k n : Nat),
    scan l i bs = .hdr l' k n → i < k ∧ k ≤ i + bs.length := by
  induction hn : bs.length using Nat.strongRecOn generalizing bs with
  | ind N ih =>
    intro l i l' k n h
    rw [scan.eq_def] at h
    split at h
    · simp at h
    · rename_i c cs
      simp only [List.length_cons] at hn
      split at h
      · split at h
        · simp at h
        · split at h
          · simp at h
          · split at h
            · simp at h
            · have := ih _ (by simp only [List.length_drop, List.length_cons]; omega) _ rfl _ _ _ _ _ h
              simp only [List.length_drop, List.length_cons] at this
              omega
      · split at h
        · have := ih _ (by omega) cs rfl _ _ _ _ _ h
          omega
        · simp at h
        · simp at h
        · simp only [Scan.hdr.injEq] at h
          omega
        · simp at h
        · split at h
          · simp at h
          · have := ih _ (by simp only [List.length_drop]; omega) _ rfl _ _ _ _ _ h
            simp only [List.length_drop] at this
            omega

mutual
/-- `decode_chunk` (lines 178-576), with the array stack empty: the byte loop, and after an array
header the elements (lines 486-504). -/
def decodeChunk (l : Leaf) (bs : List UInt8) : R :=
  match _h : scan l 0 bs with
  | .inc l' k => .inc ⟨l', []⟩ k
  | .err l' k => .err ⟨l', []⟩ k
  | .val l' k v => .ok ⟨l', []⟩ k v
  | .crash => .crash
  | .hdr l' k n =>
    if k = bs.length then .inc ⟨l', [(n, [])]⟩ k
    else (arrLoop l' n [] 0 (bs.drop k)).shift k
termination_by (bs.length, 0)
decreasing_by
  have := scan_hdr_pos _ _ _ _ _ _ _h
  simp only [List.length_drop]
  apply Prod.Lex.left; omega

/-- The loop of `decode_array` (lines 138-174): `n` elements to go, `i` bytes used so far, `bs` the
bytes from there on.  The `decode` of line 143 runs with the stack empty, that is `decode_chunk`. -/
def arrLoop (l : Leaf) (n : Nat) (vals : List Val) (i : Nat) (bs : List UInt8) : R :=
  match n with
  | 0 => .ok ⟨l, []⟩ i (.arr vals)
  | m + 1 =>
    match decodeChunk l bs with
    | .inc d k => .inc ⟨d.leaf, (m + 1, vals) :: d.stack⟩ (i + k)
    | .err d k => .err d (i + k)
    | .crash => .crash
    | .ok d k v => arrLoop d.leaf m (vals ++ [v]) (i + k) (bs.drop k)
termination_by (bs.length, n + 1)
decreasing_by
  · apply Prod.Lex.right; omega
  · simp only [List.length_drop]
    rcases Nat.eq_zero_or_pos k with hk | hk
    · subst hk; simp only [Nat.sub_zero]; apply Prod.Lex.right; omega
    · rcases Nat.eq_zero_or_pos bs.length with hb | hb
      · rw [hb, Nat.zero_sub]; apply Prod.Lex.right; omega
      · apply Prod.Lex.left; omega
end

/-- Lines 121-174 of `decode_array`: after a possible inner array, `i` bytes used. -/
def arrTail (l : Leaf) (n : Nat) (vals : List Val) (i : Nat) (bs : List UInt8) : R :=
  match bs with
  | [] => if n = 0 then .ok ⟨l, []⟩ i (.arr vals) else .inc ⟨l, [(n, vals)]⟩ i
  | _ :: _ => arrLoop l n vals i bs

/-- `decode_array` (lines 85-175) on saved frames, outermost first. -/
def decodeArr (l : Leaf) (n : Nat) (vals : List Val) (fs : List Frame) (bs : List UInt8) : R :=
  match fs with
  | [] => arrTail l n vals 0 bs
  | (n', vals') :: fs' =>
    match decodeArr l n' vals' fs' bs with
    | .inc d k => .inc ⟨d.leaf, (n, vals) :: d.stack⟩ k
    | .err d k => .err ⟨d.leaf, (n, vals) :: d.stack⟩ k
    | .crash => .crash
    | .ok d k v => arrTail d.leaf (n - 1) (vals ++ [v]) k (bs.drop k)

/-- `decode` (lines 62-72). -/
def decode (d : Dec) (bs : List UInt8) : R :=
  match d.stack with
  | [] => decodeChunk d.leaf bs
  | (n, vals) :: fs => decodeArr d.leaf n vals fs bs

end Ltio.Redis
