import Verif.Redis.Rpc
import Verif.Redis.BufferRun
/-
How a redis connection starts (net_io/codec/redis/resp_codec_service.cc:35-66, 105-128), with the memory of the replies it looks at:
C195, C196.

`HandleInitResponse` compares the characters `strncmp` finds at `string().data()`, not the string: a `resp::buffer`
(`Verif.Redis.Buffer`).  The string of a reply is built by the decoder (decoder.hpp:279, unique_value.hpp:98-105) and then moved some
number of times, through the decoder's stack, the result and the response's vector (unique_value.hpp:50-76).
-/
namespace Ltio.Redis.Startup
open Buffer (S Ptr Bytes)

/-- `strncmp(w, p, |w|) == 0` from the character `off` on (`w` without NUL): a character is read only if those before were the same.
`none`: a read outside of the memory `p` points to. -/
def cmpAt (same : UInt8 → UInt8 → Bool) (E : Nat → Bytes) (s : S) (p : Ptr) (off : Nat) : Bytes → Option Bool
  | [] => some true
  | c :: w => (s.read E p (off + 1)).bind (fun x => if same c (x.getD off 0) then cmpAt same E s p (off + 1) w else some false)

/-- How the string of a reply comes to be: built from the `n` bytes the decoder collected (unique_value.hpp:98-105) and moved `m` times
(unique_value.hpp:50-59). -/
def valueOps : Nat → Nat → List Buffer.Op
  | 0, n => [.new 0, .append 0 0 0 n]
  | m + 1, n => valueOps m n ++ [.new (m + 1), .move (m + 1) m]

/-- Whether the status `t` compares equal to `w`; `m` counts the moves, memory holds `J` before it is written. -/
def textIs (same : UInt8 → UInt8 → Bool) (w : Bytes) (J : Nat → Nat → UInt8) (m : Nat) (t : Bytes) : Option Bool :=
  (S.empty.run (fun _ => t) J (valueOps m t.length)).bind (fun s => (s.bufs m).bind (fun b => cmpAt same (fun _ => t) s b.data 0 w))

/-- The memory of the replies: how often each is moved and what its memory held before. -/
structure Mem where
  moves : Nat → Nat
  junk : Nat → Nat → Nat → UInt8

/-- `type() == ty_string && strncmp("OK", string().data(), 2) == 0` (lines 111-112, 121-122). -/
def okMem (M : Mem) (i : Nat) : Option Val → Option Bool
  | some (.str t) => textIs (· == ·) [79, 75] (M.junk i) (M.moves i) t
  | _ => some false

/-- `HandleInitResponse` (lines 105-128). -/
def initMem (M : Mem) (auth select : Bool) (vs : List Val) : Option (List Ev) :=
  (if auth then okMem M 0 vs[0]? else some true).bind (fun a => if !a then some [.closeService] else
  (if select then (if auth then okMem M 1 vs[1]? else okMem M 0 vs[0]?) else some true).bind (fun b =>
    if !b then some [.closeService] else some [.ready]))

/-- `OnDataReceived` (lines 68-103) while the replies to AUTH and SELECT are awaited; otherwise as in `onData`. -/
def onDataM (M : Mem) (c : Codec) (chunk : List UInt8) : Option Codec :=
  match loop ((c.buf ++ chunk).length + 1) c.dec c.count (c.cur.getD []) (c.buf ++ chunk) with
  | none => none
  | some (d, count, acc, rest) =>
    if count = 0 ∧ (c.auth || c.select) = true then
      (initMem M c.auth c.select acc).map (fun evs => { c with
        dec := d, count := 0, cur := none, buf := rest, auth := false, select := false, out := c.out ++ evs })
    else onData c chunk none

/-- The chunks of the replies arrive one after the other. -/
def runM (M : Mem) (c : Codec) : List (List UInt8) → Option Codec
  | [] => some c
  | x :: t => (onDataM M c x).bind (fun c' => runM M c' t)

/-- A heartbeat's response is looked at too: `RedisResponse::IsHeartbeat` (redis_response.cc:31-38, client_channel.cc:115). -/
def lower (c : UInt8) : UInt8 := if 65 ≤ c ∧ c ≤ 90 then c + 32 else c

def isHeartbeat (M : Mem) (vs : List Val) : Option Bool :=
  match vs with
  | [.str t] => textIs (fun a b => lower a == lower b) [80, 79, 78, 71] (M.junk 0) (M.moves 0) t
  | _ => some false

/-! ### The memory of a status -/

/-- The state after a value has been built and moved. -/
structure Shape (t : Bytes) (J : Nat → Nat → UInt8) (m : Nat) (s : S) : Prop where
  ok : Buffer.OK (fun _ => t) s
  new : ∀ k, m < k → s.bufs k = none
  content : s.content (fun _ => t) m = some t
  empty : t = [] → ∃ b, s.bufs m = some b ∧ b.data = .null ∧ b.cap = 0 ∧ b.size = 0
  small : t ≠ [] → t.length ≤ 64 → ∃ b, s.bufs m = some b ∧ b.data = .small m ∧ b.small = t ++ (Buffer.junk J m 64).drop t.length ∧ b.cap = 64 ∧ b.size = t.length

theorem splice_zero (l t : Bytes) : Buffer.splice l 0 t = t ++ l.drop t.length := by simp [Buffer.splice]

theorem shape (t : Bytes) (J : Nat → Nat → UInt8) (m : Nat) : ∃ s, S.empty.run (fun _ => t) J (valueOps m t.length) = some s ∧ Shape t J m s := by
  induction m with
  | zero =>
    let s0 : S := S.empty.set 0 ⟨0, Buffer.junk J 0 64, .null, 0⟩
    have e0 : S.empty.step (fun _ => t) J (.new 0) = some s0 := rfl
    obtain ⟨s0', a1, a2, a3⟩ := Buffer.OK.empty (E := fun _ => t) |>.step (J := J) (.new 0) (by show S.empty.bufs 0 = none; rfl)
    rw [e0, Option.some.injEq] at a1; subst a1
    have hb : s0.bufs 0 = some ⟨0, Buffer.junk J 0 64, .null, 0⟩ := rfl
    obtain ⟨s1, b1, b2, b3⟩ := a2.step (J := J) (.append 0 0 0 t.length) ⟨by rw [hb]; simp, by simp⟩
    have hrun : S.empty.run (fun _ => t) J (valueOps 0 t.length) = some s1 := by
      simp only [valueOps, S.run, e0, b1, Option.bind_some]
    refine ⟨s1, hrun, b2, ?_, ?_, ?_, ?_⟩
    · intro k hk
      have h1 : s0.content (fun _ => t) = Buffer.upd (S.empty.content (fun _ => t)) 0 (some []) := a3
      have h2 : s1.content (fun _ => t) = Buffer.upd (s0.content (fun _ => t)) 0 ((s0.content (fun _ => t) 0).map (· ++ (t.drop 0).take t.length)) := b3
      cases hc : s1.bufs k with
      | none => rfl
      | some b =>
        exfalso
        obtain ⟨x, hx, -⟩ := b2.content hc
        rw [h2] at hx
        simp only [Buffer.upd] at hx
        rw [if_neg (by omega), h1] at hx
        simp only [Buffer.upd] at hx
        rw [if_neg (by omega)] at hx
        simp [S.content, S.empty] at hx
    · have h1 : s0.content (fun _ => t) = Buffer.upd (S.empty.content (fun _ => t)) 0 (some []) := a3
      have h2 : s1.content (fun _ => t) = Buffer.upd (s0.content (fun _ => t)) 0 ((s0.content (fun _ => t) 0).map (· ++ (t.drop 0).take t.length)) := b3
      rw [h2, h1]
      simp [Buffer.upd]
    · rintro rfl
      have : s0.step (fun _ => []) J (.append 0 0 0 0) = some (s0.set 0 ⟨0, Buffer.junk J 0 64, .null, 0⟩) := by
        simp [S.step, S.append, hb, S.reserve, S.memcpy, S.read, S.write]
      have b1 : s0.step (fun _ => []) J (.append 0 0 0 0) = some s1 := b1
      rw [this, Option.some.injEq] at b1
      subst b1
      exact ⟨⟨0, Buffer.junk J 0 64, .null, 0⟩, by simp [S.set], rfl, rfl, rfl⟩
    · intro hne hl
      have hpos : 0 < t.length := List.length_pos_iff.2 hne
      have hr : Buffer.round t.length = 64 ∨ Buffer.round t.length = t.length ∧ t.length = 64 := by
        unfold Buffer.round
        split
        · right; omega
        · left; omega
      have hr : ¬ Buffer.round t.length > 64 := by omega
      have hj : (Buffer.junk J 0 64).length = 64 := Buffer.junk_length _ _
      have : s0.step (fun _ => t) J (.append 0 0 0 t.length) =
          some ((((s0.set 0 ⟨64, Buffer.junk J 0 64, .small 0, 0⟩).set 0 ⟨64, Buffer.splice (Buffer.junk J 0 64) 0 t, .small 0, 0⟩)).set 0
            ⟨64, Buffer.splice (Buffer.junk J 0 64) 0 t, .small 0, t.length⟩) := by
        simp [S.step, S.append, hb, S.reserve, S.memcpy, S.read, S.write, hr, hpos, hne, hj, hl, S.set]
      rw [this, Option.some.injEq] at b1
      subst b1
      exact ⟨⟨64, Buffer.splice (Buffer.junk J 0 64) 0 t, .small 0, t.length⟩, by simp [S.set], rfl, by rw [splice_zero], rfl, rfl⟩
  | succ m ih =>
    obtain ⟨s, hr, h⟩ := ih
    let s1 : S := s.set (m + 1) ⟨0, Buffer.junk J (m + 1) 64, .null, 0⟩
    have e1 : s.step (fun _ => t) J (.new (m + 1)) = some s1 := rfl
    obtain ⟨s1', a1, a2, a3⟩ := h.ok.step (J := J) (.new (m + 1)) (h.new (m + 1) (by omega))
    rw [e1, Option.some.injEq] at a1; subst a1
    have hb1 : s1.bufs (m + 1) = some ⟨0, Buffer.junk J (m + 1) 64, .null, 0⟩ := by simp [s1, S.set]
    have hbm : s1.bufs m = s.bufs m := by simp [s1, S.set]
    obtain ⟨bm, hbm'⟩ : ∃ b, s.bufs m = some b := by
      cases hc : s.bufs m with
      | none => have := h.content; simp [S.content, hc] at this
      | some b => exact ⟨b, rfl⟩
    obtain ⟨s2, b1, b2, b3⟩ := a2.step (J := J) (.move (m + 1) m) ⟨by rw [hb1]; simp, by rw [hbm, hbm']; simp, by omega⟩
    have h1 : s1.content (fun _ => t) = Buffer.upd (s.content (fun _ => t)) (m + 1) (some []) := a3
    have h2 : s2.content (fun _ => t) = Buffer.upd (Buffer.upd (s1.content (fun _ => t)) (m + 1) (s1.content (fun _ => t) m)) m (some []) := b3
    have hcm : s1.content (fun _ => t) m = some t := by
      rw [h1]; simp only [Buffer.upd]; rw [if_neg (by omega)]; exact h.content
    refine ⟨s2, ?_, b2, ?_, ?_, ?_, ?_⟩
    · have happ : ∀ (a b : List Buffer.Op) (s : S), s.run (fun _ => t) J (a ++ b) = (s.run (fun _ => t) J a).bind (fun s => s.run (fun _ => t) J b) := by
        intro a
        induction a with
        | nil => intro b s; rfl
        | cons o a ih =>
          intro b s
          simp only [List.cons_append, S.run]
          cases s.step (fun _ => t) J o with
          | none => rfl
          | some s => exact ih b s
      simp only [valueOps, happ, hr, Option.bind_some, S.run, e1, b1]
    · intro k hk
      cases hc : s2.bufs k with
      | none => rfl
      | some b =>
        exfalso
        obtain ⟨x, hx, -⟩ := b2.content hc
        rw [h2] at hx
        simp only [Buffer.upd] at hx
        rw [if_neg (by omega), if_neg (by omega), h1] at hx
        simp only [Buffer.upd] at hx
        rw [if_neg (by omega)] at hx
        simp [S.content, h.new k (by omega)] at hx
    · rw [h2]
      simp only [Buffer.upd]
      rw [if_neg (by omega), if_pos trivial, hcm]
    · intro ht
      obtain ⟨b, c1, c2, c3, c4⟩ := h.empty ht
      have hne : ¬ m = m + 1 := by omega
      have : s1.step (fun _ => t) J (.move (m + 1) m) =
          some (((s1.set (m + 1) ⟨0, Buffer.junk J (m + 1) 64, .null, 0⟩).set (m + 1) ⟨0, Buffer.junk J (m + 1) 64, .null, 0⟩).set m
            { b with cap := 0, data := .null, size := 0 }) := by
        simp [S.step, S.move, S.reset, hb1, S.dealloc, S.set, hbm, c1, c2, c3, c4]
      rw [this, Option.some.injEq] at b1
      subst b1
      exact ⟨⟨0, Buffer.junk J (m + 1) 64, .null, 0⟩, by simp [S.set], rfl, rfl, rfl⟩
    · intro hne hl
      obtain ⟨b, c1, c2, c3, c4, c5⟩ := h.small hne hl
      have hmn : ¬ m = m + 1 := by omega
      have hj : (Buffer.junk J (m + 1) 64).length = 64 := Buffer.junk_length _ _
      have hj2 : (Buffer.junk J m 64).length = 64 := Buffer.junk_length _ _
      have hsm : b.small.length = 64 := by rw [c3, List.length_append, List.length_drop, hj2]; omega
      have htk : b.small.take t.length = t := by rw [c3, List.take_left]
      have : s1.step (fun _ => t) J (.move (m + 1) m) =
          some ((((s1.set (m + 1) ⟨0, Buffer.junk J (m + 1) 64, .null, 0⟩).set (m + 1) ⟨64, Buffer.junk J (m + 1) 64, .small (m + 1), t.length⟩).set (m + 1)
            ⟨64, Buffer.splice (Buffer.junk J (m + 1) 64) 0 t, .small (m + 1), t.length⟩).set m { b with cap := 0, data := .null, size := 0 }) := by
        simp [S.step, S.move, S.reset, hb1, S.dealloc, S.set, hbm, c1, c2, c4, c5, S.memcpy, S.read, S.write, hsm, htk, hne, hj, hl]
      rw [this, Option.some.injEq] at b1
      subst b1
      exact ⟨⟨64, Buffer.splice (Buffer.junk J (m + 1) 64) 0 t, .small (m + 1), t.length⟩, by simp [S.set], rfl, by rw [splice_zero], rfl, rfl⟩

/-! ### Comparing -/

theorem read_le {E : Nat → Bytes} {s : S} {p : Ptr} {n k : Nat} {x : Bytes} (h : s.read E p n = some x) (hk : k ≤ n) :
    s.read E p k = some (x.take k) := by
  cases p with
  | null =>
    simp only [S.read] at h ⊢
    split at h
    · rename_i e; subst e
      obtain rfl : k = 0 := by omega
      simp
    · simp at h
  | small i =>
    simp only [S.read] at h ⊢
    cases hb : s.bufs i with
    | none => rw [hb] at h; simp at h
    | some b =>
      rw [hb, Option.bind_some] at h
      rw [Option.bind_some]
      split at h
      · rw [Option.some.injEq] at h; subst h
        rw [if_pos (by omega), List.take_take, Nat.min_eq_left hk]
      · simp at h
  | heap i =>
    simp only [S.read] at h ⊢
    cases hb : s.heap i with
    | none => rw [hb] at h; simp at h
    | some b =>
      rw [hb, Option.bind_some] at h
      rw [Option.bind_some]
      split at h
      · rw [Option.some.injEq] at h; subst h
        rw [if_pos (by omega), List.take_take, Nat.min_eq_left hk]
      · simp at h
  | ext i off =>
    simp only [S.read] at h ⊢
    split at h
    · rw [Option.some.injEq] at h; subst h
      rw [if_pos (by omega), List.take_take, Nat.min_eq_left hk]
    · simp at h

theorem cmpAt_long (same : UInt8 → UInt8 → Bool) {E : Nat → Bytes} {s : S} {p : Ptr} {t : Bytes} (h : s.read E p t.length = some t) (w : Bytes) :
    ∀ off, off + w.length ≤ t.length → cmpAt same E s p off w = some ((List.zipWith same w (t.drop off)).all id) := by
  induction w with
  | nil => intro off _; simp [cmpAt]
  | cons c w ih =>
    intro off hl
    simp only [List.length_cons] at hl
    have h1 := read_le h (k := off + 1) (by omega)
    have hd : t.drop off = t[off]'(by omega) :: t.drop (off + 1) := List.drop_eq_getElem_cons (by omega)
    have hg : (t.take (off + 1)).getD off 0 = t[off]'(by omega) := by
      simp [List.getD, List.getElem?_take, List.getElem?_eq_getElem (show off < t.length by omega)]
    rw [cmpAt, h1, Option.bind_some, hg, hd, List.zipWith_cons_cons, List.all_cons]
    cases hs : same c (t[off]'(by omega)) with
    | true => simp only [if_true, id_eq, Bool.true_and]; exact ih (off + 1) (by omega)
    | false => simp

theorem read_content {E : Nat → Bytes} {s : S} (ok : Buffer.OK E s) {i : Nat} {b : Buffer.Buf} (hb : s.bufs i = some b) {t : Bytes} (h : s.content E i = some t) :
    s.read E b.data t.length = some t := by
  obtain ⟨x, hx, hl⟩ := ok.content hb
  rw [h, Option.some.injEq] at hx
  subst hx
  rw [hl]
  simpa [S.content, hb] using h

theorem shape_buf {t : Bytes} {J : Nat → Nat → UInt8} {m : Nat} {s : S} (h : Shape t J m s) : ∃ b, s.bufs m = some b := by
  cases hc : s.bufs m with
  | none => have := h.content; simp [S.content, hc] at this
  | some b => exact ⟨b, rfl⟩

/-- A status at least as long as what it is compared with is compared by its characters. -/
theorem textIs_long (same : UInt8 → UInt8 → Bool) (w t : Bytes) (J : Nat → Nat → UInt8) (m : Nat) (hl : w.length ≤ t.length) :
    textIs same w J m t = some ((List.zipWith same w t).all id) := by
  obtain ⟨s, hr, h⟩ := shape t J m
  obtain ⟨b, hb⟩ := shape_buf h
  simp only [textIs, hr, hb, Option.bind_some]
  rw [cmpAt_long same (read_content h.ok hb h.content) w 0 (by omega)]
  simp

/-- An empty status is read at a null pointer. -/
theorem textIs_empty (same : UInt8 → UInt8 → Bool) (c : UInt8) (w : Bytes) (J : Nat → Nat → UInt8) (m : Nat) : textIs same (c :: w) J m [] = none := by
  obtain ⟨s, hr, h⟩ := shape [] J m
  obtain ⟨b, hb, h1, -, -⟩ := h.empty rfl
  simp only [textIs, hr, hb, Option.bind_some, cmpAt, h1, S.read]
  simp

/-- A status that is different before it ends. -/
theorem textIs_differs (same : UInt8 → UInt8 → Bool) (c x : UInt8) (w u : Bytes) (J : Nat → Nat → UInt8) (m : Nat) (hs : same c x = false) :
    textIs same (c :: w) J m (x :: u) = some false := by
  obtain ⟨s, hr, h⟩ := shape (x :: u) J m
  obtain ⟨b, hb⟩ := shape_buf h
  have h1 := read_le (read_content h.ok hb h.content) (k := 1) (by simp)
  simp only [textIs, hr, hb, Option.bind_some, cmpAt, Nat.zero_add, h1]
  simp [hs]

theorem readsmall {E : Nat → Bytes} {s : S} {i n : Nat} {b : Buffer.Buf} (hb : s.bufs i = some b) (hl : n ≤ b.small.length) :
    s.read E (.small i) n = some (b.small.take n) := by simp [S.read, hb, hl]

/-- The status "O": the second character compared is whatever the memory held. -/
theorem textIs_O (J : Nat → Nat → UInt8) (m : Nat) : textIs (· == ·) [79, 75] J m [79] = some (J m 1 == 75) := by
  obtain ⟨s, hr, h⟩ := shape [79] J m
  obtain ⟨b, hb, h1, h2, -, -⟩ := h.small (by simp) (by simp)
  have hj : (Buffer.junk J m 64).length = 64 := Buffer.junk_length _ _
  have hd : b.small = 79 :: J m 1 :: ((Buffer.junk J m 64).drop 2) := by
    rw [h2]
    have : Buffer.junk J m 64 = J m 0 :: J m 1 :: (Buffer.junk J m 64).drop 2 := by
      have e : ∀ (l : Bytes), 2 ≤ l.length → l = l.getD 0 0 :: l.getD 1 0 :: l.drop 2 := by
        intro l hl
        match l, hl with
        | a :: b :: r, _ => rfl
      have := e (Buffer.junk J m 64) (by omega)
      rw [this]
      simp [Buffer.junk]
    rw [this]
    simp
  have r1 := readsmall (E := fun _ => [79]) hb (n := 1) (by rw [hd]; simp)
  have r2 := readsmall (E := fun _ => [79]) hb (n := 2) (by rw [hd]; simp)
  rw [hd] at r1 r2
  show ((S.empty.run (fun _ => [79]) J (valueOps m 1)).bind _) = _
  have hr : S.empty.run (fun _ => [79]) J (valueOps m 1) = some s := hr
  rw [hr, Option.bind_some, hb, Option.bind_some]
  simp only [cmpAt, h1, r1, r2, Option.bind_some, Nat.zero_add]
  simp only [List.take_succ_cons, List.take_zero, List.getD_cons_zero, List.getD_cons_succ, beq_self_eq_true, if_true, Nat.reduceAdd]
  by_cases hk : J m 1 = 75
  · simp [hk]
  · have : ¬ (75 : UInt8) = J m 1 := fun e => hk e.symm
    simp [hk, this]

/-! ### Start-up -/

/-- A status that is compared by its own characters only. -/
def Plain : Val → Prop
  | .str t => t ≠ [] ∧ t ≠ [79]
  | _ => True

theorem okMem_plain (M : Mem) (i : Nat) (v : Val) (h : Plain v) : okMem M i (some v) = some (isOK (some v)) := by
  cases v with
  | str t =>
    simp only [okMem, isOK]
    match t, h with
    | [], h => exact absurd rfl h.1
    | [c], h =>
      have hc : c ≠ 79 := fun e => h.2 (by rw [e])
      rw [textIs_differs _ _ _ _ _ _ _ (by simp [hc.symm])]
      simp
    | c :: d :: u, _ =>
      rw [textIs_long _ _ _ _ _ (by simp)]
      simp only [List.zipWith_cons_cons, List.zipWith_nil_left, List.all_cons, List.all_nil, id_eq, Bool.and_true, List.take_succ_cons, List.take_zero]
      congr 1
      rw [Bool.eq_iff_iff]
      simp only [Bool.and_eq_true, beq_iff_eq, List.cons.injEq, and_true]
      exact ⟨fun ⟨a, b⟩ => ⟨a.symm, b.symm⟩, fun ⟨a, b⟩ => ⟨a.symm, b.symm⟩⟩
  | _ => rfl

theorem initMem_plain (M : Mem) (auth select : Bool) (vs : List Val) (h : ∀ v ∈ vs, Plain v) (hlen : vs.length = (if auth then 1 else 0) + (if select then 1 else 0)) :
    initMem M auth select vs = some (initEvs auth select vs) := by
  have key : ∀ i j, j < vs.length → okMem M i vs[j]? = some (isOK vs[j]?) := by
    intro i j hj
    rw [List.getElem?_eq_getElem hj]
    exact okMem_plain M i _ (h _ (List.getElem_mem hj))
  unfold initMem initEvs
  cases auth <;> cases select <;> simp only [Bool.false_eq_true, if_false, if_true] at hlen ⊢
  · simp
  · rw [key 0 0 (by omega)]
    cases isOK vs[0]? <;> simp
  · rw [key 0 0 (by omega)]
    cases isOK vs[0]? <;> simp
  · rw [key 0 0 (by omega), key 1 1 (by omega)]
    cases isOK vs[0]? <;> cases isOK vs[1]? <;> simp

/-- One chunk while replies to AUTH and SELECT are awaited. -/
theorem onDataM_waiting (M : Mem) {fl : Bool × Bool} (hfl : (fl.1 || fl.2) = true) {c : Codec} {acc vs : List Val} {W' tail : List UInt8} {dEnd : Dec}
    (chunk : List UInt8) (h : Waiting fl c acc vs (chunk ++ W') tail dEnd) :
    (∃ c' vs1 vs2, vs = vs1 ++ vs2 ∧ onDataM M c chunk = some c' ∧ c'.out = c.out ∧ Waiting fl c' (acc ++ vs1) vs2 W' tail dEnd) ∨
    (∃ r b, r ++ W' = tail ∧ onDataM M c chunk = (initMem M fl.1 fl.2 (acc ++ vs)).map (fun evs =>
      (⟨dEnd, 0, none, r, false, b, c.out ++ evs⟩ : Codec)) ∧ b = false) := by
  unfold onDataM
  have hb : c.buf ++ chunk = chunk := by rw [h.buf]; rfl
  rw [hb, h.count, h.cur]
  rcases loop_parses vs c.dec acc chunk W' tail dEnd (chunk.length + 1) h.good h.pos h.lt
      (by omega) h.parses with ⟨d1, vs1, vs2, e1, e2, e3, e4, e5⟩ | ⟨r, e1, e2⟩
  · left
    have hne : ¬ vs2.length = 0 := by
      intro h0; exact e2 (List.length_eq_zero_iff.1 h0)
    rw [e5]
    simp only [hne, false_and, if_false]
    have hod : onData c chunk none = some { c with dec := d1, count := vs2.length, cur := some (acc ++ vs1), buf := [] } := by
      unfold onData
      rw [hb, h.count, h.cur, e5]
      simp only [hne, if_false]
    refine ⟨_, vs1, vs2, e1, hod, rfl, ?_⟩
    have hlt := h.lt
    rw [e1, List.length_append] at hlt
    exact ⟨e3, rfl, e2, by omega, rfl, rfl, h.auth, h.select, e4⟩
  · right
    rw [e2]
    simp only [h.auth, h.select, hfl, and_self, if_true]
    exact ⟨r, false, e1, rfl, rfl⟩

/-- The replies in any chunking; `rest` is what has not arrived yet. -/
theorem runM_feeds (M : Mem) (fl : Bool × Bool) (hfl : (fl.1 || fl.2) = true) (rest : List UInt8) (cs : List (List UInt8)) :
    ∀ (c : Codec) (acc vs : List Val) (dEnd : Dec), (∀ x ∈ cs, x ≠ []) → Waiting fl c acc vs (cs.flatten ++ rest) [] dEnd →
    (rest ≠ [] → ∃ c', runM M c cs = some c' ∧ c'.out = c.out) ∧
    (rest = [] → runM M c cs = (initMem M fl.1 fl.2 (acc ++ vs)).map (fun evs => (⟨dEnd, 0, none, [], false, false, c.out ++ evs⟩ : Codec))) := by
  induction cs with
  | nil =>
    intro c acc vs dEnd _ h
    refine ⟨fun _ => ⟨c, rfl, rfl⟩, ?_⟩
    intro hr
    exfalso
    subst hr
    obtain ⟨d', hd'⟩ := decode_nil_inc c.dec h.good
    have hp := h.parses
    cases vs with
    | nil => exact h.pos rfl
    | cons v vs =>
      cases hp with
      | cons h1 _ =>
        rw [List.flatten_nil, List.nil_append] at h1
        rw [hd'] at h1
        simp at h1
  | cons x cs ih =>
    intro c acc vs dEnd hne h
    rw [List.flatten_cons, List.append_assoc] at h
    simp only [runM]
    rcases onDataM_waiting M hfl x h with ⟨c', vs1, vs2, e1, e2, e3, e4⟩ | ⟨r, b, e1, e2, rfl⟩
    · rw [e2, Option.bind_some]
      obtain ⟨f1, f2⟩ := ih c' (acc ++ vs1) vs2 dEnd (fun y hy => hne y (List.mem_cons_of_mem _ hy)) e4
      rw [e3] at f1 f2
      refine ⟨f1, ?_⟩
      intro hr
      rw [f2 hr, e1, List.append_assoc]
    · obtain ⟨hr, hw⟩ := List.append_eq_nil_iff.1 e1
      obtain ⟨hf, hrest⟩ := List.append_eq_nil_iff.1 hw
      have hcs : cs = [] := by
        cases cs with
        | nil => rfl
        | cons y ys =>
          rw [List.flatten_cons, List.append_eq_nil_iff] at hf
          exact absurd hf.1 (hne y (by simp))
      subst hcs hr
      refine ⟨fun hn => absurd hrest hn, fun _ => ?_⟩
      rw [e2]
      cases initMem M fl.1 fl.2 (acc ++ vs) <;> rfl

theorem start_waiting (auth select : Bool) (hany : (auth || select) = true) (vs : List Val) (hw : Wfs vs)
    (hlen : vs.length = (if auth then 1 else 0) + (if select then 1 else 0)) :
    ∃ b, (start auth select true).out = [.wire vs.length] ∧ Waiting (auth, select) (start auth select true) [] vs (encs vs) [] ⟨⟨.start, b⟩, []⟩ := by
  obtain ⟨b', hp⟩ := parses_encs vs hw [] []
  rw [List.append_nil] at hp
  have hstart : start auth select true = ⟨Dec.init, vs.length, none, [], auth, select, [.wire vs.length]⟩ := by
    unfold start
    cases auth <;> cases select <;> simp at hany <;> simp [hlen]
  rw [hstart]
  refine ⟨b', rfl, ⟨?_, rfl, ?_, ?_, rfl, rfl, rfl, rfl, hp⟩⟩
  · intro f hf; simp [Dec.init] at hf
  · intro h0
    rw [h0] at hlen
    cases auth <;> cases select <;> simp at hany hlen
  · cases auth <;> cases select <;> simp at hany hlen <;> omega

/-! ### Specification -/

/-- The server accepted the command: its reply is a status that begins with "OK". -/
def Accepted (v : Val) : Prop := ∃ u, v = .str ([79, 75] ++ u)

/-- The replies to AUTH (if a password is configured) and SELECT (if a database is). -/
structure Replies (auth select : Bool) (vs : List Val) : Prop where
  any : (auth || select) = true
  len : vs.length = (if auth then 1 else 0) + (if select then 1 else 0)
  wf : Wfs vs

theorem accepted_iff (v : Val) : Accepted v ↔ isOK (some v) = true := by
  unfold Accepted
  cases v with
  | str b =>
    simp only [isOK, beq_iff_eq]
    constructor
    · rintro ⟨t, ht⟩
      injection ht with ht
      rw [ht]; rfl
    · intro h
      refine ⟨b.drop 2, ?_⟩
      rw [← h, List.take_append_drop]
  | _ => simp [isOK]

theorem initEvs_all (auth select : Bool) (vs : List Val) (h : Replies auth select vs) :
    initEvs auth select vs = [if vs.all (fun v => isOK (some v)) then .ready else .closeService] := by
  obtain ⟨hany, hlen, -⟩ := h
  match vs, hlen with
  | [], h => cases auth <;> cases select <;> simp at hany h
  | [v], h =>
    cases auth <;> cases select <;> simp at hany h <;> simp [initEvs] <;>
      cases isOK (some v) <;> simp
  | [v, w], h =>
    cases auth <;> cases select <;> simp at hany h <;> simp [initEvs] <;>
      cases isOK (some v) <;> cases isOK (some w) <;> simp
  | _ :: _ :: _ :: _, h => cases auth <;> cases select <;> simp at h

/-- **C196 (ready or closed).**  However the replies to AUTH and SELECT are cut up, wherever their strings are moved and whatever memory held
before: if no reply is the empty status or the status "O", then once they are all in, the connection is reported ready, once, if all are
"OK…", and otherwise closed without having been ready; the replies are given to nobody. -/
theorem c196_startup (M : Mem) (auth select : Bool) (vs : List Val) (h : Replies auth select vs) (hp : ∀ v ∈ vs, Plain v)
    (chunks : List (List UInt8)) (hsplit : chunks.flatten = encs vs) (hne : ∀ x ∈ chunks, x ≠ []) :
    ∃ c', runM M (start auth select true) chunks = some c' ∧ Idle c' ∧
      ((∀ v ∈ vs, Accepted v) → c'.out = [.wire vs.length, .ready]) ∧
      (¬ (∀ v ∈ vs, Accepted v) → c'.out = [.wire vs.length, .closeService]) := by
  obtain ⟨b, ho, hW⟩ := start_waiting auth select h.any vs h.wf h.len
  rw [← hsplit, ← List.append_nil chunks.flatten] at hW
  have hr := (runM_feeds M (auth, select) h.any [] chunks _ [] vs _ hne hW).2 rfl
  rw [List.nil_append, initMem_plain M auth select vs hp h.len, Option.map_some, ho, initEvs_all auth select vs h] at hr
  refine ⟨_, hr, ⟨⟨b, rfl⟩, rfl, rfl, rfl, rfl, rfl⟩, ?_, ?_⟩
  · intro ha
    have : vs.all (fun v => isOK (some v)) = true := List.all_eq_true.2 (fun v hv => (accepted_iff v).1 (ha v hv))
    simp [this]
  · intro hna
    have : vs.all (fun v => isOK (some v)) = false := by
      rw [← Bool.not_eq_true]
      intro ht
      exact hna (fun v hv => (accepted_iff v).2 (List.all_eq_true.1 ht v hv))
    simp [this]

/-- **C196 (not before).**  Whatever the replies, as long as not all of their bytes have arrived nothing has been reported. -/
theorem c196_not_before (M : Mem) (auth select : Bool) (vs : List Val) (h : Replies auth select vs)
    (chunks : List (List UInt8)) (rest : List UInt8) (hsplit : chunks.flatten ++ rest = encs vs) (hr : rest ≠ []) (hne : ∀ x ∈ chunks, x ≠ []) :
    ∃ c', runM M (start auth select true) chunks = some c' ∧ c'.out = [.wire vs.length] := by
  obtain ⟨b, ho, hW⟩ := start_waiting auth select h.any vs h.wf h.len
  rw [← hsplit] at hW
  obtain ⟨c', e1, e2⟩ := (runM_feeds M (auth, select) h.any rest chunks _ [] vs _ hne hW).1 hr
  exact ⟨c', e1, e2.trans ho⟩

/-- **C196 (no credentials).**  Without a password and a database the connection is ready at once, and nothing is sent. -/
theorem c196_plain (ok : Bool) : (start false false ok).out = [.ready] := by rfl

/-- The channel of a connection that has just become ready, `c` being its codec. -/
def readyState (c : Codec) : Rpc.St := ⟨c, Client.Queued.init, true, [], []⟩

/-- Requests and heartbeats are given only to a channel with a connection and no request in progress. -/
def OneByOneFrom (reply : Nat → List Val) (st0 : Rpc.St) (ops : List Rpc.Op) : Prop :=
  ∀ pre o post, ops = pre ++ o :: post → Rpc.isGive o = true → ∀ st, Rpc.run reply st0 pre = some st → st.up = true ∧ st.chan.ing = none

theorem run_inv_from {reply : Nat → List Val} (hg : Rpc.GoodReplies reply) (st0 : Rpc.St) (h0 : Rpc.Inv reply st0) (ops : List Rpc.Op)
    (h1 : OneByOneFrom reply st0 ops) : ∃ st, Rpc.run reply st0 ops = some st ∧ Rpc.Inv reply st := by
  induction ops using List.reverseRecOn with
  | nil => exact ⟨st0, rfl, h0⟩
  | append_singleton t o ih =>
    obtain ⟨st, e, hI⟩ := ih (by
      intro pre x post he hx s hs
      exact h1 pre x (post ++ [o]) (by rw [he]; simp) hx s hs)
    obtain ⟨st', e', hI'⟩ := Rpc.step_inv hg hI o (fun ho => h1 t o [] rfl ho st e)
    exact ⟨st', by rw [Rpc.run_append, e, Option.bind_some, Rpc.run, e']; rfl, hI'⟩

/-- **C196 (then requests).**  A connection that has become ready with AUTH and SELECT serves requests given one at a time as one without
(C188): nothing of the replies to AUTH and SELECT is left for them. -/
theorem c196_then_requests (M : Mem) (auth select : Bool) (vs : List Val) (h : Replies auth select vs) (ha : ∀ v ∈ vs, Accepted v)
    (chunks : List (List UInt8)) (hsplit : chunks.flatten = encs vs) (hne : ∀ x ∈ chunks, x ≠ [])
    (reply : Nat → List Val) (hg : Rpc.GoodReplies reply) (ops : List Rpc.Op) :
    ∃ c, runM M (start auth select true) chunks = some c ∧ (OneByOneFrom reply (readyState c) ops →
    ∃ st, Rpc.run reply (readyState c) ops = some st ∧ (Client.Ordered.respList st.chan.base.acts).map Prod.snd = List.range (Rpc.delivers st.codec).length ∧
      ∀ r j v, .done r (.response j) v ∈ st.chan.base.acts → (Rpc.delivers st.codec)[j]? = some (reply r)) := by
  have hp : ∀ v ∈ vs, Plain v := by
    intro v hv
    obtain ⟨u, rfl⟩ := ha v hv
    simp [Plain]
  obtain ⟨c, hr, hi, ho, -⟩ := c196_startup M auth select vs h hp chunks hsplit hne
  have ho := ho ha
  refine ⟨c, hr, fun hone => ?_⟩
  have hd : Rpc.delivers c = [] := by simp [Rpc.delivers, ho]
  have h0 : Rpc.Inv reply (readyState c) := by
    refine ⟨?_, ?_, fun _ => ⟨rfl, Or.inl ⟨rfl, hi, rfl, rfl⟩⟩⟩
    · intro r j hj; exact absurd hj (by simp [readyState, Client.Queued.init, Client.Base.init, Client.Ordered.respList])
    · show _ = List.range (Rpc.delivers c).length
      rw [hd]; rfl
  obtain ⟨st, e, hI⟩ := run_inv_from hg _ h0 ops hone
  exact ⟨st, e, hI.count, fun r j v hd => hI.resp r j (List.mem_filterMap.2 ⟨_, hd, rfl⟩)⟩

/-! ### Violations -/

/-- **C195 violation.**  A server that answers AUTH (or SELECT, AUTH having been accepted) with an empty status, `+\r\n`, makes the client
read at a null pointer: `string().data()` of an empty reply is null (resp_codec_service.cc:112, 122; buffer.hpp:19-25, 323-329), however its
bytes arrive. -/
theorem c195_empty_violated (M : Mem) (auth select : Bool) (pre post : List Val) (h : Replies auth select (pre ++ .str [] :: post))
    (hpre : ∀ v ∈ pre, Accepted v) (chunks : List (List UInt8)) (hsplit : chunks.flatten = encs (pre ++ .str [] :: post)) (hne : ∀ x ∈ chunks, x ≠ []) :
    runM M (start auth select true) chunks = none := by
  obtain ⟨b, ho, hW⟩ := start_waiting auth select h.any _ h.wf h.len
  rw [← hsplit, ← List.append_nil chunks.flatten] at hW
  rw [(runM_feeds M (auth, select) h.any [] chunks _ [] _ _ hne hW).2 rfl, List.nil_append]
  have hcrash : ∀ i, okMem M i (some (.str [])) = none := fun i => textIs_empty _ _ _ _ _
  have hlen := h.len
  have hany := h.any
  match pre, hlen with
  | [], hlen =>
    cases auth <;> cases select <;> simp at hany <;> simp [initMem, hcrash]
  | [v], hlen =>
    obtain ⟨u, rfl⟩ := hpre v (by simp)
    have hv : okMem M 0 (some (.str ([79, 75] ++ u))) = some true := by
      rw [okMem_plain M 0 _ (by simp [Plain])]; simp [isOK]
    cases auth <;> cases select <;> simp at hany hlen
    simp only [initMem, if_true, List.cons_append, List.nil_append, List.getElem?_cons_zero, List.getElem?_cons_succ, hcrash]
    have hv' : okMem M 0 (some (.str (79 :: 75 :: u))) = some true := hv
    simp [hv']
  | _ :: _ :: r, hlen =>
    exfalso
    simp only [List.length_append, List.length_cons] at hlen
    split at hlen <;> split at hlen <;> omega

/-- **C195 violation.**  The status "O" is compared with what the memory held before: the same reply makes the connection ready or closes it. -/
theorem c195_garbage_violated (auth select : Bool) (h : Replies auth select [.str [79]]) (chunks : List (List UInt8)) (hsplit : chunks.flatten = encs [.str [79]])
    (hne : ∀ x ∈ chunks, x ≠ []) (moves : Nat → Nat) :
    ∃ J J', (∃ c, runM ⟨moves, J⟩ (start auth select true) chunks = some c ∧ c.out = [.wire 1, .ready]) ∧
      (∃ c, runM ⟨moves, J'⟩ (start auth select true) chunks = some c ∧ c.out = [.wire 1, .closeService]) := by
  have key : ∀ (x : UInt8), ∃ c, runM ⟨moves, fun _ _ _ => x⟩ (start auth select true) chunks = some c ∧
      c.out = [.wire 1, if x = 75 then .ready else .closeService] := by
    intro x
    obtain ⟨b, ho, hW⟩ := start_waiting auth select h.any _ h.wf h.len
    rw [← hsplit, ← List.append_nil chunks.flatten] at hW
    rw [(runM_feeds ⟨moves, fun _ _ _ => x⟩ (auth, select) h.any [] chunks _ [] _ _ hne hW).2 rfl, List.nil_append, ho]
    have hk : okMem ⟨moves, fun _ _ _ => x⟩ 0 (some (.str [79])) = some (x == 75) := textIs_O _ _
    have hlen := h.len
    have hany := h.any
    by_cases hx : x = 75
    · subst hx
      cases auth <;> cases select <;> simp at hany hlen <;> simp [initMem, hk]
    · cases auth <;> cases select <;> simp at hany hlen <;> simp [initMem, hk, hx]
  exact ⟨fun _ _ _ => 75, fun _ _ _ => 0, by simpa using key 75, by simpa using key 0⟩

/-- **C195 violation.**  An empty status as the answer to a heartbeat's PING is read at a null pointer too (redis_response.cc:37,
client_channel.cc:115). -/
theorem c195_pong_violated (M : Mem) : isHeartbeat M [.str []] = none := textIs_empty _ _ _ _ _

/-- **C195 violation.**  If the commands cannot be sent the connection is reported closed twice: by `CloseService` (codec_service.cc:79-81)
and again (resp_codec_service.cc:63-64). -/
theorem c195_twice_violated (auth select : Bool) (hany : (auth || select) = true) : (start auth select false).out = [.closeService, .notifyClosed] := by
  cases auth <;> cases select <;> simp at hany <;> rfl

/-- The answer every server gives is recognised. -/
theorem c196_pong (M : Mem) : isHeartbeat M [.str [80, 79, 78, 71]] = some true := by
  show textIs _ _ _ _ _ = _
  rw [textIs_long _ _ _ _ _ (by simp)]
  simp [lower]

/-! ### Examples -/

/-- A password and a database; "+OK\r\n+OK\r\n" in two pieces. -/
theorem w_c196 : Replies true true [.str [79, 75], .str [79, 75]] ∧ (∀ v ∈ [Val.str [79, 75], .str [79, 75]], Accepted v) ∧
    [[43, 79], [75, 13, 10, 43, 79, 75, 13, 10]].flatten = encs [.str [79, 75], .str [79, 75]] := by
  refine ⟨⟨rfl, rfl, ?_⟩, ?_, rfl⟩
  · simp only [Wfs, Wf, and_true]; decide
  · intro v hv
    simp only [List.mem_cons, List.not_mem_nil, or_false, or_self] at hv
    exact ⟨[], by rw [hv]; rfl⟩

/-- A refused password: an error reply. -/
theorem w_c196_refused : Replies true false [.err [78, 79]] ∧ (∀ v ∈ [Val.err [78, 79]], Plain v) ∧ ¬ (∀ v ∈ [Val.err [78, 79]], Accepted v) ∧
    [[45, 78, 79, 13, 10]].flatten = encs [.err [78, 79]] := by
  refine ⟨⟨rfl, rfl, ?_⟩, ?_, ?_, rfl⟩
  · simp only [Wfs, Wf, and_true]; decide
  · intro v hv
    simp only [List.mem_singleton] at hv
    subst hv; exact trivial
  · intro h
    obtain ⟨u, hu⟩ := h (.err [78, 79]) (by simp)
    simp at hu

theorem w_c195 : Replies true true ([.str [79, 75]] ++ .str [] :: []) ∧ Replies true false [.str [79]] := by
  refine ⟨⟨rfl, rfl, ?_⟩, ⟨rfl, rfl, ?_⟩⟩
  · simp only [List.cons_append, List.nil_append, Wfs, Wf, and_true]; decide
  · simp only [Wfs, Wf, and_true]; decide

end Ltio.Redis.Startup
