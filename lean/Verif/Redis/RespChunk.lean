import Verif.Redis.Resp
/-
Chunk independence of the RESP decoder: decoding `x ++ y` in one call and decoding `x` and then `y`
give the same outcome (up to the decoder state left behind by an error).
-/
namespace Ltio.Redis

def notBulk (s : Stat) : Prop := ∀ m, s ≠ .bulk m

def Scan.shift (i : Nat) : Scan → Scan
  | .inc l k => .inc l (i + k)
  | .err l k => .err l (i + k)
  | .val l k v => .val l (i + k) v
  | .hdr l k n => .hdr l (i + k) n
  | .crash => .crash

theorem Scan.shift_shift (i j : Nat) (s : Scan) : (s.shift j).shift i = s.shift (i + j) := by
  cases s <;> simp only [Scan.shift, Nat.add_assoc]

theorem Scan.shift_zero (s : Scan) : s.shift 0 = s := by
  cases s <;> simp only [Scan.shift, Nat.zero_add]

theorem R.shift_shift (i j : Nat) (s : R) : (s.shift j).shift i = s.shift (i + j) := by
  cases s <;> simp only [R.shift, Nat.add_assoc]

theorem R.shift_zero (s : R) : s.shift 0 = s := by
  cases s <;> simp only [R.shift, Nat.zero_add]

theorem scan_nil (l : Leaf) (i : Nat) : scan l i [] = .inc l i := by rw [scan.eq_def]

theorem scan_bulk (m : Nat) (b : List UInt8) (i : Nat) (c : UInt8) (cs : List UInt8) :
    scan ⟨.bulk m, b⟩ i (c :: cs) =
      if min (cs.length + 1) m < i then .crash
      else if m - min (cs.length + 1) m > 0 then
        .inc ⟨.bulk (m - min (cs.length + 1) m),
          b ++ (c :: cs).take (min (cs.length + 1) m - i)⟩ (i + min (cs.length + 1) m)
      else if m = 0 then .crash
      else scan ⟨.bulkCr, b ++ (c :: cs).take (min (cs.length + 1) m - i)⟩
        (i + min (cs.length + 1) m) ((c :: cs).drop (min (cs.length + 1) m)) := by
  rw [scan.eq_def]

theorem scan_act (l : Leaf) (h : notBulk l.stat) (i : Nat) (c : UInt8) (cs : List UInt8) :
    scan l i (c :: cs) = match act l.stat l.buf c with
      | .go l' => scan l' (i + 1) cs
      | .err l' => .err l' (i + 1)
      | .val l' v => .val l' (i + 1) v
      | .hdr l' n => .hdr l' (i + 1) n
      | .crash => .crash
      | .body n =>
        if n > cs.length then
          .inc ⟨.bulk (n - min n cs.length), cs.take (min n cs.length)⟩ (i + min n cs.length + 1)
        else scan ⟨.bulkCr, cs.take (min n cs.length)⟩ (i + min n cs.length + 1)
          (cs.drop (min n cs.length)) := by
  obtain ⟨s, b⟩ := l
  cases s with
  | bulk m => exact absurd rfl (h m)
  | _ => rw [scan.eq_def]; simp only; cases act _ b c <;> rfl

theorem numStep_notBulk {b c same lf l'} (h : numStep b c same lf = .go l')
    (h1 : notBulk same) (h2 : notBulk lf) : notBulk l'.stat := by
  unfold numStep at h
  repeat' split at h
  all_goals simp at h
  all_goals (subst h; assumption)

theorem lineStep_notBulk {b c same lf l'} (h : lineStep b c same lf = .go l')
    (h1 : notBulk same) (h2 : notBulk lf) : notBulk l'.stat := by
  unfold lineStep at h
  repeat' split at h
  all_goals simp at h
  all_goals (subst h; assumption)

theorem act_go_notBulk {s b c l'} (h : act s b c = .go l') : notBulk l'.stat := by
  cases s
  case str => exact lineStep_notBulk h (by intro m; simp) (by intro m; simp)
  case errStr => exact lineStep_notBulk h (by intro m; simp) (by intro m; simp)
  case int => exact numStep_notBulk h (by intro m; simp) (by intro m; simp)
  case bulkSize => exact numStep_notBulk h (by intro m; simp) (by intro m; simp)
  case arrSize => exact numStep_notBulk h (by intro m; simp) (by intro m; simp)
  all_goals
    simp only [act] at h
    repeat' split at h
    all_goals simp at h
    all_goals (subst h; intro m; simp)

theorem scan_shift (bs : List UInt8) : ∀ (l : Leaf) (i j : Nat), notBulk l.stat →
    scan l (i + j) bs = (scan l j bs).shift i := by
  induction hn : bs.length using Nat.strongRecOn generalizing bs with
  | ind N ih =>
    intro l i j hl
    cases bs with
    | nil => rw [scan_nil, scan_nil]; rfl
    | cons c cs =>
      simp only [List.length_cons] at hn
      rw [scan_act l hl, scan_act l hl]
      cases ha : act l.stat l.buf c with
      | go l' =>
        simp only
        rw [Nat.add_assoc]
        exact ih _ (by omega) cs rfl l' i (j + 1) (act_go_notBulk ha)
      | err l' => rfl
      | val l' v => rfl
      | hdr l' n => rfl
      | crash => rfl
      | body n =>
        simp only
        split
        · simp only [Scan.shift, Scan.inc.injEq, true_and]; omega
        · have := ih _ (by simp only [List.length_drop]; omega) (cs.drop (min n cs.length)) rfl
            ⟨.bulkCr, cs.take (min n cs.length)⟩ i (j + min n cs.length + 1) (by intro m; simp)
          rw [← this]
          congr 1
          omega

theorem scan_shift0 (bs : List UInt8) (l : Leaf) (i : Nat) (h : notBulk l.stat) :
    scan l i bs = (scan l 0 bs).shift i := scan_shift bs l i 0 h

/-- What decoding a further chunk `y` makes of the outcome of the first. -/
def Scan.glue (y : List UInt8) : Scan → Scan
  | .inc l k => (scan l 0 y).shift k
  | r => r

theorem Scan.glue_shift (y : List UInt8) (i : Nat) (s : Scan) :
    (s.shift i).glue y = (s.glue y).shift i := by
  cases s with
  | inc l k => exact (Scan.shift_shift i k _).symm
  | _ => rfl

theorem Scan.glue_nil (s : Scan) : s.glue [] = s := by
  cases s with
  | inc l k => simp only [Scan.glue, scan_nil, Scan.shift, Nat.add_zero]
  | _ => rfl

theorem scan_append (x : List UInt8) : ∀ (l : Leaf) (i : Nat) (y : List UInt8),
    (notBulk l.stat ∨ i = 0) → scan l i (x ++ y) = (scan l i x).glue y := by
  induction hn : x.length using Nat.strongRecOn generalizing x with
  | ind N ih =>
    intro l i y hl
    by_cases hy : y = []
    · subst hy; rw [List.append_nil, Scan.glue_nil]
    cases x with
    | nil =>
      rw [List.nil_append, scan_nil]
      simp only [Scan.glue]
      rcases hl with hl | hl
      · exact scan_shift0 y l i hl
      · subst hl; rw [Scan.shift_zero]
    | cons c cs =>
      simp only [List.length_cons] at hn
      rw [List.cons_append]
      by_cases hb : notBulk l.stat
      · rw [scan_act l hb, scan_act l hb]
        cases ha : act l.stat l.buf c with
        | go l' => exact ih _ (by omega) cs rfl l' (i + 1) y (Or.inl (act_go_notBulk ha))
        | err l' => rfl
        | val l' v => rfl
        | hdr l' n => rfl
        | crash => rfl
        | body n =>
          simp only [List.length_append]
          by_cases h1 : n > cs.length
          · simp only [h1, if_true]
            have e1 : min n cs.length = cs.length := by omega
            rw [e1, List.take_length]
            simp only [Scan.glue]
            cases y with
            | nil => exact absurd rfl hy
            | cons d ds =>
              rw [scan_bulk]
              simp only [List.length_cons, Nat.not_lt_zero, if_false]
              by_cases h3 : n > cs.length + (ds.length + 1)
              · have e2 : min n (cs.length + (ds.length + 1)) = cs.length + (ds.length + 1) := by
                  omega
                have e3 : min (ds.length + 1) (n - cs.length) = ds.length + 1 := by omega
                have h4 : n - cs.length - (ds.length + 1) > 0 := by omega
                simp only [h3, if_true, e2, e3, h4, Scan.shift]
                rw [List.take_of_length_le (by simp), List.take_of_length_le (by simp)]
                simp only [Scan.inc.injEq, Leaf.mk.injEq, Stat.bulk.injEq, and_true]
                omega
              · have e2 : min n (cs.length + (ds.length + 1)) = n := by omega
                have e3 : min (ds.length + 1) (n - cs.length) = n - cs.length := by omega
                have h4 : ¬ (n - cs.length - (n - cs.length) > 0) := by omega
                have h5 : ¬ (n - cs.length = 0) := by omega
                simp only [h3, e2, e3, h4, h5, if_false, Nat.sub_zero]
                rw [scan_shift0 _ _ (i + n + 1) (by intro m; simp),
                  scan_shift0 _ _ (0 + (n - cs.length)) (by intro m; simp), Scan.shift_shift,
                  List.take_append, List.take_of_length_le (by omega : cs.length ≤ n),
                  List.drop_append, List.drop_of_length_le (by omega : cs.length ≤ n),
                  List.nil_append]
                congr 1
                omega
          · have h2 : ¬ n > cs.length + y.length := by omega
            simp only [h1, h2, if_false]
            have e1 : min n cs.length = n := by omega
            have e2 : min n (cs.length + y.length) = n := by omega
            rw [e1, e2, List.take_append_of_le_length (by omega),
              List.drop_append_of_le_length (by omega)]
            exact ih _ (by simp only [List.length_drop]; omega) _ rfl _ _ y
              (Or.inl (by intro m; simp))
      · obtain ⟨s, b⟩ := l
        have hi : i = 0 := by
          rcases hl with hl | hl
          · exact absurd hl hb
          · exact hl
        subst hi
        cases s with
        | bulk m =>
          rw [scan_bulk, scan_bulk]
          simp only [Nat.not_lt_zero, if_false, Nat.zero_add, Nat.sub_zero, List.length_append]
          by_cases h1 : m - min (cs.length + 1) m > 0
          · have e1 : min (cs.length + 1) m = cs.length + 1 := by omega
            have h1' : m - (cs.length + 1) > 0 := by omega
            have tcs : List.take (cs.length + 1) (c :: cs) = c :: cs :=
              List.take_of_length_le (by simp)
            simp only [e1, h1', if_true, Scan.glue, tcs]
            cases y with
            | nil => exact absurd rfl hy
            | cons d ds =>
              rw [scan_bulk]
              simp only [List.length_cons, Nat.not_lt_zero, if_false, Nat.sub_zero, Nat.zero_add]
              by_cases h3 : m > cs.length + 1 + (ds.length + 1)
              · have e2 : min (cs.length + (ds.length + 1) + 1) m = cs.length + (ds.length + 1) + 1 := by
                  omega
                have e3 : min (ds.length + 1) (m - (cs.length + 1)) = ds.length + 1 := by omega
                have h4 : m - (cs.length + 1) - (ds.length + 1) > 0 := by omega
                have h5 : m - (cs.length + (ds.length + 1) + 1) > 0 := by omega
                simp only [e2, e3, h4, h5, if_true, Scan.shift]
                rw [List.take_of_length_le (by simp), List.take_of_length_le (by simp)]
                simp only [Scan.inc.injEq, Leaf.mk.injEq, Stat.bulk.injEq, List.append_assoc,
                  List.cons_append, and_true]
                omega
              · have e2 : min (cs.length + (ds.length + 1) + 1) m = m := by omega
                have e3 : min (ds.length + 1) (m - (cs.length + 1)) = m - (cs.length + 1) := by
                  omega
                have h4 : ¬ (m - (cs.length + 1) - (m - (cs.length + 1)) > 0) := by omega
                have h5 : ¬ (m - (cs.length + 1) = 0) := by omega
                have h6 : ¬ (m - m > 0) := by omega
                have h7 : ¬ (m = 0) := by omega
                simp only [e2, e3, h4, h5, h6, h7, if_false]
                have hm : (cs.length + 1) ≤ m := by omega
                rw [scan_shift0 _ _ m (by intro m; simp),
                  scan_shift0 _ _ (m - (cs.length + 1)) (by intro m; simp), Scan.shift_shift]
                have t1 : List.take m (c :: (cs ++ d :: ds)) =
                    c :: cs ++ List.take (m - (cs.length + 1)) (d :: ds) := by
                  rw [show c :: (cs ++ d :: ds) = (c :: cs) ++ d :: ds from rfl, List.take_append,
                    List.take_of_length_le (by simpa using hm)]
                  simp
                have t2 : List.drop m (c :: (cs ++ d :: ds)) =
                    List.drop (m - (cs.length + 1)) (d :: ds) := by
                  rw [show c :: (cs ++ d :: ds) = (c :: cs) ++ d :: ds from rfl, List.drop_append,
                    List.drop_of_length_le (by simpa using hm)]
                  simp
                rw [t1, t2, ← List.append_assoc]
                congr 1
                omega
          · by_cases h0 : m = 0
            · subst h0
              simp [Scan.glue]
            · have e1 : min (cs.length + 1) m = m := by omega
              have e2 : min (cs.length + y.length + 1) m = m := by omega
              have h3 : ¬ (m - m > 0) := by omega
              simp only [e1, e2, h3, h0, if_false]
              have hm : m ≤ (c :: cs).length := by simp only [List.length_cons]; omega
              rw [show c :: (cs ++ y) = (c :: cs) ++ y from rfl,
                List.take_append_of_le_length hm, List.drop_append_of_le_length hm]
              exact ih _ (by simp only [List.length_drop, List.length_cons]; omega) _ rfl _ _ y
                (Or.inl (by intro m; simp))
        | _ => exact absurd (by intro m; simp) hb

/-- Sizes: an incomplete outcome has used the whole chunk, any other at most the chunk. -/
theorem scan_size (x : List UInt8) : ∀ (l : Leaf) (i : Nat),
    (∀ l' k, scan l i x = .inc l' k → (notBulk l.stat ∨ i = 0) → k = i + x.length) ∧
    (∀ l' k v, scan l i x = .val l' k v → i < k ∧ k ≤ i + x.length) ∧
    (∀ l' k, scan l i x = .err l' k → i < k ∧ k ≤ i + x.length) := by
  induction hn : x.length using Nat.strongRecOn generalizing x with
  | ind N ih =>
    intro l i
    cases x with
    | nil =>
      simp only [scan_nil]
      refine ⟨?_, ?_, ?_⟩
      · intro l' k h; simp at h; simp only [List.length_nil] at hn; omega
      · intro l' k v h; simp at h
      · intro l' k h; simp at h
    | cons c cs =>
      simp only [List.length_cons] at hn
      by_cases hb : notBulk l.stat
      · rw [scan_act l hb]
        cases ha : act l.stat l.buf c with
        | go l' =>
          obtain ⟨a1, a2, a3⟩ := ih _ (by omega) cs rfl l' (i + 1)
          refine ⟨?_, ?_, ?_⟩
          · intro l2 k h _
            have := a1 l2 k h (Or.inl (act_go_notBulk ha)); omega
          · intro l2 k v h
            have := a2 l2 k v h; omega
          · intro l2 k h
            have := a3 l2 k h; omega
        | err l' =>
          refine ⟨?_, ?_, ?_⟩ <;> intros <;> rename_i h <;> simp at *
          omega
        | val l' v =>
          refine ⟨?_, ?_, ?_⟩ <;> intros <;> rename_i h <;> simp at *
          omega
        | hdr l' n => refine ⟨?_, ?_, ?_⟩ <;> intros <;> rename_i h <;> simp at *
        | crash => refine ⟨?_, ?_, ?_⟩ <;> intros <;> rename_i h <;> simp at *
        | body n =>
          simp only
          split
          · refine ⟨?_, ?_, ?_⟩ <;> intros <;> rename_i h <;> simp at *
            omega
          · obtain ⟨a1, a2, a3⟩ := ih (cs.drop (min n cs.length)).length
              (by simp only [List.length_drop]; omega) _ rfl
              ⟨.bulkCr, cs.take (min n cs.length)⟩ (i + min n cs.length + 1)
            simp only [List.length_drop] at a1 a2 a3
            refine ⟨?_, ?_, ?_⟩
            · intro l2 k h _
              have := a1 l2 k h (Or.inl (by intro m; simp)); omega
            · intro l2 k v h
              have := a2 l2 k v h; omega
            · intro l2 k h
              have := a3 l2 k h; omega
      · obtain ⟨s, b⟩ := l
        cases s with
        | bulk m =>
          rw [scan_bulk]
          split
          · refine ⟨?_, ?_, ?_⟩ <;> intros <;> rename_i h <;> simp at *
          · split
            · refine ⟨?_, ?_, ?_⟩ <;> intros <;> rename_i h <;> simp at *
              omega
            · split
              · refine ⟨?_, ?_, ?_⟩ <;> intros <;> rename_i h <;> simp at *
              · obtain ⟨a1, a2, a3⟩ := ih ((c :: cs).drop (min (cs.length + 1) m)).length
                  (by simp only [List.length_drop, List.length_cons]; omega) _ rfl
                  ⟨.bulkCr, b ++ (c :: cs).take (min (cs.length + 1) m - i)⟩
                  (i + min (cs.length + 1) m)
                simp only [List.length_drop, List.length_cons] at a1 a2 a3
                refine ⟨?_, ?_, ?_⟩
                · intro l2 k h _
                  have := a1 l2 k h (Or.inl (by intro m; simp)); omega
                · intro l2 k v h
                  have := a2 l2 k v h; omega
                · intro l2 k h
                  have := a3 l2 k h; omega
        | _ => exact absurd (by intro m; simp) hb

/-! ### Arrays -/

theorem decodeChunk_eq (l : Leaf) (bs : List UInt8) : decodeChunk l bs =
    match scan l 0 bs with
    | .inc l' k => .inc ⟨l', []⟩ k
    | .err l' k => .err ⟨l', []⟩ k
    | .val l' k v => .ok ⟨l', []⟩ k v
    | .crash => .crash
    | .hdr l' k n =>
      if k = bs.length then .inc ⟨l', [(n, [])]⟩ k
      else (arrLoop l' n [] 0 (bs.drop k)).shift k := by
  rw [decodeChunk]
  split <;> rename_i h <;> simp only [h]

theorem arrLoop_zero (l : Leaf) (vals : List Val) (i : Nat) (bs : List UInt8) :
    arrLoop l 0 vals i bs = .ok ⟨l, []⟩ i (.arr vals) := by rw [arrLoop]

theorem arrLoop_succ (l : Leaf) (m : Nat) (vals : List Val) (i : Nat) (bs : List UInt8) :
    arrLoop l (m + 1) vals i bs =
      match decodeChunk l bs with
      | .inc d k => .inc ⟨d.leaf, (m + 1, vals) :: d.stack⟩ (i + k)
      | .err d k => .err d (i + k)
      | .crash => .crash
      | .ok d k v => arrLoop d.leaf m (vals ++ [v]) (i + k) (bs.drop k) := by
  rw [arrLoop]
  rfl

theorem decodeChunk_nil (l : Leaf) : decodeChunk l [] = .inc ⟨l, []⟩ 0 := by
  rw [decodeChunk_eq, scan_nil]

theorem arrTail_eq (l : Leaf) (n : Nat) (vals : List Val) (i : Nat) (bs : List UInt8) :
    arrTail l n vals i bs = arrLoop l n vals i bs := by
  cases bs with
  | cons c cs => rfl
  | nil =>
    cases n with
    | zero => rw [arrLoop_zero]; rfl
    | succ m => rw [arrLoop_succ, decodeChunk_nil]; rfl

theorem arrLoop_shift (n : Nat) : ∀ (l : Leaf) (vals : List Val) (i j : Nat) (bs : List UInt8),
    arrLoop l n vals (i + j) bs = (arrLoop l n vals j bs).shift i := by
  induction n with
  | zero => intro l vals i j bs; rw [arrLoop_zero, arrLoop_zero]; rfl
  | succ m ih =>
    intro l vals i j bs
    rw [arrLoop_succ, arrLoop_succ]
    cases decodeChunk l bs with
    | inc d k => simp only [R.shift, Nat.add_assoc]
    | err d k => simp only [R.shift, Nat.add_assoc]
    | crash => rfl
    | ok d k v =>
      simp only
      rw [Nat.add_assoc]
      exact ih _ _ _ _ _

theorem arrLoop_shift0 (l : Leaf) (n : Nat) (vals : List Val) (i : Nat) (bs : List UInt8) :
    arrLoop l n vals i bs = (arrLoop l n vals 0 bs).shift i := arrLoop_shift n l vals i 0 bs

/-- Forget the decoder state after an error. -/
def R.erase : R → R
  | .err _ k => .err Dec.init k
  | r => r

theorem R.erase_shift (i : Nat) (r : R) : (r.shift i).erase = r.erase.shift i := by
  cases r <;> rfl

/-- What decoding a further chunk makes of the outcome of the first. -/
def R.glue (y : List UInt8) : R → R
  | .inc d k => (decode d y).shift k
  | r => r

theorem R.glue_shift (y : List UInt8) (i : Nat) (s : R) :
    (s.shift i).glue y = (s.glue y).shift i := by
  cases s with
  | inc l k => exact (R.shift_shift i k _).symm
  | _ => rfl

/-- Wrap an outcome of decoding the inner frames in an outer frame: lines 98-119. -/
def wrap (n : Nat) (vals : List Val) (bs : List UInt8) : R → R
  | .inc d k => .inc ⟨d.leaf, (n, vals) :: d.stack⟩ k
  | .err d k => .err ⟨d.leaf, (n, vals) :: d.stack⟩ k
  | .crash => .crash
  | .ok d k v => arrLoop d.leaf (n - 1) (vals ++ [v]) k (bs.drop k)

/-- Decoding with a saved outer frame is decoding the rest and wrapping. -/
theorem decode_frame (d : Dec) (n : Nat) (vals : List Val) (hn : 0 < n) (bs : List UInt8) :
    (decode ⟨d.leaf, (n, vals) :: d.stack⟩ bs).erase = (wrap n vals bs (decode d bs)).erase := by
  obtain ⟨l, st⟩ := d
  cases st with
  | nil =>
    simp only [decode, decodeArr]
    rw [arrTail_eq]
    obtain ⟨m, rfl⟩ : ∃ m, n = m + 1 := ⟨n - 1, by omega⟩
    rw [arrLoop_succ]
    cases decodeChunk l bs with
    | inc d k => simp only [wrap, Nat.zero_add]
    | err d k => simp only [wrap, Nat.zero_add, R.erase]
    | crash => rfl
    | ok d k v => simp only [wrap, Nat.zero_add, Nat.add_sub_cancel]
  | cons f fs =>
    obtain ⟨n', vals'⟩ := f
    simp only [decode, decodeArr]
    cases decodeArr l n' vals' fs bs with
    | inc d k => rfl
    | err d k => rfl
    | crash => rfl
    | ok d k v => simp only [wrap, arrTail_eq]

/-- Every saved frame still misses an element. -/
def GoodR : R → Prop
  | .inc d _ => ∀ f ∈ d.stack, 0 < f.1
  | _ => True

theorem act_hdr_pos {s b c l' n} (h : act s b c = .hdr l' n) : 0 < n := by
  cases s <;> simp only [act, lineStep, numStep] at h
  all_goals repeat' split at h
  all_goals simp at h
  all_goals omega

theorem scan_hdr_n (bs : List UInt8) : ∀ (l : Leaf) (i : Nat) (l' : Leaf) (k n : Nat),
    scan l i bs = .hdr l' k n → 0 < n := by
  induction hn : bs.length using Nat.strongRecOn generalizing bs with
  | ind N ih =>
    intro l i l' k n h
    cases bs with
    | nil => rw [scan_nil] at h; simp at h
    | cons c cs =>
      simp only [List.length_cons] at hn
      by_cases hb : notBulk l.stat
      · rw [scan_act l hb] at h
        cases ha : act l.stat l.buf c with
        | go l2 => rw [ha] at h; exact ih _ (by omega) cs rfl _ _ _ _ _ h
        | hdr l2 n2 =>
          rw [ha] at h
          simp only [Scan.hdr.injEq] at h
          have := act_hdr_pos ha
          omega
        | body n2 =>
          rw [ha] at h
          simp only at h
          split at h
          · simp at h
          · exact ih _ (by simp only [List.length_drop]; omega) _ rfl _ _ _ _ _ h
        | err l2 => rw [ha] at h; simp at h
        | val l2 v => rw [ha] at h; simp at h
        | crash => rw [ha] at h; simp at h
      · obtain ⟨s, b⟩ := l
        cases s with
        | bulk m =>
          rw [scan_bulk] at h
          split at h
          · simp at h
          · split at h
            · simp at h
            · split at h
              · simp at h
              · exact ih _ (by simp only [List.length_drop, List.length_cons]; omega) _ rfl _ _ _ _ _ h
        | _ => exact absurd (by intro m; simp) hb

/-- The bookkeeping facts about sizes and saved frames, for chunks up to a given length. -/
structure Facts (bs : List UInt8) (r : R) : Prop where
  inc : ∀ d k, r = .inc d k → k = bs.length ∧ ∀ f ∈ d.stack, 0 < f.1
  ok : ∀ d k v, r = .ok d k v → 0 < k ∧ k ≤ bs.length ∧ d.stack = []
  err : ∀ d k, r = .err d k → k ≤ bs.length

structure LoopFacts (i : Nat) (bs : List UInt8) (r : R) : Prop where
  inc : ∀ d k, r = .inc d k → k = i + bs.length ∧ ∀ f ∈ d.stack, 0 < f.1
  ok : ∀ d k v, r = .ok d k v → i ≤ k ∧ k ≤ i + bs.length ∧ d.stack = []
  err : ∀ d k, r = .err d k → k ≤ i + bs.length

theorem loop_facts (N : Nat)
    (hc : ∀ (l : Leaf) (bs : List UInt8), bs.length ≤ N → Facts bs (decodeChunk l bs)) (n : Nat) :
    ∀ (l : Leaf) (vals : List Val) (i : Nat) (bs : List UInt8), bs.length ≤ N →
      LoopFacts i bs (arrLoop l n vals i bs) := by
  induction n with
  | zero =>
    intro l vals i bs _
    rw [arrLoop_zero]
    refine ⟨?_, ?_, ?_⟩ <;> intros <;> rename_i h <;> simp at h
    obtain ⟨h1, h2, h3⟩ := h
    subst h1 h2
    exact ⟨Nat.le_refl _, by omega, rfl⟩
  | succ m ih =>
    intro l vals i bs hb
    rw [arrLoop_succ]
    have hf := hc l bs hb
    cases hd : decodeChunk l bs with
    | inc d k =>
      have := hf.inc d k hd
      refine ⟨?_, ?_, ?_⟩ <;> intros <;> rename_i h <;> simp at h
      obtain ⟨h1, h2⟩ := h
      subst h1 h2
      refine ⟨by omega, ?_⟩
      intro f hf'
      rcases List.mem_cons.1 hf' with rfl | hf'
      · exact Nat.succ_pos m
      · exact this.2 f hf'
    | err d k =>
      have := hf.err d k hd
      refine ⟨?_, ?_, ?_⟩ <;> intros <;> rename_i h <;> simp at h
      omega
    | crash => refine ⟨?_, ?_, ?_⟩ <;> intros <;> rename_i h <;> simp at h
    | ok d k v =>
      have h0 := hf.ok d k v hd
      have := ih d.leaf (vals ++ [v]) (i + k) (bs.drop k) (by simp only [List.length_drop]; omega)
      have hl : (bs.drop k).length = bs.length - k := List.length_drop
      refine ⟨?_, ?_, ?_⟩
      · intro d' k' h
        have := this.inc d' k' h
        rw [hl] at this
        exact ⟨by omega, this.2⟩
      · intro d' k' v' h
        have := this.ok d' k' v' h
        rw [hl] at this
        exact ⟨by omega, by omega, this.2.2⟩
      · intro d' k' h
        have := this.err d' k' h
        rw [hl] at this
        omega

theorem chunk_facts (l : Leaf) (bs : List UInt8) : Facts bs (decodeChunk l bs) := by
  induction hn : bs.length using Nat.strongRecOn generalizing l bs with
  | ind N ih =>
    rw [decodeChunk_eq]
    have hs := scan_size bs l 0
    cases hd : scan l 0 bs with
    | inc l' k =>
      have := hs.1 l' k hd (Or.inr rfl)
      refine ⟨?_, ?_, ?_⟩ <;> intros <;> rename_i h <;> simp at h
      obtain ⟨h1, h2⟩ := h
      subst h1 h2
      exact ⟨by omega, by simp⟩
    | err l' k =>
      have := hs.2.2 l' k hd
      refine ⟨?_, ?_, ?_⟩ <;> intros <;> rename_i h <;> simp at h
      omega
    | val l' k v =>
      have := hs.2.1 l' k v hd
      refine ⟨?_, ?_, ?_⟩ <;> intros <;> rename_i h <;> simp at h
      obtain ⟨h1, h2, h3⟩ := h
      subst h1 h2
      exact ⟨by omega, by omega, rfl⟩
    | crash => refine ⟨?_, ?_, ?_⟩ <;> intros <;> rename_i h <;> simp at h
    | hdr l' k n =>
      have hp := scan_hdr_pos _ _ _ _ _ _ hd
      have hn0 := scan_hdr_n _ _ _ _ _ _ hd
      simp only
      split
      · refine ⟨?_, ?_, ?_⟩ <;> intros <;> rename_i h <;> simp at h
        obtain ⟨h1, h2⟩ := h
        subst h1 h2
        exact ⟨by omega, by simpa using hn0⟩
      · rename_i hk
        have hl : (bs.drop k).length = bs.length - k := List.length_drop
        have hlf := loop_facts (N - 1) (fun l bs h => ih bs.length (by omega) l bs rfl) n l' [] 0
          (bs.drop k) (by omega)
        cases hr : arrLoop l' n [] 0 (bs.drop k) with
        | inc d j =>
          have := hlf.inc d j hr
          refine ⟨?_, ?_, ?_⟩ <;> intros <;> rename_i h <;> simp [R.shift] at h
          obtain ⟨h1, h2⟩ := h
          subst h1 h2
          exact ⟨by omega, this.2⟩
        | err d j =>
          have := hlf.err d j hr
          refine ⟨?_, ?_, ?_⟩ <;> intros <;> rename_i h <;> simp [R.shift] at h
          omega
        | crash => refine ⟨?_, ?_, ?_⟩ <;> intros <;> rename_i h <;> simp [R.shift] at h
        | ok d j v =>
          have := hlf.ok d j v hr
          refine ⟨?_, ?_, ?_⟩ <;> intros <;> rename_i h <;> simp [R.shift] at h
          obtain ⟨h1, h2, h3⟩ := h
          subst h1 h2
          exact ⟨by omega, by omega, this.2.2⟩

theorem arrLoop_facts (n : Nat) (l : Leaf) (vals : List Val) (i : Nat) (bs : List UInt8) :
    LoopFacts i bs (arrLoop l n vals i bs) :=
  loop_facts bs.length (fun l bs _ => chunk_facts l bs) n l vals i bs (Nat.le_refl _)

theorem wrap_append_aux (r1 : R) (n : Nat) (vals : List Val) (x y : List UInt8)
    (hl : ∀ m (l : Leaf) (vs : List Val) (i : Nat) (z : List UInt8), z.length < x.length →
      (arrLoop l m vs i (z ++ y)).erase = ((arrLoop l m vs i z).glue y).erase)
    (hn : 0 < n) (hf : Facts x r1) :
    (wrap n vals (x ++ y) ((r1.glue y).erase)).erase = ((wrap n vals x r1).glue y).erase := by
  cases r1 with
  | inc d k =>
    obtain ⟨hk, _⟩ := hf.inc d k rfl
    simp only [R.glue, wrap]
    rw [R.erase_shift]
    subst hk
    rw [R.erase_shift, decode_frame d n vals hn y]
    cases decode d y with
    | inc d' j => rfl
    | err d' j => rfl
    | crash => rfl
    | ok d' j v =>
      simp only [R.erase, R.shift, wrap]
      rw [List.drop_append, List.drop_of_length_le (by omega), List.nil_append,
        show x.length + j - x.length = j by omega, arrLoop_shift]
      exact R.erase_shift _ _
  | err d k => rfl
  | crash => rfl
  | ok d k v =>
    obtain ⟨h1, h2, h3⟩ := hf.ok d k v rfl
    simp only [R.glue, R.erase, wrap]
    rw [List.drop_append_of_le_length h2]
    exact hl _ _ _ _ _ (by simp only [List.length_drop]; omega)

end Ltio.Redis
