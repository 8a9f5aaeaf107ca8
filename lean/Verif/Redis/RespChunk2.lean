import Verif.Redis.RespChunk
/-
Chunk independence of the RESP decoder, continued: arrays and the whole decoder.
-/
namespace Ltio.Redis

theorem R.erase_idem (r : R) : r.erase.erase = r.erase := by cases r <;> rfl

theorem R.glue_erase (y : List UInt8) (r : R) : (r.erase.glue y).erase = (r.glue y).erase := by
  cases r <;> rfl

theorem glue_congr {r r' : R} (y : List UInt8) (h : r.erase = r'.erase) :
    (r.glue y).erase = (r'.glue y).erase := by
  rw [← R.glue_erase y r, ← R.glue_erase y r', h]

theorem wrap_erase (n : Nat) (vals : List Val) (bs : List UInt8) (r : R) :
    (wrap n vals bs r.erase).erase = (wrap n vals bs r).erase := by
  cases r <;> rfl

theorem wrap_congr (n : Nat) (vals : List Val) (bs : List UInt8) {r r' : R}
    (h : r.erase = r'.erase) : (wrap n vals bs r).erase = (wrap n vals bs r').erase := by
  rw [← wrap_erase n vals bs r, ← wrap_erase n vals bs r', h]

theorem arrLoop_wrap (l : Leaf) (m : Nat) (vals : List Val) (i : Nat) (bs : List UInt8) :
    (arrLoop l (m + 1) vals i bs).erase
      = ((wrap (m + 1) vals bs (decodeChunk l bs)).shift i).erase := by
  rw [arrLoop_succ]
  cases decodeChunk l bs with
  | inc d k => rfl
  | err d k => rfl
  | crash => rfl
  | ok d k v => simp only [wrap, Nat.add_sub_cancel]; rw [arrLoop_shift]

theorem chunk_arr_append (N : Nat) : ∀ (x : List UInt8), x.length = N →
    (∀ (l : Leaf) (y : List UInt8),
      (decodeChunk l (x ++ y)).erase = ((decodeChunk l x).glue y).erase) ∧
    (∀ (n : Nat) (l : Leaf) (vals : List Val) (i : Nat) (y : List UInt8),
      (arrLoop l n vals i (x ++ y)).erase = ((arrLoop l n vals i x).glue y).erase) := by
  induction N using Nat.strongRecOn with
  | ind N ih =>
    intro x hx
    have hA : ∀ (l : Leaf) (y : List UInt8),
        (decodeChunk l (x ++ y)).erase = ((decodeChunk l x).glue y).erase := by
      intro l y
      rw [decodeChunk_eq l (x ++ y), decodeChunk_eq l x, scan_append x l 0 y (Or.inr rfl)]
      cases hs : scan l 0 x with
      | inc l' k =>
        have hk := (scan_size x l 0).1 l' k hs (Or.inr rfl)
        have hk' : k = x.length := by omega
        subst hk'
        simp only [Scan.glue, R.glue, decode]
        rw [decodeChunk_eq l' y]
        cases hy : scan l' 0 y with
        | inc l2 j => rfl
        | err l2 j => rfl
        | val l2 j v => rfl
        | crash => rfl
        | hdr l2 j n =>
          simp only [Scan.shift, List.length_append]
          by_cases hj : j = y.length
          · have h1 : x.length + j = x.length + y.length := by omega
            simp only [hj, if_true, R.shift]
          · have h1 : ¬ (x.length + j = x.length + y.length) := by omega
            simp only [hj, h1, if_false]
            rw [List.drop_append, List.drop_of_length_le (by omega), List.nil_append,
              show x.length + j - x.length = j by omega, R.shift_shift]
      | err l' k => rfl
      | val l' k v => rfl
      | crash => rfl
      | hdr l' k n =>
        have hp := scan_hdr_pos _ _ _ _ _ _ hs
        have hn0 := scan_hdr_n _ _ _ _ _ _ hs
        simp only [Scan.glue, List.length_append]
        by_cases hk : k = x.length
        · simp only [hk, if_true, R.glue, decode, decodeArr, arrTail_eq]
          by_cases hy : y = []
          · subst hy
            simp only [List.length_nil, Nat.add_zero, if_true]
            obtain ⟨m, rfl⟩ : ∃ m, n = m + 1 := ⟨n - 1, by omega⟩
            rw [arrLoop_succ, decodeChunk_nil]
            rfl
          · have h1 : ¬ (x.length = x.length + y.length) := by
              have := List.length_pos_iff.2 hy; omega
            simp only [h1, if_false, List.drop_left]
        · have h1 : ¬ (k = x.length + y.length) := by omega
          simp only [hk, h1, if_false]
          rw [List.drop_append_of_le_length (by omega), R.glue_shift, R.erase_shift,
            R.erase_shift]
          rw [(ih (x.drop k).length (by simp only [List.length_drop]; omega) (x.drop k) rfl).2]
    refine ⟨hA, ?_⟩
    intro n l vals i y
    cases n with
    | zero => rw [arrLoop_zero, arrLoop_zero]; rfl
    | succ m =>
      rw [arrLoop_wrap, glue_congr y (arrLoop_wrap l m vals i x), R.glue_shift,
        R.erase_shift, R.erase_shift]
      congr 1
      have hq := wrap_append_aux (decodeChunk l x) (m + 1) vals x y
        (fun m' l' vs j z hz => (ih z.length (by omega) z rfl).2 m' l' vs j y) (Nat.succ_pos m)
        (chunk_facts l x)
      rw [← hq]
      exact wrap_congr _ _ _ ((hA l y).trans (R.erase_idem _).symm)

theorem decodeChunk_append (l : Leaf) (x y : List UInt8) :
    (decodeChunk l (x ++ y)).erase = ((decodeChunk l x).glue y).erase :=
  (chunk_arr_append _ x rfl).1 l y

theorem arrLoop_append (n : Nat) (l : Leaf) (vals : List Val) (i : Nat) (x y : List UInt8) :
    (arrLoop l n vals i (x ++ y)).erase = ((arrLoop l n vals i x).glue y).erase :=
  (chunk_arr_append _ x rfl).2 n l vals i y

/-- A decoder between two calls: every saved array still misses an element. -/
def Dec.Good (d : Dec) : Prop := ∀ f ∈ d.stack, 0 < f.1

theorem wrap_facts (n : Nat) (vals : List Val) (hn : 0 < n) (bs : List UInt8) (r : R)
    (h : Facts bs r) : Facts bs (wrap n vals bs r) := by
  cases r with
  | inc d k =>
    have := h.inc d k rfl
    refine ⟨?_, ?_, ?_⟩ <;> intros <;> rename_i h <;> simp [wrap] at h
    obtain ⟨h1, h2⟩ := h
    subst h1 h2
    refine ⟨this.1, ?_⟩
    intro f hf
    rcases List.mem_cons.1 hf with rfl | hf
    · exact hn
    · exact this.2 f hf
  | err d k =>
    have := h.err d k rfl
    refine ⟨?_, ?_, ?_⟩ <;> intros <;> rename_i h <;> simp [wrap] at h
    omega
  | crash => refine ⟨?_, ?_, ?_⟩ <;> intros <;> rename_i h <;> simp [wrap] at h
  | ok d k v =>
    have h0 := h.ok d k v rfl
    have hl := arrLoop_facts (n - 1) d.leaf (vals ++ [v]) k (bs.drop k)
    have e : (bs.drop k).length = bs.length - k := List.length_drop
    rw [wrap]
    refine ⟨?_, ?_, ?_⟩
    · intro d' k' h'
      have := hl.inc d' k' h'
      rw [e] at this
      exact ⟨by omega, this.2⟩
    · intro d' k' v' h'
      have := hl.ok d' k' v' h'
      rw [e] at this
      exact ⟨by omega, by omega, this.2.2⟩
    · intro d' k' h'
      have := hl.err d' k' h'
      rw [e] at this
      omega

theorem facts_erase {bs : List UInt8} {r r' : R} (he : r.erase = r'.erase) (h : Facts bs r) :
    Facts bs r' := by
  cases r with
  | inc d k =>
    cases r' with
    | inc d' k' => simp only [R.erase] at he; rw [← he]; exact h
    | _ => simp [R.erase] at he
  | ok d k v =>
    cases r' with
    | ok d' k' v' => simp only [R.erase] at he; rw [← he]; exact h
    | _ => simp [R.erase] at he
  | crash =>
    cases r' with
    | crash => exact h
    | _ => simp [R.erase] at he
  | err d k =>
    cases r' with
    | err d' k' =>
      simp only [R.erase, R.err.injEq, true_and] at he
      subst he
      have := h.err d k rfl
      refine ⟨?_, ?_, ?_⟩ <;> intros <;> rename_i h' <;> simp at h'
      omega
    | _ => simp [R.erase] at he

theorem decode_facts (d : Dec) (hd : d.Good) (bs : List UInt8) : Facts bs (decode d bs) := by
  obtain ⟨l, st⟩ := d
  induction st with
  | nil => exact chunk_facts l bs
  | cons f fs ih =>
    obtain ⟨n, vals⟩ := f
    have hn : 0 < n := hd (n, vals) List.mem_cons_self
    have := ih (fun f hf => hd f (List.mem_cons_of_mem _ hf))
    exact facts_erase (decode_frame ⟨l, fs⟩ n vals hn bs).symm (wrap_facts n vals hn bs _ this)

/-- **Chunk independence.**  For every decoder state between calls and every split of the input,
decoding in one call or in two gives the same outcome. -/
theorem decode_append (d : Dec) (hd : d.Good) (x y : List UInt8) :
    (decode d (x ++ y)).erase = ((decode d x).glue y).erase := by
  obtain ⟨l, st⟩ := d
  induction st with
  | nil => exact decodeChunk_append l x y
  | cons f fs ih =>
    obtain ⟨n, vals⟩ := f
    have hn : 0 < n := hd (n, vals) List.mem_cons_self
    have hg : Dec.Good ⟨l, fs⟩ := fun f hf => hd f (List.mem_cons_of_mem _ hf)
    have h1 := decode_frame ⟨l, fs⟩ n vals hn (x ++ y)
    have h2 := decode_frame ⟨l, fs⟩ n vals hn x
    simp only at h1 h2
    rw [h1, glue_congr y h2,
      ← wrap_append_aux (decode ⟨l, fs⟩ x) n vals x y
        (fun m' l' vs j z _ => arrLoop_append m' l' vs j z y) hn (decode_facts _ hg x)]
    exact wrap_congr _ _ _ ((ih hg).trans (R.erase_idem _).symm)

end Ltio.Redis
