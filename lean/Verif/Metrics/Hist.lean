import Verif.Metrics.Props

/-
C85, histograms: the buckets count the values, and the percentile of a single request is right up
to the width of a bucket.
-/
namespace Ltio.Metrics

/-- Arguments for which the histogram works: the range begins at zero. -/
structure Ok (a : Args) : Prop where
  p : 0 < a.precise
  lo : a.lo = 0
  hi : 0 < a.hi
  fits : a.hi + a.precise < 4294967296

/-- A value limited to the range of the histogram. -/
def clamp (a : Args) (v : Int) : Int := max 0 (min v (a.hi - 1))

/-- Does the value belong to the `i`-th interval of width `precise`? -/
def inCell (a : Args) (i : Nat) (v : Int) : Bool :=
  decide (i * a.precise ≤ clamp a v ∧ clamp a v < (i + 1) * a.precise)

theorem clamp_bounds {a : Args} (h : Ok a) (v : Int) : 0 ≤ clamp a v ∧ clamp a v ≤ a.hi - 1 := by
  have := h.hi
  simp only [clamp]; omega

theorem buckets_eq {a : Args} (h : Ok a) : a.buckets = ((a.hi - 1) / a.precise).toNat + 1 := by
  have hp := h.p
  have h1 : (a.hi - a.lo + a.precise - 1) = (a.hi - 1) + 1 * a.precise := by rw [h.lo]; omega
  have h2 : (a.hi - 1 + 1 * a.precise) / a.precise = (a.hi - 1) / a.precise + 1 :=
    Int.add_mul_ediv_right _ _ (by omega)
  have h3 : 0 ≤ (a.hi - 1) / a.precise := Int.ediv_nonneg (by have := h.hi; omega) (by omega)
  simp only [Args.buckets, h1, h2]
  omega

theorem pos_eq {a : Args} (h : Ok a) (v : Int) :
    a.pos a.buckets v = (clamp a v / a.precise).toNat := by
  have hb := buckets_eq h
  have hp := h.p
  have hh := h.hi
  unfold Args.pos
  split
  · rename_i hv
    have : clamp a v = a.hi - 1 := by simp only [clamp]; omega
    rw [this, hb]; omega
  · split
    · rename_i h1 h2
      rw [h.lo] at h2
      have : clamp a v = 0 := by simp only [clamp]; omega
      rw [this]; simp
    · rename_i h1 h2
      rw [h.lo] at h2
      have hc : clamp a v = v := by simp only [clamp]; omega
      rw [hc, Int.tdiv_eq_ediv_of_nonneg (by omega)]
      have h3 : 0 ≤ v / a.precise := Int.ediv_nonneg (by omega) (by omega)
      have h4 : v / a.precise ≤ v := Int.ediv_le_self _ (by omega)
      have h5 := h.fits
      simp only [u32]
      rw [Int.emod_eq_of_lt h3 (by omega)]

theorem pos_lt {a : Args} (h : Ok a) (v : Int) : (clamp a v / a.precise).toNat < a.buckets := by
  have hb := buckets_eq h
  obtain ⟨h1, h2⟩ := clamp_bounds h v
  have : clamp a v / a.precise ≤ (a.hi - 1) / a.precise :=
    Int.ediv_le_ediv h.p h2
  omega

theorem inCell_iff {a : Args} (h : Ok a) (i : Nat) (v : Int) :
    inCell a i v = true ↔ (clamp a v / a.precise).toNat = i := by
  obtain ⟨h1, _⟩ := clamp_bounds h v
  have hp := h.p
  have h3 : 0 ≤ clamp a v / a.precise := Int.ediv_nonneg h1 (by omega)
  simp only [inCell, decide_eq_true_eq]
  have e1 : (i : Int) * a.precise ≤ clamp a v ↔ (i : Int) ≤ clamp a v / a.precise :=
    (Int.le_ediv_iff_mul_le hp).symm
  have e2 : clamp a v < ((i : Int) + 1) * a.precise ↔ clamp a v / a.precise < (i : Int) + 1 :=
    (Int.ediv_lt_iff_lt_mul hp).symm
  rw [e1, e2]
  omega

/-- What the buckets hold after the values `vs`. -/
def CellsOk (a : Args) (vs : List Int) (cells : List Nat) : Prop :=
  cells.length = a.buckets ∧ ∀ i, i < a.buckets → cells[i]? = some (vs.countP (inCell a i))

theorem cells_bump {a : Args} (h : Ok a) {vs : List Int} {cells : List Nat}
    (hc : CellsOk a vs cells) (v : Int) :
    ∃ c, bump cells (a.pos cells.length v) = some c ∧ CellsOk a (vs ++ [v]) c := by
  have hlt := pos_lt h v
  have hpos : a.pos cells.length v = (clamp a v / a.precise).toNat := by rw [hc.1]; exact pos_eq h v
  rw [hpos]
  refine ⟨_, by unfold bump; rw [if_pos (by rw [hc.1]; exact hlt)], ?_, ?_⟩
  · rw [List.length_set]; exact hc.1
  · intro i hi
    have hci := hc.2 i hi
    by_cases he : (clamp a v / a.precise).toNat = i
    · have hin := (inCell_iff h i v).2 he
      rw [he, List.getElem?_set_self (by rw [hc.1]; exact hi)]
      simp [hci, List.getD_eq_getElem?_getD, List.countP_append, hin]
    · have hin : inCell a i v = false := by
        cases hx : inCell a i v with
        | false => rfl
        | true => exact absurd ((inCell_iff h i v).1 hx) he
      rw [List.getElem?_set_ne he, hci]
      simp [List.countP_append, hin]

theorem addAll_ok {a : Args} (h : Ok a) (ws : List Int) : ∀ (vs : List Int) (x : Hist),
    x.args = a → CellsOk a vs x.cells →
    ∃ y, x.addAll ws = some y ∧ y.args = a ∧ y.base = ws.foldl Base.add x.base ∧
      CellsOk a (vs ++ ws) y.cells := by
  induction ws with
  | nil => intro vs x hx hc; exact ⟨x, rfl, hx, rfl, by simpa using hc⟩
  | cons w ws ih =>
    intro vs x hx hc
    obtain ⟨c, hb, hc'⟩ := cells_bump h hc w
    have hadd : x.add w = some ⟨x.base.add w, x.args, c⟩ := by
      unfold Hist.add; rw [hx, hb]; rfl
    obtain ⟨y, h1, h2, h3, h4⟩ := ih (vs ++ [w]) ⟨x.base.add w, x.args, c⟩ hx hc'
    exact ⟨y, by simp only [Hist.addAll, hadd, Option.bind_some]; exact h1, h2, h3, by simpa using h4⟩

/-- **C85.** A histogram whose range begins at zero never accesses its buckets out of bounds,
counts and sums its values, and its `i`-th bucket is the number of values in the `i`-th interval
(values outside of the range count for the first and the last one). -/
theorem c85_hist {a : Args} (h : Ok a) (vs : List Int) :
    ∃ x, (Hist.new a).addAll vs = some x ∧ x.base.counter = vs.length ∧ x.base.total = vs.sum ∧
      x.args = a ∧ x.cells.length = a.buckets ∧
      ∀ i, i < a.buckets → x.cells[i]? = some (vs.countP (inCell a i)) := by
  have h0 : CellsOk a [] (Hist.new a).cells := by
    refine ⟨by simp [Hist.new], fun i hi => ?_⟩
    simp [Hist.new, hi]
  obtain ⟨y, h1, h2, h3, h4⟩ := addAll_ok h vs [] (Hist.new a) rfl h0
  have hb := foldl_base vs .new
  refine ⟨y, h1, ?_, ?_, h2, by simpa using h4.1, by simpa using h4.2⟩
  · rw [h3, show (Hist.new a).base = Base.new from rfl, hb.1]; simp [Base.new]
  · rw [h3, show (Hist.new a).base = Base.new from rfl, hb.2.1]; simp [Base.new]

theorem scan_spec (count : Nat) : ∀ (cs : List Nat) (sum : Nat),
    scan count sum cs ≤ cs.length ∧
    (scan count sum cs = cs.length ∨ count ≤ sum + (cs.take (scan count sum cs)).sum) ∧
    ∀ j, j < scan count sum cs → sum + (cs.take j).sum < count := by
  intro cs
  induction cs with
  | nil => intro sum; simp [scan]
  | cons c cs ih =>
    intro sum
    obtain ⟨h1, h2, h3⟩ := ih (sum + c)
    by_cases hs : sum < count
    · simp only [scan, if_pos hs]
      refine ⟨by simp only [List.length_cons]; omega, ?_, ?_⟩
      · simp only [List.length_cons, List.take_succ_cons, List.sum_cons]
        omega
      · intro j hj
        cases j with
        | zero => simpa using hs
        | succ j =>
          have := h3 j (by omega)
          simp only [List.take_succ_cons, List.sum_cons]; omega
    · simp only [scan, if_neg hs]
      refine ⟨by omega, Or.inr (by simp; omega), fun j hj => by omega⟩

/-- Number of values (limited to the range) below a bound. -/
def below (a : Args) (vs : List Int) (x : Int) : Nat := vs.countP (fun v => decide (clamp a v < x))

theorem below_zero {a : Args} (h : Ok a) (vs : List Int) : below a vs 0 = 0 := by
  simp only [below, List.countP_eq_zero, decide_eq_true_eq]
  intro v _
  have := (clamp_bounds h v).1
  omega

theorem below_succ {a : Args} (h : Ok a) (vs : List Int) (i : Nat) :
    below a vs ((i + 1 : Nat) * a.precise) = below a vs (i * a.precise) + vs.countP (inCell a i) := by
  have hp := h.p
  induction vs with
  | nil => rfl
  | cons v vs ih =>
    simp only [below, List.countP_cons] at ih ⊢
    have e : (((i + 1 : Nat) : Int) * a.precise) = i * a.precise + a.precise := by
      rw [Int.natCast_add, Int.add_mul]; simp
    have hin : inCell a i v = (decide (i * a.precise ≤ clamp a v) &&
        decide (clamp a v < i * a.precise + a.precise)) := by
      simp only [inCell, Int.add_mul, Int.one_mul]; rw [Bool.decide_and]
    rw [e] at ih ⊢
    rw [hin]
    generalize (i : Int) * a.precise = m at *
    by_cases h1 : clamp a v < m
    · have h2 : clamp a v < m + a.precise := by omega
      have h3 : ¬ m ≤ clamp a v := by omega
      simp [h1, h2, h3]; omega
    · by_cases h2 : clamp a v < m + a.precise
      · have h3 : m ≤ clamp a v := by omega
        simp [h1, h2, h3]; omega
      · simp [h1, h2]; omega

theorem take_sum {a : Args} (h : Ok a) {vs : List Int} {cells : List Nat} (hc : CellsOk a vs cells) :
    ∀ i, i ≤ a.buckets → (cells.take i).sum = below a vs (i * a.precise) := by
  intro i
  induction i with
  | zero => intro _; simp [below_zero h]
  | succ i ih =>
    intro hi
    have hci := hc.2 i (by omega)
    rw [List.take_add_one, hci]
    simp only [Option.toList_some, List.sum_append, List.sum_cons, List.sum_nil]
    rw [ih (by omega), below_succ h]
    omega

theorem below_all {a : Args} (h : Ok a) (vs : List Int) : below a vs (a.buckets * a.precise) = vs.length := by
  simp only [below, List.countP_eq_length, decide_eq_true_eq]
  intro v _
  have hb := buckets_eq h
  obtain ⟨_, h2⟩ := clamp_bounds h v
  have hp := h.p
  have h3 : 0 ≤ (a.hi - 1) / a.precise := Int.ediv_nonneg (by have := h.hi; omega) (by omega)
  have h4 : a.hi - 1 < ((a.hi - 1) / a.precise + 1) * a.precise := Int.lt_ediv_add_one_mul_self _ hp
  have h5 : ((a.buckets : Nat) : Int) = (a.hi - 1) / a.precise + 1 := by omega
  rw [h5]; omega

/-- **C85.** The percentile of a histogram whose range begins at zero is right up to one bucket:
at least `percent` percent (rounded down) of the values lie below the result, and fewer lie below
the result less the width of a bucket. -/
theorem c85_percentile {a : Args} (h : Ok a) (vs : List Int) (percent : Nat) (hp : percent ≤ 100)
    (hn : vs.length < 2 ^ 32) :
    ∃ x, (Hist.new a).addAll vs = some x ∧
      vs.length * percent / 100 ≤ below a vs (x.percentile percent) ∧
      (0 < x.percentile percent →
        below a vs ((x.percentile percent : Int) - a.precise) < vs.length * percent / 100) := by
  obtain ⟨x, h1, h2, _, h4, h5, h6⟩ := c85_hist h vs
  refine ⟨x, h1, ?_⟩
  have hc : CellsOk a vs x.cells := ⟨h5, h6⟩
  have hle : vs.length * percent / 100 ≤ vs.length := by
    apply Nat.div_le_of_le_mul
    rw [Nat.mul_comm 100]
    exact Nat.mul_le_mul_left _ hp
  have hu : u32 (x.base.counter * percent / 100 : Nat) = vs.length * percent / 100 := by
    rw [h2]; simp only [u32]; omega
  obtain ⟨s1, s2, s3⟩ := scan_spec (vs.length * percent / 100) x.cells 0
  have hps : x.percentile percent =
      u32 (a.precise * (scan (vs.length * percent / 100) 0 x.cells : Nat)) := by
    unfold Hist.percentile; rw [hu, h4]
  rw [hps]
  generalize scan (vs.length * percent / 100) 0 x.cells = i at *
  rw [h5] at s1 s2
  have hbk := buckets_eq h
  have hpp := h.p
  have hfit := h.fits
  have hmul : a.precise * (i : Int) ≤ a.hi - 1 + a.precise := by
    have e1 : a.precise * (i : Int) ≤ a.precise * ((a.hi - 1) / a.precise + 1) := by
      apply Int.mul_le_mul_of_nonneg_left _ (by omega)
      have h3 : 0 ≤ (a.hi - 1) / a.precise := Int.ediv_nonneg (by have := h.hi; omega) (by omega)
      omega
    have e2 : a.precise * ((a.hi - 1) / a.precise) ≤ a.hi - 1 := Int.mul_ediv_self_le (by omega)
    rw [Int.mul_add, Int.mul_one] at e1
    omega
  have hnn : 0 ≤ a.precise * (i : Int) := Int.mul_nonneg (by omega) (by omega)
  have hval : ((u32 (a.precise * (i : Int)) : Nat) : Int) = i * a.precise := by
    simp only [u32]
    rw [Int.emod_eq_of_lt hnn (by omega), Int.toNat_of_nonneg hnn, Int.mul_comm]
  rw [hval]
  refine ⟨?_, ?_⟩
  · rcases s2 with hs | hs
    · rw [hs, below_all h]; exact hle
    · rw [Nat.zero_add, take_sum h hc i s1] at hs; exact hs
  · intro hpos
    have hi : i ≠ 0 := by rintro rfl; simp [u32] at hpos
    have := s3 (i - 1) (by omega)
    rw [Nat.zero_add, take_sum h hc (i - 1) (by omega)] at this
    have e : (i : Int) * a.precise - a.precise = ((i - 1 : Nat) : Int) * a.precise := by
      have : ((i - 1 : Nat) : Int) = (i : Int) - 1 := by omega
      rw [this, Int.sub_mul, Int.one_mul]
    rw [e]; exact this

/-- The default arguments are such arguments. -/
theorem ok_default : Ok .default := by
  refine ⟨?_, rfl, ?_, ?_⟩ <;> simp [Args.default]

/-- A conversion to `uint32_t` is the remainder modulo 2^32. -/
theorem u32_spec (x : Int) : u32 x < 2 ^ 32 ∧ ∃ k : Int, (u32 x : Int) = x + k * 2 ^ 32 := by
  unfold u32
  have h0 := Int.emod_nonneg x (show (4294967296 : Int) ≠ 0 by decide)
  have h1 := Int.emod_lt_of_pos x (show (0 : Int) < 4294967296 by decide)
  refine ⟨by omega, - (x / 4294967296), ?_⟩
  have := Int.emod_add_mul_ediv x 4294967296
  omega

/-- The default histogram: ten thousand buckets of a hundred, for the values from 0 to a million. -/
theorem c85_default (v : Int) (h : 0 ≤ v ∧ v < 1000000) : Args.default.buckets = 10000 ∧
    ((Args.default.pos 10000 v : Nat) : Int) = v / 100 ∧ Args.default.pos 10000 1000000 = 9999 ∧ Args.default.lo = 0 ∧
    Args.default.hi = 1000000 := by
  refine ⟨by decide, ?_, by decide, rfl, rfl⟩
  unfold Args.pos Args.default
  simp only
  rw [if_neg (by omega)]
  split
  · have : v = 0 := by omega
    subst this; rfl
  · unfold u32
    rw [Int.tdiv_eq_ediv_of_nonneg h.1]
    omega

/-- Merging histograms of different sizes: into the smaller one its range is added and the rest of the other one
dropped; into the larger one, the other one's buckets are read out of bounds. -/
theorem c85_merge_sizes (h o : Hist) (hn : h.cells.length ≠ o.cells.length) : (h.merge o).1 = true ∧
    (h.cells.length < o.cells.length → ∃ m, (h.merge o).2 = some m ∧ m.cells = h.cells.zipWith (· + ·) o.cells ∧
      m.base.counter = h.base.counter + o.base.counter ∧ m.base.total = h.base.total + o.base.total ∧ m.args = h.args) ∧
    (o.cells.length < h.cells.length → (h.merge o).2 = none) := by
  unfold Hist.merge
  rw [if_neg hn]
  refine ⟨rfl, fun hl => ?_, fun hl => ?_⟩
  · rw [if_pos (Nat.le_of_lt hl)]; exact ⟨_, rfl, rfl, rfl, rfl, rfl⟩
  · rw [if_neg (by omega)]

/-- **C85, violation.** A range that does not begin at zero makes the histogram write outside of its
buckets: with ten buckets for the range 1000 to 2000, the value 1500 goes to position 15. -/
theorem c85_range_out_of_bounds :
    (Args.mk 100 1000 2000).buckets = 10 ∧ (Args.mk 100 1000 2000).pos 10 1500 = 15 ∧
    (Hist.new ⟨100, 1000, 2000⟩).addAll [1500] = none := by decide

/-- **C85, violation.** Merging two histograms of the same name (hence of the same shape) does
nothing and reports failure, so the values of the other one are lost, whatever they are. -/
theorem c85_merge_loses (a : Args) (vs ws : List Int) {x y : Hist}
    (hx : (Hist.new a).addAll vs = some x) (hy : (Hist.new a).addAll ws = some y) :
    x.merge y = (false, some x) := by
  have len : ∀ (us : List Int) (h z : Hist), h.addAll us = some z → z.cells.length = h.cells.length := by
    intro us
    induction us with
    | nil => intro h z hz; simp only [Hist.addAll, Option.some.injEq] at hz; rw [hz]
    | cons u us ih =>
      intro h z hz
      simp only [Hist.addAll] at hz
      cases ha : h.add u with
      | none => simp [ha] at hz
      | some h' =>
        simp only [ha, Option.bind_some] at hz
        rw [ih h' z hz]
        unfold Hist.add at ha
        cases hb : bump h.cells (h.args.pos h.cells.length u) with
        | none => simp [hb] at ha
        | some c =>
          simp only [hb, Option.map_some, Option.some.injEq] at ha
          rw [← ha]
          unfold bump at hb
          split at hb
          · simp only [Option.some.injEq] at hb; rw [← hb, List.length_set]
          · simp at hb
  unfold Hist.merge
  rw [if_pos (by rw [len vs _ _ hx, len ws _ _ hy])]

/-- **C85, violation.** The reported percentiles of two hundred equal values are all different: each
percentile moves on by at least one bucket, although all values are in one. -/
theorem c85_percentiles_wrong :
    (((Hist.new ⟨100, 0, 1000⟩).addAll (List.replicate 200 150)).map
      fun x => (x.percentiles [50, 80, 90, 95, 99], x.percentile 50, x.percentile 99))
      = some ([100, 200, 300, 400, 500], 200, 200) := by decide +kernel

/-- **C85, violation.** And when the values are in the last bucket, all but the first are zero. -/
theorem c85_percentiles_zero :
    (((Hist.new ⟨100, 0, 1000⟩).addAll (List.replicate 200 5000)).map
      fun x => x.percentiles [50, 80, 90, 95, 99]) = some [900, 0, 0, 0, 0] := by decide +kernel

/-- The hypotheses of C85 are met by a histogram with a smaller range and values in, below and
above it. -/
theorem w_c85 :
    Ok ⟨100, 0, 1000⟩ ∧
    (((Hist.new ⟨100, 0, 1000⟩).addAll [5, 99, 100, 250, 299, -7, 5000]).map
      fun x => (x.cells, x.percentile 50, x.percentile 100))
      = some ([3, 1, 2, 0, 0, 0, 0, 0, 0, 1], 100, 1000) := by
  refine ⟨⟨by decide, rfl, by decide, by decide⟩, by decide⟩

end Ltio.Metrics
