import Verif.Metrics.Model

/-
C85: what the metrics say about the values they were given.
-/
namespace Ltio.Metrics

/-- The common part after a sequence of values. -/
def Base.of (vs : List Int) : Base := vs.foldl Base.add .new

/-- The gauge after a sequence of values. -/
def Gauge.of (vs : List Int) : Gauge := vs.foldl Gauge.add .new

theorem foldl_base (vs : List Int) : ∀ b : Base,
    (vs.foldl Base.add b).counter = b.counter + vs.length ∧
    (vs.foldl Base.add b).total = b.total + vs.sum ∧
    (∀ x, (vs.foldl Base.add b).mn ≤ x ↔ b.mn ≤ x ∨ ∃ v ∈ vs, v ≤ x) ∧
    (∀ x, x ≤ (vs.foldl Base.add b).mx ↔ x ≤ b.mx ∨ ∃ v ∈ vs, x ≤ v) := by
  induction vs with
  | nil => intro b; simp
  | cons v vs ih =>
    intro b
    obtain ⟨h1, h2, h3, h4⟩ := ih (b.add v)
    simp only [List.foldl_cons, List.length_cons, List.sum_cons]
    refine ⟨by rw [h1]; simp only [Base.add]; omega, by rw [h2]; simp only [Base.add]; omega, ?_, ?_⟩
    · intro x
      rw [h3 x]
      simp only [Base.add, List.mem_cons, exists_eq_or_imp]
      rw [show (min b.mn v ≤ x ↔ b.mn ≤ x ∨ v ≤ x) by omega, or_assoc]
    · intro x
      rw [h4 x]
      simp only [Base.add, List.mem_cons, exists_eq_or_imp]
      rw [show (x ≤ max b.mx v ↔ x ≤ b.mx ∨ x ≤ v) by omega, or_assoc]

theorem foldl_gauge_base (vs : List Int) : ∀ g : Gauge,
    (vs.foldl Gauge.add g).base = vs.foldl Base.add g.base := by
  induction vs with
  | nil => intro g; rfl
  | cons v vs ih => intro g; simp only [List.foldl_cons]; rw [ih]; rfl

theorem foldl_gauge_latest (vs : List Int) : ∀ g : Gauge,
    (vs.foldl Gauge.add g).latest = vs.getLast?.getD g.latest := by
  induction vs with
  | nil => intro g; rfl
  | cons v vs ih =>
    intro g
    simp only [List.foldl_cons]
    rw [ih]
    cases vs with
    | nil => rfl
    | cons w ws => simp [Gauge.add, List.getLast?_cons]

/-- **C85.** A gauge counts its values, sums them and remembers the latest one. -/
theorem c85_gauge (vs : List Int) :
    (Gauge.of vs).base.counter = vs.length ∧ (Gauge.of vs).base.total = vs.sum ∧
    (Gauge.of vs).latest = vs.getLast?.getD 0 := by
  have h := foldl_base vs .new
  refine ⟨?_, ?_, foldl_gauge_latest vs .new⟩
  · simp only [Gauge.of]; rw [foldl_gauge_base]; rw [show Gauge.new.base = Base.new from rfl, h.1]
    simp [Base.new]
  · simp only [Gauge.of]; rw [foldl_gauge_base]; rw [show Gauge.new.base = Base.new from rfl, h.2.1]
    simp [Base.new]

/-- **C85.** The minimum and maximum are those of the values together with zero. -/
theorem c85_minmax (vs : List Int) :
    (∀ x, (Gauge.of vs).base.mn ≤ x ↔ ∃ v ∈ (0 :: vs), v ≤ x) ∧
    (∀ x, x ≤ (Gauge.of vs).base.mx ↔ ∃ v ∈ (0 :: vs), x ≤ v) := by
  have h := foldl_base vs .new
  simp only [Gauge.of]
  rw [foldl_gauge_base, show Gauge.new.base = Base.new from rfl]
  refine ⟨fun x => ?_, fun x => ?_⟩
  · rw [h.2.2.1 x]; simp [Base.new]
  · rw [h.2.2.2 x]; simp [Base.new]

/-- **C85, violation.** So the reported minimum of positive values is zero, and the reported maximum
of negative values too. -/
theorem c85_min_is_zero : (Gauge.of [30, 20, 70]).base.mn = 0 ∧ (Gauge.of [-30, -20]).base.mx = 0 := by
  decide

/-- **C85.** Merging the gauge of `ws` into the gauge of `vs` gives the gauge of all the values. -/
theorem c85_gauge_merge (vs ws : List Int) (hw : ws ≠ []) :
    (Gauge.of vs).merge (Gauge.of ws) = Gauge.of (vs ++ ws) := by
  have hb : ∀ us, (Gauge.of us).base = Base.of us := fun us => foldl_gauge_base us .new
  have hl : ∀ us, (Gauge.of us).latest = us.getLast?.getD 0 := fun us => foldl_gauge_latest us .new
  have hbase : (Base.of vs).merge (Base.of ws) = Base.of (vs ++ ws) := by
    obtain ⟨a1, a2, a3, a4⟩ := foldl_base vs .new
    obtain ⟨b1, b2, b3, b4⟩ := foldl_base ws .new
    obtain ⟨c1, c2, c3, c4⟩ := foldl_base (vs ++ ws) .new
    have hmn : min (Base.of ws).mn (Base.of vs).mn = (Base.of (vs ++ ws)).mn := by
      have key : ∀ x, min (Base.of ws).mn (Base.of vs).mn ≤ x ↔ (Base.of (vs ++ ws)).mn ≤ x := by
        intro x
        have e1 : min (Base.of ws).mn (Base.of vs).mn ≤ x ↔ (Base.of vs).mn ≤ x ∨ (Base.of ws).mn ≤ x := by
          omega
        rw [e1]
        simp only [Base.of]
        rw [a3, b3, c3]
        simp only [List.mem_append, or_and_right, exists_or]
        constructor
        · rintro ((h | h) | (h | h)) <;> simp [h]
        · rintro (h | h | h) <;> simp [h]
      have k1 := (key _).1 (Int.le_refl _)
      have k2 := (key _).2 (Int.le_refl _)
      omega
    have hmx : max (Base.of ws).mx (Base.of vs).mx = (Base.of (vs ++ ws)).mx := by
      have key : ∀ x, x ≤ max (Base.of ws).mx (Base.of vs).mx ↔ x ≤ (Base.of (vs ++ ws)).mx := by
        intro x
        have e1 : x ≤ max (Base.of ws).mx (Base.of vs).mx ↔ x ≤ (Base.of vs).mx ∨ x ≤ (Base.of ws).mx := by
          omega
        rw [e1]
        simp only [Base.of]
        rw [a4, b4, c4]
        simp only [List.mem_append, or_and_right, exists_or]
        constructor
        · rintro ((h | h) | (h | h)) <;> simp [h]
        · rintro (h | h | h) <;> simp [h]
      have k1 := (key _).1 (Int.le_refl _)
      have k2 := (key _).2 (Int.le_refl _)
      omega
    have hc : (Base.of vs).counter + (Base.of ws).counter = (Base.of (vs ++ ws)).counter := by
      simp only [Base.of]; rw [a1, b1, c1]; simp [Base.new]
    have ht : (Base.of vs).total + (Base.of ws).total = (Base.of (vs ++ ws)).total := by
      simp only [Base.of]; rw [a2, b2, c2]; simp [Base.new]
    simp only [Base.merge, hmn, hmx, hc, ht]
  have hlat : (Gauge.of ws).latest = (Gauge.of (vs ++ ws)).latest := by
    rw [hl, hl, List.getLast?_append]
    cases h : ws.getLast? with
    | none => exact absurd (List.getLast?_eq_none_iff.1 h) hw
    | some x => rfl
  show Gauge.mk _ _ = _
  rw [hb, hb, hbase, hlat, ← hb]

end Ltio.Metrics
