import Verif.BoolIndex.Scan
/-
What the retrieval loop computes (see Scan.lean for the model).
-/
namespace Ltio.BoolIndex

/-- State of the cursors after sorting and dropping the ended ones. -/
structure Ready (gs : List Field) : Prop where
  ok : AllOk gs
  sorted : gs.Pairwise (fun a b => a.currentId ≤ b.currentId)
  live : ∀ f ∈ gs, f.currentId < nullEntry ∧ f.currentId ∈ f.rest

theorem advance_spec (endConj : Nat → Nat → Nat) {f : Field} {gs : List Field} (hr : Ready gs)
    (hk : need (entryConj f.currentId) ≤ gs.length) :
    ∃ g fs' T1 T2, gs[need (entryConj f.currentId) - 1]? = some g ∧
      advance endConj f gs = .go fs' (pushed endConj f.currentId g.currentId) ∧ AllOk fs' ∧
      gs.drop (need (entryConj f.currentId)) = T1 ++ T2 ∧
      view fs' = (view (gs.take (need (entryConj f.currentId)))).map
          (List.filter (fun e => decide (nextEid endConj f.currentId g.currentId ≤ e))) ++
        ((view T1).map (List.filter
          (fun e => decide (nextEid endConj f.currentId g.currentId < e))) ++ view T2) ∧
      (∀ h ∈ T1, entryConj h.currentId = entryConj f.currentId) ∧
      (isInclude f.currentId = false → endConj f.currentId g.currentId = entryConj f.currentId →
        ∀ h, T2.head? = some h → entryConj h.currentId ≠ entryConj f.currentId) ∧
      (¬ (endConj f.currentId g.currentId = entryConj f.currentId ∧
          isInclude f.currentId = false) → T1 = []) := by
  have hpos := need_pos (entryConj f.currentId)
  have hlt : need (entryConj f.currentId) - 1 < gs.length := by omega
  obtain ⟨head, h1, h2, h3⟩ := skipToAll_spec
    (nextEid endConj f.currentId (gs[need (entryConj f.currentId) - 1]'hlt).currentId)
    (gs.take (need (entryConj f.currentId))) (fun g hg => hr.ok g (List.mem_of_mem_take hg))
  have hget := List.getElem?_eq_getElem hlt
  generalize hg : gs[need (entryConj f.currentId) - 1]'hlt = g at *
  have hdok : AllOk (gs.drop (need (entryConj f.currentId))) :=
    fun g hg => hr.ok g (List.mem_of_mem_drop hg)
  unfold advance
  rw [if_neg (by omega), hget]
  simp only
  by_cases hc : endConj f.currentId g.currentId = entryConj f.currentId ∧ isInclude f.currentId = false
  · obtain ⟨tail, t1, t2, g1, g2, g3, g4, g5, g6⟩ := skipSame_spec (entryConj f.currentId)
      (nextEid endConj f.currentId g.currentId) _ hdok
    have ht : tailStep endConj f.currentId g.currentId
        (gs.drop (need (entryConj f.currentId))) = some tail := by
      unfold tailStep; rw [if_pos hc]; exact g1
    rw [ht]; simp only; rw [h1]
    refine ⟨g, head ++ tail, t1, t2, rfl, rfl, ?_, g3, ?_, g5, fun _ _ => g6, fun h => absurd hc h⟩
    · intro x hx
      rcases List.mem_append.1 hx with hx | hx
      · exact h2 x hx
      · exact g2 x hx
    · show view (head ++ tail) = _
      unfold view at *
      rw [List.map_append, h3, g4]
  · have ht : tailStep endConj f.currentId g.currentId
        (gs.drop (need (entryConj f.currentId))) = some (gs.drop (need (entryConj f.currentId))) := by
      unfold tailStep; rw [if_neg hc]
    rw [ht]; simp only; rw [h1]
    refine ⟨g, _, [], gs.drop (need (entryConj f.currentId)), rfl, rfl, ?_, rfl, ?_, by simp,
      fun a b => absurd ⟨b, a⟩ hc, fun _ => rfl⟩
    · intro x hx
      rcases List.mem_append.1 hx with hx | hx
      · exact h2 x hx
      · exact hdok x hx
    · show view (head ++ _) = _
      unfold view at *
      rw [List.map_append, h3]; rfl

theorem total_append (A B : View) : total (A ++ B) = total A + total B := by
  unfold total; rw [List.map_append, List.sum_append]

theorem total_filter_le (q : Nat → Bool) : ∀ A : View, total (A.map (List.filter q)) ≤ total A := by
  intro A
  induction A with
  | nil => exact Nat.le_refl _
  | cons a A ih =>
    unfold total at *
    simp only [List.map_cons, List.sum_cons]
    have := List.length_filter_le q a
    omega

/-- The new view is dominated by the old one. -/
structure Below (B A : View) : Prop where
  incl : ∀ c, inc B c ≤ inc A c
  sub : ∀ l ∈ B, ∃ l0 ∈ A, ∀ e ∈ l, e ∈ l0

theorem Wf.below {A B : View} (h : Wf A) (hb : Below B A) : Wf B := by
  refine ⟨?_, ?_, fun c => Nat.le_trans (hb.incl c) (h.bound c)⟩
  · intro l hl e he
    obtain ⟨l0, h0, hs⟩ := hb.sub l hl
    exact h.ids l0 h0 e (hs e he)
  · intro l hl c h1 h2
    obtain ⟨l0, h0, hs⟩ := hb.sub l hl
    exact h.polar l0 h0 c (hs _ h1) (hs _ h2)

theorem below_filter (q1 q2 : Nat → Bool) (X Y Z : View) :
    Below (X.map (List.filter q1) ++ (Y.map (List.filter q2) ++ Z)) (X ++ (Y ++ Z)) := by
  refine ⟨?_, ?_⟩
  · intro c
    rw [inc_append, inc_append, inc_append, inc_append]
    have h1 := inc_map_filter_le X q1 c
    have h2 := inc_map_filter_le Y q2 c
    omega
  · intro l hl
    rcases List.mem_append.1 hl with hl | hl
    · obtain ⟨l0, h0, rfl⟩ := List.mem_map.1 hl
      exact ⟨l0, List.mem_append_left _ h0, fun e he => (List.mem_filter.1 he).1⟩
    · rcases List.mem_append.1 hl with hl | hl
      · obtain ⟨l0, h0, rfl⟩ := List.mem_map.1 hl
        exact ⟨l0, List.mem_append_right _ (List.mem_append_left _ h0),
          fun e he => (List.mem_filter.1 he).1⟩
      · exact ⟨l, List.mem_append_right _ (List.mem_append_right _ hl), fun e he => he⟩

theorem wf_congr {A B : View} (h : Wf A) (hi : ∀ c, inc B c = inc A c) (hs : ∀ l ∈ B, l ∈ A) :
    Wf B :=
  h.below ⟨fun c => Nat.le_of_eq (hi c), fun l hl => ⟨l, hs l hl, fun _ he => he⟩⟩

/-- The head cursor has the smallest entry of all. -/
theorem Ready.head_le {f : Field} {rest : List Field} (hr : Ready (f :: rest)) :
    ∀ g ∈ f :: rest, ∀ e ∈ g.rest, f.currentId ≤ e := by
  intro g hg e he
  have h1 := (hr.ok g hg).min.1 e he
  rcases List.mem_cons.1 hg with rfl | hg'
  · exact h1
  · exact Nat.le_trans ((List.pairwise_cons.1 hr.sorted).1 g hg') h1

/-- Cursors from position `i` on have entries at least the current entry of cursor `i`. -/
theorem Ready.drop_le {gs : List Field} (hr : Ready gs) {i : Nat} {g : Field}
    (hg : gs[i]? = some g) : ∀ h ∈ gs.drop i, ∀ e ∈ h.rest, g.currentId ≤ e := by
  intro h hh e he
  have h1 := (hr.ok h (List.mem_of_mem_drop hh)).min.1 e he
  obtain ⟨j, hj, rfl⟩ := List.getElem_of_mem hh
  obtain ⟨hi, rfl⟩ := List.getElem?_eq_some_iff.1 hg
  rw [List.getElem_drop] at h1
  rcases Nat.eq_zero_or_pos j with rfl | hjp
  · exact h1
  · have := (List.pairwise_iff_getElem.1 hr.sorted) i (i + j) hi
      (by rw [List.length_drop] at hj; omega) (by omega)
    omega

/-- Cursors up to position `i` are at most at the current entry of cursor `i`. -/
theorem Ready.take_le {gs : List Field} (hr : Ready gs) {i : Nat} {g : Field}
    (hg : gs[i]? = some g) : ∀ h ∈ gs.take (i + 1), h.currentId ≤ g.currentId := by
  intro h hh
  obtain ⟨j, hj, rfl⟩ := List.getElem_of_mem hh
  obtain ⟨hi, rfl⟩ := List.getElem?_eq_some_iff.1 hg
  rw [List.length_take] at hj
  rw [List.getElem_take]
  rcases Nat.lt_or_ge j i with h1 | h1
  · exact (List.pairwise_iff_getElem.1 hr.sorted) j i (by omega) hi h1
  · have : j = i := by omega
    subst this; exact Nat.le_refl _

/-- With fewer cursors than needed, nothing matches. -/
theorem no_match_of_short {f : Field} {rest : List Field} (hr : Ready (f :: rest))
    (hwf : Wf (view (f :: rest))) (hk : need (entryConj f.currentId) > (f :: rest).length) (d : Nat) :
    ¬ Match (view (f :: rest)) d := by
  rintro ⟨h1, -⟩
  have hp := need_pos d
  have : 0 < inc (view (f :: rest)) d := by omega
  unfold inc at this
  obtain ⟨l, hl, hd⟩ := List.countP_pos_iff.1 this
  obtain ⟨g, hg, rfl⟩ := List.mem_map.1 hl
  have hmem : d * 16 + 1 ∈ g.rest := by simpa using hd
  have hle := hr.head_le g hg _ hmem
  have hid := (hwf.ids _ hl _ hmem).1
  rw [entryConj_eq] at hk
  have := need_mono (c := f.currentId / 16) (d := d) (by omega) (by omega)
  have hlen := inc_le_length (view (f :: rest)) d
  have : (view (f :: rest)).length = (f :: rest).length := by unfold view; simp
  omega

theorem mem_pos_of_inc {A : View} {d : Nat} (h : 0 < inc A d) : ∃ l ∈ A, d * 16 + 1 ∈ l := by
  unfold inc at h
  obtain ⟨l, hl, hd⟩ := List.countP_pos_iff.1 h
  exact ⟨l, hl, by simpa using hd⟩

/-- One iteration removes at least the smallest entry, whatever `endConj` is, provided
`nextEid` is beyond the current entry. -/
theorem total_decr {f : Field} {rest : List Field} (hr : Ready (f :: rest)) {k x : Nat} (hk : 0 < k)
    (hx : f.currentId < x) {T1 T2 : List Field} (hT : (f :: rest).drop k = T1 ++ T2)
    {fs' : List Field}
    (hv : view fs' = (view ((f :: rest).take k)).map (List.filter (fun e => decide (x ≤ e))) ++
      ((view T1).map (List.filter (fun e => decide (x < e))) ++ view T2)) :
    total (view fs') < total (view (f :: rest)) := by
  have hA : view (f :: rest) = view ((f :: rest).take k) ++ (view T1 ++ view T2) := by
    unfold view
    rw [← List.map_append, ← List.map_append, ← hT, List.take_append_drop]
  rw [hv, hA, total_append, total_append, total_append, total_append]
  have h2 := total_filter_le (fun e => decide (x < e)) (view T1)
  obtain ⟨k', rfl⟩ : ∃ k', k = k' + 1 := ⟨k - 1, by omega⟩
  have h1 : total ((view ((f :: rest).take (k' + 1))).map
      (List.filter (fun e => decide (x ≤ e)))) < total (view ((f :: rest).take (k' + 1))) := by
    rw [List.take_succ_cons]
    show total ((f.rest :: view (rest.take k')).map _) < total (f.rest :: view (rest.take k'))
    have h3 := total_filter_le (fun e => decide (x ≤ e)) (view (rest.take k'))
    unfold total at *
    simp only [List.map_cons, List.sum_cons]
    have h4 : (f.rest.filter (fun e => decide (x ≤ e))).length < f.rest.length := by
      apply List.length_filter_lt_length_iff_exists.2
      exact ⟨f.currentId, (hr.live f (by simp)).2, by simp; omega⟩
    omega
  omega

theorem view_split {gs T1 T2 : List Field} {k : Nat} (hT : gs.drop k = T1 ++ T2) :
    view gs = view (gs.take k) ++ (view T1 ++ view T2) := by
  unfold view
  rw [← List.map_append, ← List.map_append, ← hT, List.take_append_drop]

/-- The matches are those kept plus the one reported, for the intended loop. -/
theorem step_match {f : Field} {rest : List Field} (hr : Ready (f :: rest))
    (hwf : Wf (view (f :: rest))) {g : Field} {fs' T1 T2 : List Field}
    (hg : (f :: rest)[need (entryConj f.currentId) - 1]? = some g)
    (hT : (f :: rest).drop (need (entryConj f.currentId)) = T1 ++ T2)
    (hv : view fs' = (view ((f :: rest).take (need (entryConj f.currentId)))).map
          (List.filter (fun e => decide (nextEid intendedEndConj f.currentId g.currentId ≤ e))) ++
        ((view T1).map (List.filter
          (fun e => decide (nextEid intendedEndConj f.currentId g.currentId < e))) ++ view T2))
    (hT1 : ∀ h ∈ T1, entryConj h.currentId = entryConj f.currentId)
    (hT2 : isInclude f.currentId = false →
        intendedEndConj f.currentId g.currentId = entryConj f.currentId →
        ∀ h, T2.head? = some h → entryConj h.currentId ≠ entryConj f.currentId)
    (hT1n : ¬ (intendedEndConj f.currentId g.currentId = entryConj f.currentId ∧
          isInclude f.currentId = false) → T1 = []) (d : Nat) :
    Match (view (f :: rest)) d ↔ Match (view fs') d ∨
      (intendedEndConj f.currentId g.currentId = entryConj f.currentId ∧
        isInclude f.currentId = true ∧ d = entryConj f.currentId) := by
  have hpos := need_pos (entryConj f.currentId)
  obtain ⟨hf1, hf2⟩ := hr.live f (by simp)
  have hgm : g ∈ f :: rest := List.mem_of_getElem? hg
  obtain ⟨hg1, hg2⟩ := hr.live g hgm
  have hfid := hwf.ids f.rest (by unfold view; simp) _ hf2
  have hgid := hwf.ids g.rest (List.mem_map_of_mem hgm) _ hg2
  have hnull : nullEntry = 2 ^ 64 - 1 := rfl
  have hfg : f.currentId ≤ g.currentId := hr.head_le g hgm _ hg2
  have hsplit := view_split hT
  have hbelow : Below (view fs') (view (f :: rest)) := by
    rw [hv, hsplit]; exact below_filter _ _ _ _ _
  have hwf' : Wf (view fs') := hwf.below hbelow
  -- conjunctions below `c` never match, before or after
  have hlow : ∀ d, d < entryConj f.currentId → inc (view (f :: rest)) d = 0 := by
    intro d hd
    apply inc_eq_zero
    intro l hl hm
    obtain ⟨h, hh, rfl⟩ := List.mem_map.1 hl
    have := hr.head_le h hh _ hm
    rw [entryConj_eq] at hd
    omega
  have hnm : ∀ d, inc (view (f :: rest)) d < need d →
      ¬ Match (view (f :: rest)) d ∧ ¬ Match (view fs') d := by
    intro d hd
    have := hbelow.incl d
    exact ⟨fun h => by have := h.1; omega, fun h => by have := h.1; omega⟩
  -- conjunctions beyond the filters are untouched
  have hhigh : ∀ d, nextEid intendedEndConj f.currentId g.currentId ≤ d * 16 →
      (T1 ≠ [] → nextEid intendedEndConj f.currentId g.currentId < d * 16) →
      (Match (view (f :: rest)) d ↔ Match (view fs') d) := by
    intro d h1 h2
    unfold Match
    rw [hv, hsplit]
    simp only [inc_append, exc_append]
    rw [inc_map_filter_eq _ _ _ (by simp; omega), exc_map_filter]
    by_cases hn : T1 = []
    · subst hn
      simp only [view, List.map_nil]
      simp [h1]
    · have h3 := h2 hn
      rw [inc_map_filter_eq _ _ _ (by simp; omega), exc_map_filter]
      simp [h1, h3]
  by_cases hec : intendedEndConj f.currentId g.currentId = entryConj f.currentId
  · -- the k-th cursor is at the same conjunction
    have hec' : g.currentId / 16 = f.currentId / 16 := by
      unfold intendedEndConj at hec; rw [entryConj_eq, entryConj_eq] at hec; exact hec
    have hnext : nextEid intendedEndConj f.currentId g.currentId = g.currentId + 1 := by
      unfold nextEid
      rw [if_pos hec, Nat.mod_eq_of_lt (by omega)]
    have hc := entryConj_eq f.currentId
    have htk := hr.take_le hg
    rw [Nat.sub_add_cancel hpos] at htk
    by_cases hi : isInclude f.currentId = true
    · -- include: reported
      have hi' : f.currentId % 2 = 1 := by rw [isInclude_eq] at hi; simpa using hi
      have hfe : f.currentId = entryConj f.currentId * 16 + 1 := by omega
      have hge : g.currentId = f.currentId := by omega
      have hTn : T1 = [] := hT1n (by simp [hi])
      have hcount : inc (view ((f :: rest).take (need (entryConj f.currentId))))
          (entryConj f.currentId) = need (entryConj f.currentId) := by
        unfold inc
        rw [List.countP_eq_length.2]
        · unfold view
          rw [List.length_map, List.length_take]
          obtain ⟨hlt, -⟩ := List.getElem?_eq_some_iff.1 hg
          omega
        · intro l hl
          obtain ⟨h, hh, rfl⟩ := List.mem_map.1 hl
          have hh' := List.mem_of_mem_take hh
          have h1 := htk h hh
          have h2 := hr.head_le h hh' _ (hr.live h hh').2
          have : h.currentId = entryConj f.currentId * 16 + 1 := by omega
          simp only [decide_eq_true_eq]
          rw [← this]
          exact (hr.live h hh').2
      have hall := hwf.bound (entryConj f.currentId)
      rw [hsplit, inc_append] at hall
      have htail : inc (view T1 ++ view T2) (entryConj f.currentId) = 0 := by omega
      have hmc : Match (view (f :: rest)) (entryConj f.currentId) := by
        refine ⟨?_, ?_⟩
        · rw [hsplit, inc_append]; omega
        · rintro ⟨l, hl, hm⟩
          obtain ⟨h, hh, rfl⟩ := List.mem_map.1 hl
          have := hr.head_le h hh _ hm
          omega
      have hmc' : ¬ Match (view fs') (entryConj f.currentId) := by
        rintro ⟨h1, -⟩
        rw [hv, inc_append] at h1
        subst hTn
        simp only [view, List.map_nil, List.nil_append] at htail h1
        have : inc (List.map (List.filter
            (fun e => decide (nextEid intendedEndConj f.currentId g.currentId ≤ e)))
            (List.map Field.rest ((f :: rest).take (need (entryConj f.currentId)))))
            (entryConj f.currentId) = 0 := by
          apply inc_eq_zero
          intro l hl hm
          obtain ⟨l0, h0, rfl⟩ := List.mem_map.1 hl
          have := (List.mem_filter.1 hm).2
          rw [hnext] at this
          simp at this
          omega
        omega
      rcases Nat.lt_trichotomy d (entryConj f.currentId) with h | h | h
      · have := hnm d (by rw [hlow d h]; exact need_pos d)
        constructor
        · intro h'; exact absurd h' this.1
        · rintro (h' | ⟨-, -, h'⟩)
          · exact absurd h' this.2
          · omega
      · subst h
        exact ⟨fun _ => Or.inr ⟨hec, hi, rfl⟩, fun _ => hmc⟩
      · rw [hhigh d (by rw [hnext]; omega) (fun h => absurd hTn h)]
        constructor
        · exact Or.inl
        · rintro (h' | ⟨-, -, h'⟩)
          · exact h'
          · omega
    · -- exclude
      have hif : isInclude f.currentId = false := by simpa using hi
      have hi' : f.currentId % 2 = 0 := by rw [isInclude_eq] at hi; simp at hi; omega
      have hfe : f.currentId = entryConj f.currentId * 16 := by omega
      have hge : g.currentId = f.currentId ∨ g.currentId = f.currentId + 1 := by omega
      have hnc : ¬ Match (view (f :: rest)) (entryConj f.currentId) := by
        rintro ⟨-, h⟩
        apply h
        refine ⟨f.rest, by unfold view; simp, ?_⟩
        rw [← hfe]; exact hf2
      have hnc' : ¬ Match (view fs') (entryConj f.currentId) := by
        rintro ⟨h, -⟩
        have hp := need_pos (entryConj f.currentId)
        obtain ⟨l, hl, hm⟩ := mem_pos_of_inc (A := view fs') (d := entryConj f.currentId) (by omega)
        rw [hv] at hl
        rcases List.mem_append.1 hl with hl | hl
        · obtain ⟨l0, h0, rfl⟩ := List.mem_map.1 hl
          obtain ⟨hm1, hm2⟩ := List.mem_filter.1 hm
          rw [hnext] at hm2
          simp at hm2
          have hgf : g.currentId = f.currentId := by omega
          obtain ⟨h, hh, rfl⟩ := List.mem_map.1 h0
          have hh' := List.mem_of_mem_take hh
          have h1 := htk h hh
          have h2 := hr.head_le h hh' _ (hr.live h hh').2
          have h3 : h.currentId = entryConj f.currentId * 16 := by omega
          exact hwf.polar h.rest (List.mem_map_of_mem hh') _ (by rw [← h3]; exact (hr.live h hh').2) hm1
        · rcases List.mem_append.1 hl with hl | hl
          · obtain ⟨l0, h0, rfl⟩ := List.mem_map.1 hl
            obtain ⟨hm1, hm2⟩ := List.mem_filter.1 hm
            rw [hnext] at hm2
            simp at hm2
            omega
          · obtain ⟨h, hh, rfl⟩ := List.mem_map.1 hl
            obtain ⟨h0, hh0⟩ : ∃ h0, T2.head? = some h0 := by
              cases T2 with
              | nil => simp at hh
              | cons a b => exact ⟨a, rfl⟩
            have hne := hT2 hif hec h0 hh0
            have hT2m : ∀ x ∈ T2, x ∈ f :: rest := fun x hx => by
              have : x ∈ (f :: rest).drop (need (entryConj f.currentId)) := by
                rw [hT]; exact List.mem_append_right _ hx
              exact List.mem_of_mem_drop this
            have hs2 : T2.Pairwise (fun a b => a.currentId ≤ b.currentId) := by
              have hs := hr.sorted.drop (i := need (entryConj f.currentId))
              rw [hT] at hs
              exact (List.pairwise_append.1 hs).2.1
            have h0le : h0.currentId ≤ h.currentId := by
              cases T2 with
              | nil => simp at hh
              | cons a b =>
                simp at hh0
                subst hh0
                rcases List.mem_cons.1 hh with rfl | hh
                · exact Nat.le_refl _
                · exact (List.pairwise_cons.1 hs2).1 h hh
            have h0m : h0 ∈ T2 := List.mem_of_mem_head? (by rw [hh0]; rfl)
            have h1 := hr.head_le h0 (hT2m h0 h0m) _ (hr.live h0 (hT2m h0 h0m)).2
            rw [entryConj_eq] at hne
            have h2 := (hr.ok h (hT2m h hh)).min.1 _ hm
            omega
      rcases Nat.lt_trichotomy d (entryConj f.currentId) with h | h | h
      · have := hnm d (by rw [hlow d h]; exact need_pos d)
        constructor
        · intro h'; exact absurd h' this.1
        · rintro (h' | ⟨-, h', -⟩)
          · exact absurd h' this.2
          · exact absurd h' hi
      · subst h
        constructor
        · intro h'; exact absurd h' hnc
        · rintro (h' | ⟨-, h', -⟩)
          · exact absurd h' hnc'
          · exact absurd h' hi
      · rw [hhigh d (by rw [hnext]; omega) (fun _ => by rw [hnext]; omega)]
        constructor
        · exact Or.inl
        · rintro (h' | ⟨-, h', -⟩)
          · exact h'
          · exact absurd h' hi
  · -- the k-th cursor is beyond: skip ahead
    have hTn : T1 = [] := hT1n (fun h => hec h.1)
    have hec' : f.currentId / 16 < g.currentId / 16 := by
      unfold intendedEndConj at hec
      rw [entryConj_eq, entryConj_eq] at hec; omega
    have hnext : nextEid intendedEndConj f.currentId g.currentId = g.currentId / 16 * 16 := by
      unfold nextEid
      rw [if_neg hec, entryConj_eq, genEntryID_eq hgid.1]
      rfl
    have hc := entryConj_eq f.currentId
    constructor
    · intro hm
      left
      by_cases hd : d < g.currentId / 16
      · exfalso
        refine (hnm d ?_).1 hm
        rcases Nat.lt_or_ge d (entryConj f.currentId) with h | h
        · rw [hlow d h]; exact need_pos d
        · have hmono := need_mono h (by omega)
          have h1 : view (f :: rest) = view ((f :: rest).take (need (entryConj f.currentId) - 1)) ++
              view ((f :: rest).drop (need (entryConj f.currentId) - 1)) := by
            unfold view; rw [← List.map_append, List.take_append_drop]
          rw [h1, inc_append, inc_eq_zero (A := view ((f :: rest).drop _))]
          · have := inc_le_length (view ((f :: rest).take (need (entryConj f.currentId) - 1))) d
            unfold view at this
            rw [List.length_map, List.length_take] at this
            unfold view
            omega
          · intro l hl hm
            obtain ⟨h, hh, rfl⟩ := List.mem_map.1 hl
            have := hr.drop_le hg h hh _ hm
            omega
      · exact (hhigh d (by rw [hnext]; omega) (fun h => absurd hTn h)).1 hm
    · rintro (hm | ⟨h, -, -⟩)
      · by_cases hd : d < g.currentId / 16
        · exfalso
          refine (hnm d ?_).2 hm
          rcases Nat.lt_or_ge d (entryConj f.currentId) with h | h
          · rw [hlow d h]; exact need_pos d
          · have hmono := need_mono h (by omega)
            have h1 : view (f :: rest) = view ((f :: rest).take (need (entryConj f.currentId) - 1)) ++
                view ((f :: rest).drop (need (entryConj f.currentId) - 1)) := by
              unfold view; rw [← List.map_append, List.take_append_drop]
            rw [h1, inc_append, inc_eq_zero (A := view ((f :: rest).drop _))]
            · have := inc_le_length (view ((f :: rest).take (need (entryConj f.currentId) - 1))) d
              unfold view at this
              rw [List.length_map, List.length_take] at this
              unfold view
              omega
            · intro l hl hm
              obtain ⟨h, hh, rfl⟩ := List.mem_map.1 hl
              have := hr.drop_le hg h hh _ hm
              omega
        · exact (hhigh d (by rw [hnext]; omega) (fun h => absurd hTn h)).2 hm
      · exact absurd h hec

theorem match_congr {A B : View} (h1 : ∀ c, inc A c = inc B c) (h2 : ∀ c, exc A c ↔ exc B c)
    (c : Nat) : Match A c ↔ Match B c := by
  unfold Match; rw [h1 c, h2 c]

/-- **The intended loop is exact**: it terminates and reports exactly the documents having a
conjunction present in as many cursors as its size and excluded by none. -/
theorem scan_correct {sortF : List Field → List Field} (hs : ValidSort sortF) :
    ∀ (fuel : Nat) (fs : List Field), AllOk fs → Wf (view fs) → total (view fs) < fuel →
    ∃ r, scan intendedEndConj sortF fuel fs = some r ∧
      ∀ doc, doc ∈ r ↔ ∃ c, Match (view fs) c ∧ getDocumentID c = doc := by
  intro fuel
  induction fuel with
  | zero => intro fs _ _ h; omega
  | succ fuel ih =>
    intro fs hok hwf htot
    obtain ⟨d1, d2, d3, d4, d5, d6, d7⟩ := dropEnded_spec hs hok
    have hmc := match_congr d4 d5
    unfold scan iterate
    match hd : dropEnded (sortF fs), d1, d2, d3, d4, d6, d7, hmc with
    | [], _, _, _, d4, _, _, hmc =>
      refine ⟨[], rfl, ?_⟩
      intro doc
      simp only [List.not_mem_nil, false_iff]
      rintro ⟨c, hc, -⟩
      have := ((hmc c).2 hc).1
      have := need_pos c
      simp [inc, view] at *
      omega
    | f :: rest, d1, d2, d3, d4, d6, d7, hmc =>
      have hr : Ready (f :: rest) := ⟨d1, d2, d3⟩
      have hwf' : Wf (view (f :: rest)) := wf_congr hwf d4 d6
      simp only
      by_cases hk : need (entryConj f.currentId) > (f :: rest).length
      · have : advance intendedEndConj f (f :: rest) = .stop := by
          unfold advance; rw [if_pos hk]
        rw [this]
        refine ⟨[], rfl, ?_⟩
        intro doc
        simp only [List.not_mem_nil, false_iff]
        rintro ⟨c, hc, -⟩
        exact no_match_of_short hr hwf' hk c ((hmc c).2 hc)
      · obtain ⟨g, fs', T1, T2, a1, a2, a3, a4, a5, a6, a7, a8⟩ :=
          advance_spec intendedEndConj (f := f) hr (Nat.not_lt.1 hk)
        have hstep := step_match hr hwf' a1 a4 a5 a6 a7 a8
        have hgm : g ∈ f :: rest := List.mem_of_getElem? a1
        have hfl := hr.live f (by simp)
        have hgl := hr.live g hgm
        have hfg := hr.head_le g hgm _ hgl.2
        have hgid := hwf'.ids g.rest (List.mem_map_of_mem hgm) _ hgl.2
        have hnx : f.currentId < nextEid intendedEndConj f.currentId g.currentId := by
          have hnull : nullEntry = 2 ^ 64 - 1 := rfl
          unfold nextEid
          split
          · rw [Nat.mod_eq_of_lt (by omega)]; omega
          · rename_i hne
            unfold intendedEndConj at hne
            rw [genEntryID_eq (by rw [entryConj_eq]; exact hgid.1)]
            rw [entryConj_eq, entryConj_eq] at hne
            rw [entryConj_eq]
            simp
            omega
        have hdec := total_decr hr (need_pos _) hnx a4 a5
        have hbelow : Below (view fs') (view (f :: rest)) := by
          rw [a5, view_split a4]; exact below_filter _ _ _ _ _
        obtain ⟨r, hr1, hr2⟩ := ih fs' a3 (hwf'.below hbelow) (by omega)
        rw [a2]
        simp only
        rw [hr1]
        refine ⟨_, rfl, ?_⟩
        intro doc
        rw [List.mem_append, hr2 doc]
        unfold pushed
        constructor
        · rintro (h | ⟨c, hc, h⟩)
          · split at h
            · rename_i hcond
              simp at h
              refine ⟨entryConj f.currentId, (hmc _).1 ((hstep _).2 (Or.inr ⟨hcond.1, hcond.2, rfl⟩)), ?_⟩
              rw [h]; rfl
            · simp at h
          · exact ⟨c, (hmc c).1 ((hstep c).2 (Or.inl hc)), h⟩
        · rintro ⟨c, hc, h⟩
          rcases (hstep c).1 ((hmc c).2 hc) with h' | ⟨h1, h2, rfl⟩
          · exact Or.inr ⟨c, h', h⟩
          · left
            rw [if_pos ⟨h1, h2⟩]
            simp [← h]
            rfl

/-- **The loop as written** terminates on every input, without undefined behaviour, and never
reports a document none of whose conjunctions is positively present. -/
theorem scan_code_weak {sortF : List Field → List Field} (hs : ValidSort sortF) :
    ∀ (fuel : Nat) (fs : List Field), AllOk fs → Wf (view fs) → total (view fs) < fuel →
    ∃ r, scan codeEndConj sortF fuel fs = some r ∧
      ∀ doc ∈ r, ∃ c, 0 < inc (view fs) c ∧ getDocumentID c = doc := by
  intro fuel
  induction fuel with
  | zero => intro fs _ _ h; omega
  | succ fuel ih =>
    intro fs hok hwf htot
    obtain ⟨d1, d2, d3, d4, d5, d6, d7⟩ := dropEnded_spec hs hok
    unfold scan iterate
    match hd : dropEnded (sortF fs), d1, d2, d3, d4, d6, d7 with
    | [], _, _, _, d4, _, _ => exact ⟨[], rfl, by simp⟩
    | f :: rest, d1, d2, d3, d4, d6, d7 =>
      have hr : Ready (f :: rest) := ⟨d1, d2, d3⟩
      have hwf' : Wf (view (f :: rest)) := wf_congr hwf d4 d6
      simp only
      by_cases hk : need (entryConj f.currentId) > (f :: rest).length
      · have : advance codeEndConj f (f :: rest) = .stop := by
          unfold advance; rw [if_pos hk]
        rw [this]
        exact ⟨[], rfl, by simp⟩
      · obtain ⟨g, fs', T1, T2, a1, a2, a3, a4, a5, a6, a7, a8⟩ :=
          advance_spec codeEndConj (f := f) hr (Nat.not_lt.1 hk)
        have hgm : g ∈ f :: rest := List.mem_of_getElem? a1
        have hfl := hr.live f (by simp)
        have hgl := hr.live g hgm
        have hfg := hr.head_le g hgm _ hgl.2
        have hnx : f.currentId < nextEid codeEndConj f.currentId g.currentId := by
          have hnull : nullEntry = 2 ^ 64 - 1 := rfl
          unfold nextEid
          rw [if_pos (show codeEndConj f.currentId g.currentId = entryConj f.currentId from rfl), Nat.mod_eq_of_lt (by omega)]; omega
        have hdec := total_decr hr (need_pos _) hnx a4 a5
        have hbelow : Below (view fs') (view (f :: rest)) := by
          rw [a5, view_split a4]; exact below_filter _ _ _ _ _
        obtain ⟨r, hr1, hr2⟩ := ih fs' a3 (hwf'.below hbelow) (by omega)
        rw [a2]
        simp only
        rw [hr1]
        refine ⟨_, rfl, ?_⟩
        intro doc hdoc
        rcases List.mem_append.1 hdoc with h | h
        · unfold pushed at h
          split at h
          · rename_i hcond
            simp at h
            refine ⟨entryConj f.currentId, ?_, by rw [h]; rfl⟩
            rw [← d4]
            unfold inc
            apply List.countP_pos_iff.2
            refine ⟨f.rest, by unfold view; simp, ?_⟩
            have hfid := hwf'.ids f.rest (by unfold view; simp) _ hfl.2
            have hi := hcond.2
            rw [isInclude_eq] at hi
            simp at hi
            rw [entryConj_eq]
            simp only [decide_eq_true_eq]
            rw [show f.currentId / 16 * 16 + 1 = f.currentId by omega]
            exact hfl.2
          · simp at h
        · obtain ⟨c, hc, h'⟩ := hr2 doc h
          refine ⟨c, ?_, h'⟩
          have := hbelow.incl c
          rw [← d4]; omega

/-- When every conjunction present needs one cursor, the loop as written is the intended one. -/
theorem scan_code_eq {sortF : List Field → List Field} (hs : ValidSort sortF) :
    ∀ (fuel : Nat) (fs : List Field), AllOk fs →
    (∀ l ∈ view fs, ∀ e ∈ l, need (e / 16) = 1) →
    scan codeEndConj sortF fuel fs = scan intendedEndConj sortF fuel fs := by
  intro fuel
  induction fuel with
  | zero => intro fs _ _; rfl
  | succ fuel ih =>
    intro fs hok hone
    obtain ⟨d1, d2, d3, d4, d5, d6, d7⟩ := dropEnded_spec hs hok
    unfold scan iterate
    match hd : dropEnded (sortF fs), d1, d2, d3, d4, d6, d7 with
    | [], _, _, _, d4, _, _ => rfl
    | f :: rest, d1, d2, d3, d4, d6, d7 =>
      have hr : Ready (f :: rest) := ⟨d1, d2, d3⟩
      have hfl := hr.live f (by simp)
      have hn : need (entryConj f.currentId) = 1 := by
        rw [entryConj_eq]
        exact hone _ (d6 f.rest (by unfold view; simp)) _ hfl.2
      obtain ⟨g, fs', T1, T2, a1, a2, a3, a4, a5, a6, a7, a8⟩ :=
          advance_spec codeEndConj (f := f) hr (by rw [hn]; simp)
      have hadv : advance codeEndConj f (f :: rest) = advance intendedEndConj f (f :: rest) := by
        unfold advance
        rw [hn]
        rfl
      simp only
      rw [← hadv, a2]
      simp only
      rw [ih fs' a3]
      intro l hl e he
      have hbelow : Below (view fs') (view (f :: rest)) := by
        rw [a5, view_split a4]; exact below_filter _ _ _ _ _
      obtain ⟨l0, h0, hsub⟩ := hbelow.sub l hl
      exact hone l0 (d6 l0 h0) e (hsub e he)

end Ltio.BoolIndex
