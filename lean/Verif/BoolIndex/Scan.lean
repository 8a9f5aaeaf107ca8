import Verif.BoolIndex.Cursor
/-
Model of `IndexScanner::Retrieve` (components/boolean_indexer/index_scanner.cc:65-127).

`std::sort` is not stable, so the sorting function is a parameter: any function returning a
permutation ordered by current entry id.  The unbounded `do ... while(1)` takes fuel.

The code computes `end_conj_id = GetConjunctionId(eid)` (line 105) where the algorithm needs
`GetConjunctionId(end_eid)`.  The loop below takes that computation as the parameter `endConj`;
`codeEndConj` is what the code does, `intendedEndConj` is the evident intention (and is not the
code).
-/
namespace Ltio.BoolIndex

/-- Line 105 as written. -/
def codeEndConj (eid _endEid : Nat) : Nat := entryConj eid

/-- Line 105 as the published algorithm has it. -/
def intendedEndConj (_eid endEid : Nat) : Nat := entryConj endEid

/-- A sorting routine as `std::sort` with the comparator of lines 78-80. -/
structure ValidSort (sortF : List Field → List Field) : Prop where
  perm : ∀ fs, (sortF fs).Perm fs
  sorted : ∀ fs, (sortF fs).Pairwise (fun a b => a.currentId ≤ b.currentId)

/-- Lines 83-86: pop cursors that reached the end off the back. -/
def dropEnded (fs : List Field) : List Field :=
  (fs.reverse.dropWhile (fun f => f.currentId == nullEntry)).reverse

/-- `field_cursors[i]->SkipTo(next)` for a range of cursors (lines 121-123). -/
def skipToAll (x : Nat) : List Field → Option (List Field)
  | [] => some []
  | f :: fs =>
    match f.skipTo x with
    | none => none
    | some f' => match skipToAll x fs with
      | none => none
      | some fs' => some (f' :: fs')

/-- Lines 112-117: skip the following cursors while they are at conjunction `c`. -/
def skipSame (c x : Nat) : List Field → Option (List Field)
  | [] => some []
  | f :: fs =>
    if c ≠ entryConj f.currentId then some (f :: fs)
    else match f.skip x with
      | none => none
      | some f' => match skipSame c x fs with
        | none => none
        | some fs' => some (f' :: fs')

/-- Lines 95-98. -/
def need (c : Nat) : Nat := if getConjunctionSize c = 0 then 1 else getConjunctionSize c

/-- Lines 106-119: the value of `next_eid`. -/
def nextEid (endConj : Nat → Nat → Nat) (eid endEid : Nat) : Nat :=
  if endConj eid endEid = entryConj eid then (endEid + 1) % 2 ^ 64
  else genEntryID (entryConj endEid) true

/-- Lines 112-117 applied (only in the exclude case, line 109/111) to the cursors from `k` on. -/
def tailStep (endConj : Nat → Nat → Nat) (eid endEid : Nat) (tail : List Field) :
    Option (List Field) :=
  if endConj eid endEid = entryConj eid ∧ isInclude eid = false then
    skipSame (entryConj eid) (nextEid endConj eid endEid) tail
  else some tail

/-- Line 110. -/
def pushed (endConj : Nat → Nat → Nat) (eid endEid : Nat) : List Int :=
  if endConj eid endEid = entryConj eid ∧ isInclude eid = true then [entryDoc eid] else []

/-- Outcome of one iteration of the loop. -/
inductive Step where
  | stop
  | ub
  | go (fs : List Field) (out : List Int)

/-- Lines 100-123 for sorted, non-ended cursors whose first one is `f`. -/
def advance (endConj : Nat → Nat → Nat) (f : Field) (fs : List Field) : Step :=
  if need (entryConj f.currentId) > fs.length then .stop
  else match fs[need (entryConj f.currentId) - 1]? with
    | none => .ub
    | some g =>
      match tailStep endConj f.currentId g.currentId (fs.drop (need (entryConj f.currentId))) with
      | none => .ub
      | some tail =>
        match skipToAll (nextEid endConj f.currentId g.currentId)
            (fs.take (need (entryConj f.currentId))) with
        | none => .ub
        | some head => .go (head ++ tail) (pushed endConj f.currentId g.currentId)

/-- One iteration (lines 76-123). -/
def iterate (endConj : Nat → Nat → Nat) (sortF : List Field → List Field) (fs : List Field) : Step :=
  match dropEnded (sortF fs) with
  | [] => .stop
  | f :: rest => advance endConj f (f :: rest)

/-- The loop (lines 74-124): `none` = out of fuel or undefined behaviour. -/
def scan (endConj : Nat → Nat → Nat) (sortF : List Field → List Field) :
    Nat → List Field → Option (List Int)
  | 0, _ => none
  | fuel + 1, fs =>
    match iterate endConj sortF fs with
    | .stop => some []
    | .ub => none
    | .go fs' out => (scan endConj sortF fuel fs').map (out ++ ·)

/-- More fuel does not change a result. -/
theorem scan_mono (endConj : Nat → Nat → Nat) (sortF : List Field → List Field) :
    ∀ (n m : Nat) (fs : List Field) (r : List Int), scan endConj sortF n fs = some r → n ≤ m →
      scan endConj sortF m fs = some r := by
  intro n
  induction n with
  | zero => intro m fs r h; simp [scan] at h
  | succ n ih =>
    intro m fs r h hm
    obtain ⟨m, rfl⟩ : ∃ m', m = m' + 1 := ⟨m - 1, by omega⟩
    unfold scan at h ⊢
    cases hit : iterate endConj sortF fs with
    | stop => rw [hit] at h; exact h
    | ub => rw [hit] at h; simp at h
    | go fs' out =>
      rw [hit] at h
      simp only at h ⊢
      cases hs : scan endConj sortF n fs' with
      | none => rw [hs] at h; simp at h
      | some r' => rw [hs] at h; rw [ih m fs' r' hs (by omega)]; exact h

/-! ### Abstract view: the remaining entries of each cursor -/

abbrev View := List (List Nat)

def view (fs : List Field) : View := fs.map Field.rest

/-- In how many cursors conjunction `c` is still present positively. -/
def inc (A : View) (c : Nat) : Nat := A.countP (fun l => decide (c * 16 + 1 ∈ l))

/-- Conjunction `c` is still present negatively. -/
def exc (A : View) (c : Nat) : Prop := ∃ l ∈ A, c * 16 ∈ l

/-- `c` matches: positively present in as many cursors as it needs, and not negatively. -/
def Match (A : View) (c : Nat) : Prop := inc A c = need c ∧ ¬ exc A c

def total (A : View) : Nat := (A.map List.length).sum

/-- Well-formed posting data. -/
structure Wf (A : View) : Prop where
  ids : ∀ l ∈ A, ∀ e ∈ l, e / 16 < 2 ^ 60 ∧ (e % 16 = 0 ∨ e % 16 = 1)
  polar : ∀ l ∈ A, ∀ c, c * 16 ∈ l → c * 16 + 1 ∉ l
  bound : ∀ c, inc A c ≤ need c

theorem need_pos (c : Nat) : 0 < need c := by unfold need; split <;> omega

theorem need_mono {c d : Nat} (h : c ≤ d) (hd : d < 2 ^ 60) : need c ≤ need d := by
  unfold need
  rw [getConjunctionSize_eq, getConjunctionSize_eq]
  split <;> split <;> omega

theorem inc_append (A B : View) (c : Nat) : inc (A ++ B) c = inc A c + inc B c := by
  unfold inc; rw [List.countP_append]

theorem inc_perm {A B : View} (h : A.Perm B) (c : Nat) : inc A c = inc B c :=
  h.countP_eq _

theorem inc_le_length (A : View) (c : Nat) : inc A c ≤ A.length := List.countP_le_length

theorem inc_eq_zero {A : View} {c : Nat} (h : ∀ l ∈ A, c * 16 + 1 ∉ l) : inc A c = 0 := by
  unfold inc
  rw [List.countP_eq_zero]
  intro l hl; simpa using h l hl

theorem inc_map_filter_le (A : View) (q : Nat → Bool) (c : Nat) :
    inc (A.map (List.filter q)) c ≤ inc A c := by
  unfold inc
  rw [List.countP_map]
  apply List.countP_mono_left
  intro l _ h
  simp only [Function.comp, decide_eq_true_eq] at *
  exact (List.mem_filter.1 h).1

theorem inc_map_filter_eq (A : View) (q : Nat → Bool) (c : Nat) (hq : q (c * 16 + 1) = true) :
    inc (A.map (List.filter q)) c = inc A c := by
  unfold inc
  rw [List.countP_map]
  apply List.countP_congr
  intro l _
  simp [List.mem_filter, hq]

theorem exc_append (A B : View) (c : Nat) : exc (A ++ B) c ↔ exc A c ∨ exc B c := by
  unfold exc
  simp only [List.mem_append]
  constructor
  · rintro ⟨l, h | h, hc⟩
    · exact Or.inl ⟨l, h, hc⟩
    · exact Or.inr ⟨l, h, hc⟩
  · rintro (⟨l, h, hc⟩ | ⟨l, h, hc⟩)
    · exact ⟨l, Or.inl h, hc⟩
    · exact ⟨l, Or.inr h, hc⟩

theorem exc_map_filter (A : View) (q : Nat → Bool) (c : Nat) :
    exc (A.map (List.filter q)) c ↔ exc A c ∧ q (c * 16) = true := by
  unfold exc
  constructor
  · rintro ⟨l, hl, hc⟩
    obtain ⟨l0, hl0, rfl⟩ := List.mem_map.1 hl
    obtain ⟨h1, h2⟩ := List.mem_filter.1 hc
    exact ⟨⟨l0, hl0, h1⟩, h2⟩
  · rintro ⟨⟨l, hl, hc⟩, hq⟩
    exact ⟨_, List.mem_map_of_mem hl, List.mem_filter.2 ⟨hc, hq⟩⟩

/-! ### Cursor lists and their views -/

def AllOk (fs : List Field) : Prop := ∀ f ∈ fs, f.Ok

theorem skipToAll_spec (x : Nat) : ∀ fs : List Field, AllOk fs →
    ∃ fs', skipToAll x fs = some fs' ∧ AllOk fs' ∧
      view fs' = (view fs).map (List.filter (fun e => decide (x ≤ e))) := by
  intro fs
  induction fs with
  | nil => intro _; exact ⟨[], rfl, by intro f hf; simp at hf, rfl⟩
  | cons f fs ih =>
    intro hok
    obtain ⟨⟨f', h1, h2, h3, -⟩, -⟩ := c13_field (hok f (by simp)) x
    obtain ⟨fs', g1, g2, g3⟩ := ih (fun g hg => hok g (by simp [hg]))
    refine ⟨f' :: fs', by unfold skipToAll; rw [h1]; simp only; rw [g1], ?_, ?_⟩
    · intro g hg
      rcases List.mem_cons.1 hg with rfl | hg
      · exact h2
      · exact g2 g hg
    · show f'.rest :: view fs' = _
      rw [h3, g3]; rfl

theorem skipSame_spec (c x : Nat) : ∀ fs : List Field, AllOk fs →
    ∃ fs' t1 t2, skipSame c x fs = some fs' ∧ AllOk fs' ∧ fs = t1 ++ t2 ∧
      view fs' = (view t1).map (List.filter (fun e => decide (x < e))) ++ view t2 ∧
      (∀ f ∈ t1, entryConj f.currentId = c) ∧
      (∀ f, t2.head? = some f → entryConj f.currentId ≠ c) := by
  intro fs
  induction fs with
  | nil => intro _; exact ⟨[], [], [], rfl, by intro f hf; simp at hf, rfl, rfl, by simp, by simp⟩
  | cons f fs ih =>
    intro hok
    unfold skipSame
    split
    · rename_i hne
      refine ⟨f :: fs, [], f :: fs, rfl, hok, rfl, rfl, by simp, ?_⟩
      intro g hg
      simp at hg
      subst hg
      exact fun h => hne h.symm
    · rename_i heq
      have heq := Classical.not_not.1 heq
      obtain ⟨-, ⟨f', h1, h2, h3, -⟩⟩ := c13_field (hok f (by simp)) x
      obtain ⟨fs', t1, t2, g1, g2, g3, g4, g5, g6⟩ := ih (fun g hg => hok g (by simp [hg]))
      rw [h1]
      simp only
      rw [g1]
      refine ⟨f' :: fs', f :: t1, t2, rfl, ?_, by rw [g3]; rfl, ?_, ?_, g6⟩
      · intro g hg
        rcases List.mem_cons.1 hg with rfl | hg
        · exact h2
        · exact g2 g hg
      · show f'.rest :: view fs' = _
        rw [h3, g4]; rfl
      · intro g hg
        rcases List.mem_cons.1 hg with rfl | hg
        · exact heq.symm
        · exact g5 g hg

/-- What sorting and dropping ended cursors leaves. -/
theorem dropEnded_spec {sortF : List Field → List Field} (hs : ValidSort sortF) {fs : List Field}
    (hok : AllOk fs) :
    AllOk (dropEnded (sortF fs)) ∧
    (dropEnded (sortF fs)).Pairwise (fun a b => a.currentId ≤ b.currentId) ∧
    (∀ f ∈ dropEnded (sortF fs), f.currentId < nullEntry ∧ f.currentId ∈ f.rest) ∧
    (∀ c, inc (view (dropEnded (sortF fs))) c = inc (view fs) c) ∧
    (∀ c, exc (view (dropEnded (sortF fs))) c ↔ exc (view fs) c) ∧
    (∀ l ∈ view (dropEnded (sortF fs)), l ∈ view fs) ∧
    total (view (dropEnded (sortF fs))) = total (view fs) := by
  have hsok : AllOk (sortF fs) := fun f hf => hok f ((hs.perm fs).mem_iff.1 hf)
  -- split the sorted list
  have hsplit : ∃ ended, sortF fs = dropEnded (sortF fs) ++ ended ∧
      ∀ f ∈ ended, f.currentId = nullEntry := by
    refine ⟨((sortF fs).reverse.takeWhile (fun f => f.currentId == nullEntry)).reverse, ?_, ?_⟩
    · unfold dropEnded
      rw [← List.reverse_append, List.takeWhile_append_dropWhile, List.reverse_reverse]
    · intro f hf
      have := List.all_takeWhile (p := fun f : Field => f.currentId == nullEntry)
        (l := (sortF fs).reverse)
      rw [List.all_eq_true] at this
      simpa using this f (List.mem_reverse.1 hf)
  obtain ⟨ended, he1, he2⟩ := hsplit
  have hmem : ∀ f ∈ dropEnded (sortF fs), f ∈ sortF fs := fun f hf => by
    rw [he1]; exact List.mem_append_left _ hf
  have hsorted : (dropEnded (sortF fs)).Pairwise (fun a b => a.currentId ≤ b.currentId) := by
    have := hs.sorted fs
    rw [he1] at this
    exact (List.pairwise_append.1 this).1
  have hnull : ∀ f ∈ ended, f.rest = [] := by
    intro f hf
    have hfok : f.Ok := hsok f (by rw [he1]; exact List.mem_append_right _ hf)
    rcases hfok.min.2 with h | h
    · obtain ⟨c, hc, hm⟩ := List.mem_flatMap.1 h
      have := rest_lt (hfok.ok c hc) _ hm
      rw [he2 f hf] at this
      omega
    · exact h.1
  have hview : view (sortF fs) = view (dropEnded (sortF fs)) ++ view ended := by
    unfold view; rw [← List.map_append, ← he1]
  have hperm : (view (sortF fs)).Perm (view fs) := (hs.perm fs).map _
  have hvnil : ∀ l ∈ view ended, l = [] := by
    intro l hl
    obtain ⟨f, hf, rfl⟩ := List.mem_map.1 hl
    exact hnull f hf
  refine ⟨fun f hf => hsok f (hmem f hf), hsorted, ?_, ?_, ?_, ?_, ?_⟩
  · -- no remaining cursor is at the end
    intro f hf
    have hfok := hsok f (hmem f hf)
    have hin : f.currentId ∈ f.rest ∨ f.currentId = nullEntry := by
      rcases hfok.min.2 with h | h
      · exact Or.inl h
      · exact Or.inr h.2
    rcases hin with h | h
    · obtain ⟨c, hc, hm⟩ := List.mem_flatMap.1 h
      exact ⟨rest_lt (hfok.ok c hc) _ hm, h⟩
    · exfalso
      -- the last element of the kept list is not at the end, and is the largest
      have hne : dropEnded (sortF fs) ≠ [] := List.ne_nil_of_mem hf
      have hlast : ((dropEnded (sortF fs)).getLast hne).currentId ≠ nullEntry := by
        have hr : (sortF fs).reverse.dropWhile (fun f => f.currentId == nullEntry) ≠ [] := by
          intro hc
          apply hne
          unfold dropEnded
          rw [hc]; rfl
        have := List.head_dropWhile_not (fun f : Field => f.currentId == nullEntry) hr
        have key : ∀ (Y : List Field) (h : Y ≠ []),
            Y = ((sortF fs).reverse.dropWhile (fun f => f.currentId == nullEntry)).reverse →
            Y.getLast h = ((sortF fs).reverse.dropWhile
              (fun f => f.currentId == nullEntry)).head hr := by
          intro Y h hY
          subst hY
          exact List.getLast_reverse h
        rw [key _ hne rfl]
        simpa using this
      have hle : f.currentId ≤ ((dropEnded (sortF fs)).getLast hne).currentId := by
        obtain ⟨i, hi, hif⟩ := List.getElem_of_mem hf
        rw [List.getLast_eq_getElem]
        by_cases hlt : i < (dropEnded (sortF fs)).length - 1
        · have := (List.pairwise_iff_getElem.1 hsorted) i ((dropEnded (sortF fs)).length - 1) hi
            (by omega) hlt
          rw [hif] at this; exact this
        · have : i = (dropEnded (sortF fs)).length - 1 := by omega
          subst this
          rw [hif]; exact Nat.le_refl _
      have hg : ((dropEnded (sortF fs)).getLast hne).currentId < nullEntry := by
        have hgok := hsok _ (hmem _ (List.getLast_mem hne))
        rcases hgok.min.2 with h' | h'
        · obtain ⟨c, hc, hm⟩ := List.mem_flatMap.1 h'
          exact rest_lt (hgok.ok c hc) _ hm
        · exact absurd h'.2 hlast
      omega
  · intro c
    have h1 := inc_perm hperm c
    rw [hview, inc_append, inc_eq_zero (A := view ended) (by
      intro l hl; rw [hvnil l hl]; simp)] at h1
    omega
  · intro c
    have h2 : exc (view (sortF fs)) c ↔ exc (view fs) c := by
      unfold exc
      constructor
      · rintro ⟨l, hl, hc⟩; exact ⟨l, hperm.mem_iff.1 hl, hc⟩
      · rintro ⟨l, hl, hc⟩; exact ⟨l, hperm.mem_iff.2 hl, hc⟩
    rw [← h2, hview, exc_append]
    constructor
    · exact Or.inl
    · rintro (h | ⟨l, hl, hc⟩)
      · exact h
      · rw [hvnil l hl] at hc; simp at hc
  · intro l hl
    apply hperm.mem_iff.1
    rw [hview]
    exact List.mem_append_left _ hl
  · have h3 : total (view (sortF fs)) = total (view fs) := by
      unfold total
      exact (hperm.map _).sum_nat
    rw [← h3, hview]
    unfold total
    rw [List.map_append, List.sum_append]
    have : ((view ended).map List.length).sum = 0 := by
      have hz : ∀ B : View, (∀ l ∈ B, l = []) → (B.map List.length).sum = 0 := by
        intro B
        induction B with
        | nil => intro _; rfl
        | cons a B ih =>
          intro h
          simp only [List.map_cons, List.sum_cons]
          rw [ih (fun l hl => h l (by simp [hl])), h a (by simp)]
          rfl
      exact hz _ hvnil
    omega

end Ltio.BoolIndex
