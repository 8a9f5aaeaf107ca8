import Verif.BoolIndex.Index
/-
C14: exactness of boolean-index retrieval.
-/
namespace Ltio.BoolIndex

/-- Two lists keyed by distinct fields: counting related pairs from either side agrees. -/
theorem count_both_sides {α β : Type} (fa : α → String) (fb : β → String) (A : List α) (B : List β)
    (hA : (A.map fa).Nodup) (hB : (B.map fb).Nodup) (p : α → Bool) (q : β → Bool)
    (hpq : ∀ a ∈ A, p a = true → ∃ b ∈ B, fb b = fa a ∧ q b = true)
    (hqp : ∀ b ∈ B, q b = true → ∃ a ∈ A, fa a = fb b ∧ p a = true) :
    A.countP p = B.countP q := by
  have h1 : ((A.filter p).map fa).Nodup := hA.sublist ((List.filter_sublist).map fa)
  have h2 : ((B.filter q).map fb).Nodup := hB.sublist ((List.filter_sublist).map fb)
  have hperm : ((A.filter p).map fa).Perm ((B.filter q).map fb) := by
    rw [List.perm_ext_iff_of_nodup h1 h2]
    intro x
    simp only [List.mem_map, List.mem_filter]
    constructor
    · rintro ⟨a, ⟨ha, hp⟩, rfl⟩
      obtain ⟨b, hb, hf, hq⟩ := hpq a ha hp
      exact ⟨b, ⟨hb, hq⟩, hf⟩
    · rintro ⟨b, ⟨hb, hq⟩, rfl⟩
      obtain ⟨a, ha, hf, hp⟩ := hqp b hb hq
      exact ⟨a, ⟨ha, hp⟩, hf⟩
  have := hperm.length_eq
  rw [List.length_map, List.length_map] at this
  rw [List.countP_eq_length_filter, List.countP_eq_length_filter]
  exact this

theorem nodup_field_inj : ∀ {c : Conj}, (c.map Expr.field).Nodup → ∀ {a b : Expr},
    a ∈ c → b ∈ c → a.field = b.field → a = b := by
  intro c
  induction c with
  | nil => intro _ a b ha; simp at ha
  | cons x c ih =>
    intro hn a b ha hb hab
    simp only [List.map_cons, List.nodup_cons, List.mem_map, not_exists, not_and] at hn
    rcases List.mem_cons.1 ha with ha' | ha'
    · rcases List.mem_cons.1 hb with hb' | hb'
      · rw [ha', hb']
      · rw [ha'] at hab; exact absurd hab.symm (hn.1 b hb')
    · rcases List.mem_cons.1 hb with hb' | hb'
      · rw [hb'] at hab; exact absurd hab (hn.1 a ha')
      · exact ih hn.2 ha' hb' hab

/-- Assignment `a` hits expression `e`. -/
def AHit (a : Assign) (e : Expr) : Prop :=
  a.field = e.field ∧ ∃ v ∈ a.values, v ≠ "" ∧ v ∈ e.values

/-- Which entries the cursor of an assignment has: those of the expressions it hits. -/
theorem mem_cursor {H : String → Int} {docs : List Doc} {q : List Assign}
    (hnc : NoCollision H docs q) {a : Assign} (ha : a ∈ q) {x : Nat} :
    x ∈ cursorEntries H docs a ↔ ∃ d i c, Indexed docs d i c ∧ ∃ e ∈ c, AHit a e ∧
      x = genEntryID (conjId d i c) e.exclude := by
  rw [mem_cursorEntries]
  constructor
  · rintro ⟨v, hv1, hv2, hl⟩
    obtain ⟨d, i, c, hi, e, he, hf, ⟨w, hw1, hw2, hw3⟩, hx⟩ := mem_log.1 hl
    have hc : c ∈ d.conjs := List.mem_of_getElem? hi.2
    have hwv := hnc d hi.1 c hc e he w hw1 a ha v hv1 hw3
    subst hwv
    exact ⟨d, i, c, hi, e, he, ⟨hf.symm, w, hv1, hv2, hw1⟩, hx⟩
  · rintro ⟨d, i, c, hi, e, he, ⟨hf, v, hv1, hv2, hv3⟩, hx⟩
    exact ⟨v, hv1, hv2, mem_log.2 ⟨d, i, c, hi, e, he, hf.symm, ⟨v, hv3, hv2, rfl⟩, hx⟩⟩

/-- All the cursor contents for a query. -/
def contents (H : String → Int) (docs : List Doc) (q : List Assign) : View :=
  (q.map (cursorEntries H docs)) ++ [sortEntries (wildLog docs)]

theorem inc_filter_nonempty (A : View) (c : Nat) : inc (A.filter (fun l => l ≠ [])) c = inc A c := by
  unfold inc
  rw [List.countP_filter]
  apply List.countP_congr
  intro l _
  cases l with
  | nil => simp
  | cons a b => simp

theorem exc_filter_nonempty (A : View) (c : Nat) : exc (A.filter (fun l => l ≠ [])) c ↔ exc A c := by
  unfold exc
  constructor
  · rintro ⟨l, hl, h⟩; exact ⟨l, (List.mem_filter.1 hl).1, h⟩
  · rintro ⟨l, hl, h⟩
    exact ⟨l, List.mem_filter.2 ⟨hl, by simpa using List.ne_nil_of_mem h⟩, h⟩

section
variable {H : String → Int} {docs : List Doc} {q : List Assign}

/-- The include entry of an indexed conjunction. -/
theorem include_mem (hok : DocsOk docs) (hnc : NoCollision H docs q) {a : Assign} (ha : a ∈ q)
    {d : Doc} {i : Nat} {c : Conj} (hi : Indexed docs d i c) :
    conjId d i c * 16 + 1 ∈ cursorEntries H docs a ↔ ∃ e ∈ c, e.exclude = false ∧ AHit a e := by
  obtain ⟨-, -, -, hlt, -⟩ := indexed_facts hok hi
  rw [mem_cursor hnc ha]
  constructor
  · rintro ⟨d', i', c', hi', e, he, hh, hx⟩
    obtain ⟨-, -, -, hlt', -⟩ := indexed_facts hok hi'
    rw [genEntryID_eq hlt'] at hx
    cases hex : e.exclude with
    | true => rw [hex] at hx; simp at hx; omega
    | false =>
      rw [hex] at hx
      simp at hx
      obtain ⟨rfl, rfl, rfl⟩ := indexed_inj hok hi hi' (by omega)
      exact ⟨e, he, hex, hh⟩
  · rintro ⟨e, he, hex, hh⟩
    refine ⟨d, i, c, hi, e, he, hh, ?_⟩
    rw [hex, genEntryID_eq hlt]
    rfl

theorem exclude_mem (hok : DocsOk docs) (hnc : NoCollision H docs q) {a : Assign} (ha : a ∈ q)
    {d : Doc} {i : Nat} {c : Conj} (hi : Indexed docs d i c) :
    conjId d i c * 16 ∈ cursorEntries H docs a ↔ ∃ e ∈ c, e.exclude = true ∧ AHit a e := by
  obtain ⟨-, -, -, hlt, -⟩ := indexed_facts hok hi
  rw [mem_cursor hnc ha]
  constructor
  · rintro ⟨d', i', c', hi', e, he, hh, hx⟩
    obtain ⟨-, -, -, hlt', -⟩ := indexed_facts hok hi'
    rw [genEntryID_eq hlt'] at hx
    cases hex : e.exclude with
    | false => rw [hex] at hx; simp at hx; omega
    | true =>
      rw [hex] at hx
      simp at hx
      obtain ⟨rfl, rfl, rfl⟩ := indexed_inj hok hi hi' (by omega)
      exact ⟨e, he, hex, hh⟩
  · rintro ⟨e, he, hex, hh⟩
    refine ⟨d, i, c, hi, e, he, hh, ?_⟩
    rw [hex, genEntryID_eq hlt]
    rfl

/-- Every entry is an entry of an indexed conjunction. -/
theorem entry_indexed (hnc : NoCollision H docs q) {l : List Nat}
    (hl : l ∈ contents H docs q) {x : Nat} (hx : x ∈ l) :
    ∃ d i c b, Indexed docs d i c ∧ x = genEntryID (conjId d i c) b := by
  rcases List.mem_append.1 hl with hl | hl
  · obtain ⟨a, ha, rfl⟩ := List.mem_map.1 hl
    obtain ⟨d, i, c, hi, e, -, -, hx⟩ := (mem_cursor hnc ha).1 hx
    exact ⟨d, i, c, _, hi, hx⟩
  · simp at hl; subst hl
    obtain ⟨d, i, c, hi, -, hx⟩ := mem_wildLog.1 ((mem_sortEntries _ _).1 hx)
    exact ⟨d, i, c, _, hi, hx⟩

theorem wild_mem (hok : DocsOk docs) {d : Doc} {i : Nat} {c : Conj} (hi : Indexed docs d i c) :
    (conjId d i c * 16 + 1 ∈ sortEntries (wildLog docs) ↔ Conj.size c = 0) ∧
    conjId d i c * 16 ∉ sortEntries (wildLog docs) := by
  obtain ⟨-, -, -, hlt, -⟩ := indexed_facts hok hi
  rw [mem_sortEntries, mem_sortEntries]
  refine ⟨⟨?_, ?_⟩, ?_⟩
  · intro h
    obtain ⟨d', i', c', hi', h0, hx⟩ := mem_wildLog.1 h
    obtain ⟨-, -, -, hlt', -⟩ := indexed_facts hok hi'
    rw [genEntryID_eq hlt'] at hx
    simp at hx
    obtain ⟨rfl, rfl, rfl⟩ := indexed_inj hok hi hi' (by omega)
    exact h0
  · intro h0
    refine mem_wildLog.2 ⟨d, i, c, hi, h0, ?_⟩
    rw [genEntryID_eq hlt]; rfl
  · intro h
    obtain ⟨d', i', c', hi', h0, hx⟩ := mem_wildLog.1 h
    obtain ⟨-, -, -, hlt', -⟩ := indexed_facts hok hi'
    rw [genEntryID_eq hlt'] at hx
    simp at hx
    omega

open Classical in
/-- Positive presence of a conjunction: its hit include expressions, plus the wildcard. -/
theorem inc_eq (hok : DocsOk docs) (hq : (q.map Assign.field).Nodup) (hnc : NoCollision H docs q)
    {d : Doc} {i : Nat} {c : Conj} (hi : Indexed docs d i c) :
    inc (contents H docs q) (conjId d i c) =
      c.countP (fun e => decide (e.exclude = false ∧ Hit q e)) +
        (if Conj.size c = 0 then 1 else 0) := by
  obtain ⟨-, -, -, -, hnd⟩ := indexed_facts hok hi
  unfold contents
  rw [inc_append]
  congr 1
  · unfold inc
    rw [List.countP_map]
    apply count_both_sides Assign.field Expr.field q c hq hnd
    · intro a ha hp
      simp only [Function.comp, decide_eq_true_eq] at hp
      obtain ⟨e, he, hex, hh⟩ := (include_mem hok hnc ha hi).1 hp
      exact ⟨e, he, hh.1.symm, by simp only [decide_eq_true_eq]; exact ⟨hex, a, ha, hh⟩⟩
    · intro e he hp
      simp only [decide_eq_true_eq] at hp
      obtain ⟨hex, a, ha, hh⟩ := hp
      refine ⟨a, ha, hh.1, ?_⟩
      simp only [Function.comp, decide_eq_true_eq]
      exact (include_mem hok hnc ha hi).2 ⟨e, he, hex, hh⟩
  · unfold inc
    rw [List.countP_singleton]
    have := (wild_mem hok hi).1
    by_cases h0 : Conj.size c = 0
    · simp [h0, this.2 h0]
    · simp [h0, this]

theorem exc_iff (hok : DocsOk docs) (hnc : NoCollision H docs q) {d : Doc} {i : Nat} {c : Conj}
    (hi : Indexed docs d i c) :
    exc (contents H docs q) (conjId d i c) ↔ ∃ e ∈ c, e.exclude = true ∧ Hit q e := by
  unfold exc
  constructor
  · rintro ⟨l, hl, hx⟩
    rcases List.mem_append.1 hl with hl | hl
    · obtain ⟨a, ha, rfl⟩ := List.mem_map.1 hl
      obtain ⟨e, he, hex, hh⟩ := (exclude_mem hok hnc ha hi).1 hx
      exact ⟨e, he, hex, a, ha, hh⟩
    · simp at hl; subst hl
      exact absurd hx (wild_mem hok hi).2
  · rintro ⟨e, he, hex, a, ha, hh⟩
    exact ⟨_, List.mem_append_left _ (List.mem_map_of_mem ha),
      (exclude_mem hok hnc ha hi).2 ⟨e, he, hex, hh⟩⟩

theorem need_conjId (hok : DocsOk docs) {d : Doc} {i : Nat} {c : Conj} (hi : Indexed docs d i c) :
    need (conjId d i c) = if Conj.size c = 0 then 1 else Conj.size c := by
  obtain ⟨h1, h2, h3, -, -⟩ := indexed_facts hok hi
  unfold need conjId
  rw [(c12_conj_roundtrip h1 h2 h3).2.2]

open Classical in
theorem countP_le_size (c : Conj) :
    c.countP (fun e => decide (e.exclude = false ∧ Hit q e)) ≤ Conj.size c := by
  unfold Conj.size
  apply List.countP_mono_left
  intro e _ h
  simp only [decide_eq_true_eq] at h
  simp [h.1]

open Classical in
theorem countP_eq_size (c : Conj) :
    c.countP (fun e => decide (e.exclude = false ∧ Hit q e)) = Conj.size c ↔
      ∀ e ∈ c, e.exclude = false → Hit q e := by
  induction c with
  | nil => simp [Conj.size]
  | cons a c ih =>
    have hle := countP_le_size (q := q) c
    simp only [Conj.size, List.countP_cons, List.mem_cons, forall_eq_or_imp] at *
    rw [← ih]
    by_cases h1 : a.exclude = false
    · by_cases h2 : Hit q a
      · simp [h1, h2]
      · simp [h1, h2] at hle ⊢; omega
    · simp [h1]

theorem contents_match (hok : DocsOk docs) (hq : (q.map Assign.field).Nodup)
    (hnc : NoCollision H docs q) (x : Nat) :
    Match (contents H docs q) x ↔ ∃ d i c, Indexed docs d i c ∧ x = conjId d i c ∧ ConjMatches q c := by
  classical
  constructor
  · rintro ⟨h1, h2⟩
    have hp := need_pos x
    obtain ⟨l, hl, hm⟩ := mem_pos_of_inc (A := contents H docs q) (d := x) (by omega)
    obtain ⟨d, i, c, b, hi, hx⟩ := entry_indexed hnc hl hm
    obtain ⟨-, -, -, hlt, -⟩ := indexed_facts hok hi
    rw [genEntryID_eq hlt] at hx
    have hxe : x = conjId d i c := by split at hx <;> omega
    subst hxe
    refine ⟨d, i, c, hi, rfl, ?_⟩
    rw [inc_eq hok hq hnc hi, need_conjId hok hi] at h1
    rw [exc_iff hok hnc hi] at h2
    have hle := countP_le_size (q := q) c
    have : c.countP (fun e => decide (e.exclude = false ∧ Hit q e)) = Conj.size c := by
      split at h1 <;> omega
    rw [countP_eq_size] at this
    intro e he
    split
    · rename_i hex
      exact fun hh => h2 ⟨e, he, hex, hh⟩
    · rename_i hex
      exact this e he (by simpa using hex)
  · rintro ⟨d, i, c, hi, rfl, hm⟩
    refine ⟨?_, ?_⟩
    · rw [inc_eq hok hq hnc hi, need_conjId hok hi]
      have : c.countP (fun e => decide (e.exclude = false ∧ Hit q e)) = Conj.size c := by
        rw [countP_eq_size]
        intro e he hex
        have := hm e he
        rw [hex] at this
        exact this
      rw [this]
      split <;> omega
    · rw [exc_iff hok hnc hi]
      rintro ⟨e, he, hex, hh⟩
      have := hm e he
      rw [hex] at this
      exact this hh

theorem contents_wf (hok : DocsOk docs) (hq : (q.map Assign.field).Nodup)
    (hnc : NoCollision H docs q) : Wf (contents H docs q) := by
  classical
  refine ⟨?_, ?_, ?_⟩
  · intro l hl e he
    obtain ⟨d, i, c, b, hi, rfl⟩ := entry_indexed hnc hl he
    obtain ⟨-, -, -, hlt, -⟩ := indexed_facts hok hi
    rw [genEntryID_eq hlt]
    split <;> omega
  · intro l hl x h1 h2
    obtain ⟨d, i, c, b, hi, hx⟩ := entry_indexed hnc hl h1
    obtain ⟨-, -, -, hlt, hnd⟩ := indexed_facts hok hi
    rw [genEntryID_eq hlt] at hx
    have hxe : x = conjId d i c := by split at hx <;> omega
    subst hxe
    rcases List.mem_append.1 hl with hl | hl
    · obtain ⟨a, ha, rfl⟩ := List.mem_map.1 hl
      obtain ⟨e, he, hex, hh⟩ := (exclude_mem hok hnc ha hi).1 h1
      obtain ⟨e', he', hex', hh'⟩ := (include_mem hok hnc ha hi).1 h2
      have := nodup_field_inj hnd he he' (hh.1.symm.trans hh'.1)
      subst this
      rw [hex] at hex'; exact absurd hex' (by decide)
    · simp at hl; subst hl
      exact (wild_mem hok hi).2 h1
  · intro x
    by_cases h : 0 < inc (contents H docs q) x
    · obtain ⟨l, hl, hm⟩ := mem_pos_of_inc h
      obtain ⟨d, i, c, b, hi, hx⟩ := entry_indexed hnc hl hm
      obtain ⟨-, -, -, hlt, -⟩ := indexed_facts hok hi
      rw [genEntryID_eq hlt] at hx
      have hxe : x = conjId d i c := by split at hx <;> omega
      subst hxe
      rw [inc_eq hok hq hnc hi, need_conjId hok hi]
      have hle := countP_le_size (q := q) c
      split <;> omega
    · have := need_pos x; omega

/-- The cursors a query starts with. -/
theorem start_spec (hok : DocsOk docs) (hq : QueryOk docs q) :
    ∃ fs ws, initFields H docs q = some fs ∧ wildFields docs = some ws ∧ AllOk (fs ++ ws) ∧
      view (fs ++ ws) = (contents H docs q).filter (fun l => l ≠ []) := by
  obtain ⟨fs, h1, h2, h3⟩ := initFields_spec (H := H) hok q (by
    intro a ha
    obtain ⟨d, hd, c, hc, e, he, hf⟩ := hq.known a ha
    unfold knownField
    simp only [List.any_eq_true, beq_iff_eq]
    exact ⟨d, hd, c, hc, e, he, hf⟩)
  obtain ⟨ws, g1, g2, g3⟩ := wildFields_spec hok
  refine ⟨fs, ws, h1, g1, ?_, ?_⟩
  · intro f hf
    rcases List.mem_append.1 hf with hf | hf
    · exact h2 f hf
    · exact g2 f hf
  · unfold view at *
    rw [List.map_append, h3, g3]
    unfold contents
    rw [List.filter_append]

theorem start_wf (hok : DocsOk docs) (hq : QueryOk docs q) (hnc : NoCollision H docs q) :
    Wf ((contents H docs q).filter (fun l => l ≠ [])) :=
  wf_congr (contents_wf hok hq.fields hnc) (inc_filter_nonempty _) (fun _ hl => (List.mem_filter.1 hl).1)

theorem match_doc (hok : DocsOk docs) (hq : QueryOk docs q) (hnc : NoCollision H docs q) (n : Int) :
    (∃ x, Match ((contents H docs q).filter (fun l => l ≠ [])) x ∧ getDocumentID x = n) ↔
      ∃ d ∈ docs, d.id = n ∧ Matches q d := by
  constructor
  · rintro ⟨x, hm, hx⟩
    obtain ⟨d, i, c, hi, rfl, hc⟩ := (contents_match hok hq.fields hnc x).1
      ((match_congr (inc_filter_nonempty _) (exc_filter_nonempty _) x).1 hm)
    obtain ⟨h1, h2, h3, -, -⟩ := indexed_facts hok hi
    refine ⟨d, hi.1, ?_, c, List.mem_of_getElem? hi.2, hc⟩
    rw [← hx]
    exact (c12_conj_roundtrip h1 h2 h3).1.symm
  · rintro ⟨d, hd, rfl, c, hc, hm⟩
    obtain ⟨i, hi⟩ := List.getElem?_of_mem hc
    have hidx : Indexed docs d i c := ⟨hd, hi⟩
    obtain ⟨h1, h2, h3, -, -⟩ := indexed_facts hok hidx
    refine ⟨conjId d i c, ?_, (c12_conj_roundtrip h1 h2 h3).1⟩
    exact (match_congr (inc_filter_nonempty _) (exc_filter_nonempty _) _).2
      ((contents_match hok hq.fields hnc _).2 ⟨d, i, c, hidx, rfl, hm⟩)

/-! ### C14 -/

/-- **C14, the algorithm as intended** (with `GetConjunctionId(end_eid)` at line 105): for all
documents and queries, retrieval terminates and returns exactly the ids of the documents having
a conjunction whose include expressions are all hit by the query and whose exclude expressions
are not. -/
theorem c14_intended {sortF : List Field → List Field} (hs : ValidSort sortF) (hok : DocsOk docs)
    (hq : QueryOk docs q) (hnc : NoCollision H docs q) :
    ∃ n r, (∀ fuel, n ≤ fuel → retrieve intendedEndConj sortF H fuel docs q = some r) ∧
      ∀ id, id ∈ r ↔ ∃ d ∈ docs, d.id = id ∧ Matches q d := by
  obtain ⟨fs, ws, h1, h2, h3, h4⟩ := start_spec (H := H) hok hq
  have hwf := start_wf hok hq hnc
  rw [← h4] at hwf
  obtain ⟨r, g1, g2⟩ := scan_correct hs (total (view (fs ++ ws)) + 1) (fs ++ ws) h3 hwf (by omega)
  have hmono : ∀ fuel, total (view (fs ++ ws)) + 1 ≤ fuel →
      scan intendedEndConj sortF fuel (fs ++ ws) = some r := by
    intro fuel hf
    exact scan_mono _ _ _ _ _ _ g1 hf
  refine ⟨total (view (fs ++ ws)) + 1, r, ?_, ?_⟩
  · intro fuel hf
    unfold retrieve
    rw [h1, h2]
    exact hmono fuel hf
  · intro id
    rw [g2 id, h4, match_doc hok hq hnc]

/-- **C14, the code as written, conjunctions with at most one include expression**: exact. -/
theorem c14_code_partial {sortF : List Field → List Field} (hs : ValidSort sortF) (hok : DocsOk docs)
    (hq : QueryOk docs q) (hnc : NoCollision H docs q)
    (hone : ∀ d ∈ docs, ∀ c ∈ d.conjs, (c.filter (fun e => !e.exclude)).length ≤ 1) :
    ∃ n r, (∀ fuel, n ≤ fuel → retrieve codeEndConj sortF H fuel docs q = some r) ∧
      ∀ id, id ∈ r ↔ ∃ d ∈ docs, d.id = id ∧ Matches q d := by
  obtain ⟨n, r, h1, h2⟩ := c14_intended (H := H) hs hok hq hnc
  refine ⟨n, r, ?_, h2⟩
  intro fuel hf
  rw [← h1 fuel hf]
  obtain ⟨fs, ws, g1, g2, g3, g4⟩ := start_spec (H := H) hok hq
  unfold retrieve
  rw [g1, g2]
  simp only
  apply scan_code_eq hs fuel _ g3
  intro l hl e he
  rw [g4] at hl
  obtain ⟨d, i, c, b, hi, rfl⟩ := entry_indexed hnc (List.mem_filter.1 hl).1 he
  obtain ⟨-, -, -, hlt, -⟩ := indexed_facts hok hi
  rw [genEntryID_eq hlt]
  have : (conjId d i c * 16 + if b = true then 0 else 1) / 16 = conjId d i c := by split <;> omega
  rw [this, need_conjId hok hi]
  have h3 := hone d hi.1 c (List.mem_of_getElem? hi.2)
  unfold Conj.size
  rw [List.countP_eq_length_filter]
  split <;> omega

/-- **C14, the code as written, in general**: retrieval always terminates without undefined
behaviour and every id returned is that of a document with a conjunction having at least one hit
include expression, or none at all. -/
theorem c14_code_sound_weak {sortF : List Field → List Field} (hs : ValidSort sortF)
    (hok : DocsOk docs) (hq : QueryOk docs q) (hnc : NoCollision H docs q) :
    ∃ n r, (∀ fuel, n ≤ fuel → retrieve codeEndConj sortF H fuel docs q = some r) ∧
      ∀ id ∈ r, ∃ d ∈ docs, d.id = id ∧ ∃ c ∈ d.conjs,
        (∃ e ∈ c, e.exclude = false ∧ Hit q e) ∨ ∀ e ∈ c, e.exclude = true := by
  classical
  obtain ⟨fs, ws, h1, h2, h3, h4⟩ := start_spec (H := H) hok hq
  have hwf := start_wf hok hq hnc
  rw [← h4] at hwf
  obtain ⟨r, g1, g2⟩ := scan_code_weak hs (total (view (fs ++ ws)) + 1) (fs ++ ws) h3 hwf (by omega)
  refine ⟨total (view (fs ++ ws)) + 1, r, ?_, ?_⟩
  · intro fuel hf
    unfold retrieve
    rw [h1, h2]
    exact scan_mono _ _ _ _ _ _ g1 hf
  · intro id hid
    obtain ⟨x, hx, hdoc⟩ := g2 id hid
    rw [h4, inc_filter_nonempty] at hx
    obtain ⟨l, hl, hm⟩ := mem_pos_of_inc hx
    obtain ⟨d, i, c, b, hi, he⟩ := entry_indexed hnc hl hm
    obtain ⟨k1, k2, k3, hlt, -⟩ := indexed_facts hok hi
    rw [genEntryID_eq hlt] at he
    have hxe : x = conjId d i c := by split at he <;> omega
    subst hxe
    refine ⟨d, hi.1, ?_, c, List.mem_of_getElem? hi.2, ?_⟩
    · rw [← hdoc]; exact (c12_conj_roundtrip k1 k2 k3).1.symm
    · rw [inc_eq hok hq.fields hnc hi] at hx
      by_cases h0 : Conj.size c = 0
      · right
        intro e he
        unfold Conj.size at h0
        rw [List.countP_eq_zero] at h0
        simpa using h0 e he
      · left
        rw [if_neg h0, Nat.add_zero] at hx
        obtain ⟨e, he, hp⟩ := List.countP_pos_iff.1 hx
        simp only [decide_eq_true_eq] at hp
        exact ⟨e, he, hp⟩

end

/-! ### The violation, and a concrete instance -/

/-- A concrete sorting routine. -/
def insertField (f : Field) : List Field → List Field
  | [] => [f]
  | g :: gs => if f.currentId ≤ g.currentId then f :: g :: gs else g :: insertField f gs

def sortFields (l : List Field) : List Field := l.foldr insertField []

theorem insertField_perm (f : Field) (l : List Field) : (insertField f l).Perm (f :: l) := by
  induction l with
  | nil => exact List.Perm.refl _
  | cons g l ih =>
    unfold insertField
    split
    · exact List.Perm.refl _
    · exact (ih.cons g).trans (List.Perm.swap f g l)

theorem insertField_sorted (f : Field) (l : List Field)
    (h : l.Pairwise (fun a b => a.currentId ≤ b.currentId)) :
    (insertField f l).Pairwise (fun a b => a.currentId ≤ b.currentId) := by
  induction l with
  | nil => simp [insertField]
  | cons g l ih =>
    obtain ⟨h1, h2⟩ := List.pairwise_cons.1 h
    unfold insertField
    split
    · rename_i hle
      rw [List.pairwise_cons]
      refine ⟨?_, h⟩
      intro b hb
      rcases List.mem_cons.1 hb with rfl | hb
      · exact hle
      · exact Nat.le_trans hle (h1 b hb)
    · rename_i hle
      rw [List.pairwise_cons]
      refine ⟨?_, ih h2⟩
      intro b hb
      rcases List.mem_cons.1 ((insertField_perm f l).mem_iff.1 hb) with rfl | hb
      · omega
      · exact h1 b hb

theorem sortFields_valid : ValidSort sortFields := by
  refine ⟨?_, ?_⟩
  · intro fs
    induction fs with
    | nil => exact List.Perm.refl _
    | cons f fs ih => exact (insertField_perm f _).trans (ih.cons f)
  · intro fs
    induction fs with
    | nil => exact List.Pairwise.nil
    | cons f fs ih => exact insertField_sorted f _ ih

/-- Two documents: age = 1 and city = bj; age = 2 and city = sh. -/
def exDocs : List Doc :=
  [⟨1, [[⟨"age", ["1"], false⟩, ⟨"city", ["bj"], false⟩]]⟩,
   ⟨2, [[⟨"age", ["2"], false⟩, ⟨"city", ["sh"], false⟩]]⟩]

def exQuery : List Assign := [⟨"age", ["1"]⟩, ⟨"city", ["sh"]⟩]

/-- A collision-free hash on the values used. -/
def exHash (s : String) : Int := if s = "1" then 1 else if s = "2" then 2 else if s = "bj" then 3 else 4

/-- **C14 violated by the code**: a document is returned although only one of its two include
expressions is met. -/
theorem c14_code_violation :
    (∀ fuel, 4 ≤ fuel → retrieve codeEndConj sortFields exHash fuel exDocs exQuery = some [1]) ∧
    ¬ (∃ d ∈ exDocs, d.id = 1 ∧ Matches exQuery d) := by
  constructor
  · intro fuel hf
    have h : retrieve codeEndConj sortFields exHash 4 exDocs exQuery = some [1] := by decide +kernel
    unfold retrieve at *
    revert h
    cases initFields exHash exDocs exQuery with
    | none => intro h; simp at h
    | some fs =>
      cases wildFields exDocs with
      | none => intro h; simp at h
      | some ws => intro h; exact scan_mono _ _ _ _ _ _ h hf
  · rintro ⟨d, hd, h1, c, hc, hm⟩
    simp only [exDocs, List.mem_cons, List.not_mem_nil, or_false] at hd
    rcases hd with rfl | rfl
    · simp only [List.mem_cons, List.not_mem_nil, or_false] at hc
      subst hc
      have := hm ⟨"city", ["bj"], false⟩ (by simp)
      simp only [Bool.false_eq_true, if_false] at this
      obtain ⟨a, ha, hf, v, hv, -, hv2⟩ := this
      simp only [exQuery, List.mem_cons, List.not_mem_nil, or_false] at ha
      rcases ha with rfl | rfl
      · simp at hf
      · simp at hv hv2
        rw [hv] at hv2; exact absurd hv2 (by decide)
    · simp at h1

/-- A query field that no document mentions is a null dereference. -/
theorem c14_unknown_field (endConj : Nat → Nat → Nat) (sortF : List Field → List Field)
    (H : String → Int) (fuel : Nat) (docs : List Doc) (q : List Assign)
    (h : ∃ a ∈ q, ¬ ∃ d ∈ docs, ∃ c ∈ d.conjs, ∃ e ∈ c, e.field = a.field) :
    retrieve endConj sortF H fuel docs q = none := by
  have : initFields H docs q = none := by
    induction q with
    | nil => obtain ⟨a, ha, -⟩ := h; simp at ha
    | cons b q ih =>
      unfold initFields
      split
      · rfl
      · rename_i hk
        obtain ⟨a, ha, hn⟩ := h
        rcases List.mem_cons.1 ha with rfl | ha
        · exfalso
          apply hn
          have hk' : knownField docs a.field = true := by simpa using hk
          unfold knownField at hk'
          simp only [List.any_eq_true, beq_iff_eq] at hk'
          exact hk'
        · rw [ih ⟨a, ha, hn⟩]
  unfold retrieve
  rw [this]

/-- The hypotheses are met by concrete documents, with an exclusion and a wildcard. -/
def okDocs : List Doc :=
  [⟨7, [[⟨"age", ["1", "2"], false⟩, ⟨"city", ["sh"], true⟩], [⟨"city", ["bj"], true⟩]]⟩,
   ⟨-3, [[⟨"age", ["1"], false⟩]]⟩]

example : DocsOk okDocs := by
  constructor <;> decide

example : QueryOk okDocs exQuery := by
  constructor
  · decide
  · decide

example : NoCollision exHash okDocs exQuery := by unfold NoCollision; decide

example : retrieve codeEndConj sortFields exHash 20 okDocs exQuery = some [7, -3] := by
  decide +kernel

example : retrieve codeEndConj sortFields exHash 20 okDocs [⟨"city", ["bj"]⟩] = some [] := by
  decide +kernel

end Ltio.BoolIndex
