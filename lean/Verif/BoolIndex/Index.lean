import Verif.BoolIndex.ScanSpec
/-
The index built from documents and the cursors created for a query
(components/boolean_indexer/{document,be_indexer,common_container}.cc,
builder/be_indexer_builder.cc, index_scanner.cc init_cursors).

Simplifications: the value hash of the default `HasherParser` is an arbitrary function `H`; the
value sets (`std::set`) and expression maps (`std::map`) are lists, because only membership
matters (the posting lists are sorted afterwards); the default container (one per indexer,
keyed by (field, hashed value)) is the only container, as only it is ever created.
-/
namespace Ltio.BoolIndex

/-- `BooleanExpr` (document.h:43-64). -/
structure Expr where
  field : String
  values : List String
  exclude : Bool
deriving Repr, DecidableEq

/-- `Conjunction` (document.h:69-102): its expressions. -/
abbrev Conj := List Expr

/-- `Document` (document.h:106-157). -/
structure Doc where
  id : Int
  conjs : List Conj
deriving Repr

/-- `AttrValues` of a query (document.h:13-39). -/
structure Assign where
  field : String
  values : List String
deriving Repr

/-- `Conjunction::size_`: the number of include expressions (document.cc:33-38). -/
def Conj.size (c : Conj) : Nat := c.countP (fun e => !e.exclude)

/-- The id given to the `i`-th conjunction (document.cc:81-88). -/
def conjId (d : Doc) (i : Nat) (c : Conj) : Nat := genConjID d.id i c.size

/-- `HasherParser` (number_parser.cc:32-47): empty values are skipped. -/
def tokens (H : String → Int) (vs : List String) : List Int :=
  (vs.filter (fun v => v ≠ "")).map H

/-- The entries pushed for one expression (be_indexer_builder.cc:41-59 with
common_container.cc:10-22). -/
def exprLog (H : String → Int) (cid : Nat) (e : Expr) : List ((String × Int) × Nat) :=
  (tokens H e.values).map (fun t => ((e.field, t), genEntryID cid e.exclude))

/-- One document (be_indexer_builder.cc:33-61). -/
def docLog (H : String → Int) (d : Doc) : List ((String × Int) × Nat) :=
  d.conjs.zipIdx.flatMap (fun ci => ci.1.flatMap (exprLog H (conjId d ci.2 ci.1)))

/-- Everything pushed into the container. -/
def log (H : String → Int) (docs : List Doc) : List ((String × Int) × Nat) :=
  docs.flatMap (docLog H)

/-- `wildcard_list_` before sorting (be_indexer.cc:22-25, be_indexer_builder.cc:37-39). -/
def wildLog (docs : List Doc) : List Nat :=
  docs.flatMap (fun d => d.conjs.zipIdx.filterMap (fun ci =>
    if ci.1.size = 0 then some (genEntryID (conjId d ci.2 ci.1) false) else none))

/-- Sorting of entry ids (`std::sort`, common_container.cc:45 and be_indexer.cc:28-30): the sorted
list is determined by its elements, so insertion sort gives the same list. -/
def insertSorted (x : Nat) : List Nat → List Nat
  | [] => [x]
  | y :: ys => if x ≤ y then x :: y :: ys else y :: insertSorted x ys

def sortEntries (l : List Nat) : List Nat := l.foldr insertSorted []

/-- The compiled posting list of a key (common_container.cc:24-36, 39-48). -/
def posting (H : String → Int) (docs : List Doc) (key : String × Int) : List Nat :=
  sortEntries (((log H docs).filter (fun p => p.1 = key)).map Prod.snd)

/-- The field has a `FieldMeta` (be_indexer_builder.cc:18-31): some expression mentioned it. -/
def knownField (docs : List Doc) (f : String) : Bool :=
  docs.any (fun d => d.conjs.any (fun c => c.any (fun e => e.field == f)))

/-- The non-empty posting lists for an assignment (`RetrieveEntries`). -/
def entriesFor (H : String → Int) (docs : List Doc) (a : Assign) : List (List Nat) :=
  ((tokens H a.values).map (fun t => posting H docs (a.field, t))).filter (fun l => l ≠ [])

/-- `init_cursors` (index_scanner.cc:27-63) over the query; `none` is the null dereference of
line 33 for a field no document mentions. -/
def initFields (H : String → Int) (docs : List Doc) : List Assign → Option (List Field)
  | [] => some []
  | a :: q =>
    if knownField docs a.field = false then none
    else
      match initFields H docs q with
      | none => none
      | some fs =>
        if entriesFor H docs a = [] then some fs
        else match Field.initialize ((entriesFor H docs a).map (fun l => ⟨l, 0⟩)) with
          | none => none
          | some f => some (f :: fs)

/-- The wildcard cursor (be_indexer.cc:49-57, index_scanner.cc:57-61). -/
def wildFields (docs : List Doc) : Option (List Field) :=
  if wildLog docs = [] then some []
  else (Field.initialize [⟨sortEntries (wildLog docs), 0⟩]).map (fun f => [f])

/-- `IndexScanner::Retrieve` on an index built from `docs`. -/
def retrieve (endConj : Nat → Nat → Nat) (sortF : List Field → List Field) (H : String → Int)
    (fuel : Nat) (docs : List Doc) (q : List Assign) : Option (List Int) :=
  match initFields H docs q, wildFields docs with
  | some fs, some ws => scan endConj sortF fuel (fs ++ ws)
  | _, _ => none

/-! ### Specification -/

/-- The query assigns `e`'s field one of `e`'s values. -/
def Hit (q : List Assign) (e : Expr) : Prop :=
  ∃ a ∈ q, a.field = e.field ∧ ∃ v ∈ a.values, v ≠ "" ∧ v ∈ e.values

/-- A conjunction matches: every include expression is hit, no exclude expression is. -/
def ConjMatches (q : List Assign) (c : Conj) : Prop :=
  ∀ e ∈ c, if e.exclude then ¬ Hit q e else Hit q e

def Matches (q : List Assign) (d : Doc) : Prop := ∃ c ∈ d.conjs, ConjMatches q c

/-- Indexable documents: distinct ids in range, at most 256 conjunctions of fewer than 256
include expressions, one expression per field. -/
structure DocsOk (docs : List Doc) : Prop where
  ids : (docs.map Doc.id).Nodup
  range : ∀ d ∈ docs, d.id.natAbs < 2 ^ 43
  count : ∀ d ∈ docs, d.conjs.length ≤ 256
  size : ∀ d ∈ docs, ∀ c ∈ d.conjs, Conj.size c < 256
  fields : ∀ d ∈ docs, ∀ c ∈ d.conjs, (c.map Expr.field).Nodup

/-- Queries: one assignment per field, on fields the index knows. -/
structure QueryOk (docs : List Doc) (q : List Assign) : Prop where
  fields : (q.map Assign.field).Nodup
  known : ∀ a ∈ q, ∃ d ∈ docs, ∃ c ∈ d.conjs, ∃ e ∈ c, e.field = a.field

/-- The value hash does not collide between an indexed value and a queried value. -/
def NoCollision (H : String → Int) (docs : List Doc) (q : List Assign) : Prop :=
  ∀ d ∈ docs, ∀ c ∈ d.conjs, ∀ e ∈ c, ∀ v ∈ e.values, ∀ a ∈ q, ∀ w ∈ a.values, H v = H w → v = w

/-! ### Posting lists -/

theorem mem_insertSorted (x y : Nat) (l : List Nat) : y ∈ insertSorted x l ↔ y = x ∨ y ∈ l := by
  induction l with
  | nil => simp [insertSorted]
  | cons a l ih =>
    unfold insertSorted
    split
    · simp
    · simp only [List.mem_cons, ih]
      constructor
      · rintro (h | h | h) <;> simp [h]
      · rintro (h | h | h) <;> simp [h]

theorem mem_sortEntries (y : Nat) (l : List Nat) : y ∈ sortEntries l ↔ y ∈ l := by
  induction l with
  | nil => exact Iff.rfl
  | cons a l ih =>
    show y ∈ insertSorted a (sortEntries l) ↔ _
    rw [mem_insertSorted, ih, List.mem_cons]

theorem insertSorted_pairwise (x : Nat) (l : List Nat) (h : l.Pairwise (· ≤ ·)) :
    (insertSorted x l).Pairwise (· ≤ ·) := by
  induction l with
  | nil => simp [insertSorted]
  | cons a l ih =>
    obtain ⟨h1, h2⟩ := List.pairwise_cons.1 h
    unfold insertSorted
    split
    · rename_i hx
      rw [List.pairwise_cons]
      refine ⟨?_, h⟩
      intro b hb
      rcases List.mem_cons.1 hb with rfl | hb
      · exact hx
      · exact Nat.le_trans hx (h1 b hb)
    · rename_i hx
      rw [List.pairwise_cons]
      refine ⟨?_, ih h2⟩
      intro b hb
      rcases (mem_insertSorted _ _ _).1 hb with rfl | hb
      · omega
      · exact h1 b hb

theorem sortEntries_pairwise (l : List Nat) : (sortEntries l).Pairwise (· ≤ ·) := by
  induction l with
  | nil => exact List.Pairwise.nil
  | cons a l ih => exact insertSorted_pairwise _ _ ih

/-- An indexed conjunction. -/
def Indexed (docs : List Doc) (d : Doc) (i : Nat) (c : Conj) : Prop :=
  d ∈ docs ∧ d.conjs[i]? = some c

theorem mem_log {H : String → Int} {docs : List Doc} {f : String} {t : Int} {x : Nat} :
    ((f, t), x) ∈ log H docs ↔ ∃ d i c, Indexed docs d i c ∧ ∃ e ∈ c, e.field = f ∧
      (∃ v ∈ e.values, v ≠ "" ∧ H v = t) ∧ x = genEntryID (conjId d i c) e.exclude := by
  unfold log docLog
  simp only [List.mem_flatMap]
  constructor
  · rintro ⟨d, hd, ⟨c, i⟩, hci, e, he, hx⟩
    have hi : d.conjs[i]? = some c := by
      have := List.mk_mem_zipIdx_iff_getElem?.1 hci
      exact this
    unfold exprLog tokens at hx
    simp only [List.mem_map, List.mem_filter, Prod.mk.injEq] at hx
    obtain ⟨t', ⟨v, ⟨hv1, hv2⟩, rfl⟩, ⟨rfl, rfl⟩, rfl⟩ := hx
    exact ⟨d, i, c, ⟨hd, hi⟩, e, he, rfl, ⟨v, hv1, by simpa using hv2, rfl⟩, rfl⟩
  · rintro ⟨d, i, c, ⟨hd, hi⟩, e, he, rfl, ⟨v, hv1, hv2, rfl⟩, rfl⟩
    refine ⟨d, hd, (c, i), List.mk_mem_zipIdx_iff_getElem?.2 hi, e, he, ?_⟩
    unfold exprLog tokens
    simp only [List.mem_map, List.mem_filter, Prod.mk.injEq]
    exact ⟨H v, ⟨v, ⟨hv1, by simpa using hv2⟩, rfl⟩, by simp⟩

theorem mem_wildLog {docs : List Doc} {x : Nat} :
    x ∈ wildLog docs ↔ ∃ d i c, Indexed docs d i c ∧ Conj.size c = 0 ∧
      x = genEntryID (conjId d i c) false := by
  unfold wildLog
  simp only [List.mem_flatMap, List.mem_filterMap]
  constructor
  · rintro ⟨d, hd, ⟨c, i⟩, hci, hx⟩
    have hi : d.conjs[i]? = some c := List.mk_mem_zipIdx_iff_getElem?.1 hci
    split at hx
    · rename_i h0
      simp at hx
      exact ⟨d, i, c, ⟨hd, hi⟩, h0, hx.symm⟩
    · simp at hx
  · rintro ⟨d, i, c, ⟨hd, hi⟩, h0, rfl⟩
    refine ⟨d, hd, (c, i), List.mk_mem_zipIdx_iff_getElem?.2 hi, ?_⟩
    rw [if_pos h0]

theorem mem_posting {H : String → Int} {docs : List Doc} {k : String × Int} {x : Nat} :
    x ∈ posting H docs k ↔ (k, x) ∈ log H docs := by
  unfold posting
  rw [mem_sortEntries, List.mem_map]
  constructor
  · rintro ⟨⟨k', x'⟩, h, rfl⟩
    obtain ⟨h1, h2⟩ := List.mem_filter.1 h
    have : k' = k := by simpa using h2
    subst this; exact h1
  · intro h
    exact ⟨(k, x), List.mem_filter.2 ⟨h, by simp⟩, rfl⟩

/-- Facts about the ids of indexed conjunctions. -/
theorem indexed_facts {docs : List Doc} (hok : DocsOk docs) {d : Doc} {i : Nat} {c : Conj}
    (h : Indexed docs d i c) : d.id.natAbs < 2 ^ 43 ∧ i < 256 ∧ Conj.size c < 256 ∧
      conjId d i c < 2 ^ 60 ∧ (c.map Expr.field).Nodup := by
  obtain ⟨hd, hi⟩ := h
  obtain ⟨hlt, hget⟩ := List.getElem?_eq_some_iff.1 hi
  have hc : c ∈ d.conjs := List.mem_of_getElem? hi
  have h1 := hok.range d hd
  have h2 := hok.count d hd
  have h3 := hok.size d hd c hc
  exact ⟨h1, by omega, h3, genConjID_lt h1 (by omega) h3, hok.fields d hd c hc⟩

theorem nodup_ids_inj : ∀ {docs : List Doc}, (docs.map Doc.id).Nodup → ∀ {a b : Doc},
    a ∈ docs → b ∈ docs → a.id = b.id → a = b := by
  intro docs
  induction docs with
  | nil => intro _ a b ha; simp at ha
  | cons x docs ih =>
    intro hn a b ha hb hab
    simp only [List.map_cons, List.nodup_cons, List.mem_map, not_exists, not_and] at hn
    rcases List.mem_cons.1 ha with ha' | ha'
    · rcases List.mem_cons.1 hb with hb' | hb'
      · rw [ha', hb']
      · rw [ha'] at hab; exact absurd hab.symm (hn.1 b hb')
    · rcases List.mem_cons.1 hb with hb' | hb'
      · rw [hb'] at hab; exact absurd hab (hn.1 a ha')
      · exact ih hn.2 ha' hb' hab

theorem indexed_inj {docs : List Doc} (hok : DocsOk docs) {d d' : Doc} {i i' : Nat} {c c' : Conj}
    (h : Indexed docs d i c) (h' : Indexed docs d' i' c') (he : conjId d i c = conjId d' i' c') :
    d = d' ∧ i = i' ∧ c = c' := by
  obtain ⟨a1, a2, a3, -, -⟩ := indexed_facts hok h
  obtain ⟨b1, b2, b3, -, -⟩ := indexed_facts hok h'
  obtain ⟨h1, h2, h3⟩ := c12_conj_injective a1 b1 a2 b2 a3 b3 he
  have hd : d = d' := nodup_ids_inj hok.ids h.1 h'.1 h1
  subst hd; subst h2
  have := h.2.symm.trans h'.2
  exact ⟨rfl, rfl, by simpa using this⟩

/-! ### Cursors for a query -/

/-- What the cursor of one assignment contains. -/
def cursorEntries (H : String → Int) (docs : List Doc) (a : Assign) : List Nat :=
  (entriesFor H docs a).flatMap id

theorem mem_cursorEntries {H : String → Int} {docs : List Doc} {a : Assign} {x : Nat} :
    x ∈ cursorEntries H docs a ↔ ∃ v ∈ a.values, v ≠ "" ∧ ((a.field, H v), x) ∈ log H docs := by
  unfold cursorEntries entriesFor tokens
  simp only [List.mem_flatMap, List.mem_filter, List.mem_map, id]
  constructor
  · rintro ⟨l, ⟨⟨t, ⟨v, ⟨hv1, hv2⟩, rfl⟩, rfl⟩, -⟩, hx⟩
    exact ⟨v, hv1, by simpa using hv2, mem_posting.1 hx⟩
  · rintro ⟨v, hv1, hv2, hx⟩
    refine ⟨posting H docs (a.field, H v), ⟨⟨H v, ⟨v, ⟨hv1, by simpa using hv2⟩, rfl⟩, rfl⟩, ?_⟩,
      mem_posting.2 hx⟩
    have : posting H docs (a.field, H v) ≠ [] := List.ne_nil_of_mem (mem_posting.2 hx)
    simpa using this

theorem entry_lt {docs : List Doc} (hok : DocsOk docs) {d : Doc} {i : Nat} {c : Conj}
    (h : Indexed docs d i c) (b : Bool) : genEntryID (conjId d i c) b < nullEntry := by
  obtain ⟨-, -, -, h4, -⟩ := indexed_facts hok h
  rw [genEntryID_eq h4]
  have : nullEntry = 2 ^ 64 - 1 := rfl
  split <;> omega

theorem log_lt {H : String → Int} {docs : List Doc} (hok : DocsOk docs) {k : String × Int} {x : Nat}
    (h : (k, x) ∈ log H docs) : x < nullEntry := by
  obtain ⟨f, t⟩ := k
  obtain ⟨d, i, c, hi, e, -, -, -, rfl⟩ := mem_log.1 h
  exact entry_lt hok hi _

theorem rest_of_init {ls : List (List Nat)} (hne : ls ≠ []) (hs : ∀ l ∈ ls, l.Pairwise (· ≤ ·))
    (hlt : ∀ l ∈ ls, ∀ e ∈ l, e < nullEntry) :
    ∃ F, Field.initialize (ls.map (fun l => (⟨l, 0⟩ : Cur))) = some F ∧ F.Ok ∧
      F.rest = ls.flatMap id := by
  obtain ⟨F, h1, h2, h3⟩ := c13_initialize (cs := ls.map (fun l => (⟨l, 0⟩ : Cur)))
    (by simpa using hne) (by
      intro c hc
      obtain ⟨l, hl, rfl⟩ := List.mem_map.1 hc
      exact ⟨hs l hl, Nat.zero_le _, hlt l hl⟩)
  refine ⟨F, h1, h3, ?_⟩
  unfold Field.rest
  rw [h2, List.flatMap_map]
  rfl

/-- The cursors created for a query of known fields. -/
theorem initFields_spec {H : String → Int} {docs : List Doc} (hok : DocsOk docs) :
    ∀ q : List Assign, (∀ a ∈ q, knownField docs a.field = true) →
    ∃ fs, initFields H docs q = some fs ∧ AllOk fs ∧
      view fs = (q.map (cursorEntries H docs)).filter (fun l => l ≠ []) := by
  intro q
  induction q with
  | nil => intro _; exact ⟨[], rfl, by intro f hf; simp at hf, rfl⟩
  | cons a q ih =>
    intro hk
    obtain ⟨fs, h1, h2, h3⟩ := ih (fun b hb => hk b (by simp [hb]))
    unfold initFields
    rw [if_neg (by rw [hk a (by simp)]; decide), h1]
    simp only
    by_cases he : entriesFor H docs a = []
    · rw [if_pos he]
      refine ⟨fs, rfl, h2, ?_⟩
      have : cursorEntries H docs a = [] := by unfold cursorEntries; rw [he]; rfl
      rw [h3, List.map_cons, this]
      simp
    · rw [if_neg he]
      obtain ⟨F, g1, g2, g3⟩ := rest_of_init (ls := entriesFor H docs a) he (by
          intro l hl
          obtain ⟨t, -, rfl⟩ := List.mem_map.1 (List.mem_filter.1 hl).1
          exact sortEntries_pairwise _) (by
          intro l hl e hm
          obtain ⟨t, -, rfl⟩ := List.mem_map.1 (List.mem_filter.1 hl).1
          exact log_lt hok (mem_posting.1 hm))
      rw [g1]
      refine ⟨F :: fs, rfl, ?_, ?_⟩
      · intro f hf
        rcases List.mem_cons.1 hf with rfl | hf
        · exact g2
        · exact h2 f hf
      · show F.rest :: view fs = _
        have hne : cursorEntries H docs a ≠ [] := by
          obtain ⟨l, hl⟩ := List.exists_mem_of_ne_nil _ he
          have hl' := (List.mem_filter.1 hl).2
          obtain ⟨x, hx⟩ := List.exists_mem_of_ne_nil l (by simpa using hl')
          exact List.ne_nil_of_mem (List.mem_flatMap.2 ⟨l, hl, hx⟩)
        rw [h3, List.map_cons, List.filter_cons_of_pos (by simpa using hne), g3]
        rfl

theorem wildFields_spec {docs : List Doc} (hok : DocsOk docs) :
    ∃ ws, wildFields docs = some ws ∧ AllOk ws ∧
      view ws = [sortEntries (wildLog docs)].filter (fun l => l ≠ []) := by
  unfold wildFields
  by_cases h : wildLog docs = []
  · rw [if_pos h, h]
    exact ⟨[], rfl, by intro f hf; simp at hf, rfl⟩
  · rw [if_neg h]
    obtain ⟨F, g1, g2, g3⟩ := rest_of_init (ls := [sortEntries (wildLog docs)]) (by simp) (by
        intro l hl
        simp at hl; subst hl
        exact sortEntries_pairwise _) (by
        intro l hl e hm
        simp at hl; subst hl
        obtain ⟨d, i, c, hi, -, rfl⟩ := mem_wildLog.1 ((mem_sortEntries _ _).1 hm)
        exact entry_lt hok hi _)
    have g1' : Field.initialize [⟨sortEntries (wildLog docs), 0⟩] = some F := g1
    rw [g1']
    refine ⟨[F], rfl, ?_, ?_⟩
    · intro f hf
      simp at hf; subst hf; exact g2
    · show [F.rest] = _
      have hne : sortEntries (wildLog docs) ≠ [] := by
        obtain ⟨x, hx⟩ := List.exists_mem_of_ne_nil _ h
        exact List.ne_nil_of_mem ((mem_sortEntries _ _).2 hx)
      rw [List.filter_cons_of_pos (by simpa using hne), g3]
      simp

end Ltio.BoolIndex
