import Verif.Inverted.Props
import Mathlib.Tactic.Tauto

/-
C54: entities, the posting lists built from them, and the merge.
-/
namespace Ltio.Inv
open Ltio.Text

/-! ### Specification of the posting sets -/

/-- The condition of a document on a field lets it be found whatever the query's values, unless excluded. -/
def IsWild (c : Option Expr) : Prop := ∀ x, c = some x → x.values = [] ∨ x.exclude = true

/-- The condition includes a value. -/
def Includes (c : Option Expr) (v : Str) : Prop := ∃ x, c = some x ∧ x.exclude = false ∧ v ∈ x.values

/-- The condition excludes a value. -/
def Excludes (c : Option Expr) (v : Str) : Prop := ∃ x, c = some x ∧ x.exclude = true ∧ v ∈ x.values

/-- The ordered set of the ids of the documents whose condition on a field has a property. -/
def IdSet (docs : List Doc) (f : Str) (P : Option Expr → Prop) (s : List Int) : Prop :=
  s.Pairwise (· < ·) ∧ ∀ id, id ∈ s ↔ ∃ d ∈ docs, d.id = id ∧ P (d.conds.lookup f)

/-- A set of ids for which the index builds a posting list. -/
def IsPosting (docs : List Doc) (fields : List Str) (s : List Int) : Prop :=
  ∃ f ∈ fields, IdSet docs f IsWild s ∨ ∃ v, IdSet docs f (Includes · v) s ∨ IdSet docs f (Excludes · v) s

/-- No two of the sets for which posting lists are built have the same 64-bit digest. -/
def NoCollision (crc : List Int → Nat) (docs : List Doc) (fields : List Str) : Prop :=
  ∀ s t, IsPosting docs fields s → IsPosting docs fields t → crc s = crc t → s = t

/-! ### Maps from values to sets -/

/-- The keys are distinct and the sets are ordered and not empty. -/
def MapOk (l : List (Str × List Int)) : Prop :=
  (l.map (·.1)).Nodup ∧ ∀ p ∈ l, p.2.Pairwise (· < ·) ∧ p.2 ≠ []

/-- The set of a value. -/
def idsOf (l : List (Str × List Int)) (v : Str) : List Int := (l.lookup v).getD []

theorem insId_ne_nil (a : Int) (l : List Int) : insId a l ≠ [] := by
  intro h
  have := (mem_insId a a l).2 (Or.inl rfl)
  rw [h] at this; simp at this

theorem lookup_addTo (id : Int) (v w : Str) : ∀ l : List (Str × List Int),
    (addTo id v l).lookup w = if w = v then some (insId id (idsOf l v)) else l.lookup w
  | [] => by
    unfold addTo idsOf
    by_cases h : w = v
    · subst h; simp [List.lookup, insId]
    · have : (w == v) = false := by simpa using h
      simp [List.lookup, this, h]
  | (u, ids) :: r => by
    unfold addTo
    by_cases huv : v = u
    · subst huv
      rw [if_pos rfl]
      by_cases h : w = v
      · subst h; simp [List.lookup, idsOf]
      · have : (w == v) = false := by simpa using h
        simp [List.lookup, this, h]
    · rw [if_neg huv]
      have hvu : (v == u) = false := by simpa using huv
      by_cases hwu : w = u
      · subst hwu
        have : ¬ w = v := fun e => huv e.symm
        simp [List.lookup, this]
      · have hwu' : (w == u) = false := by simpa using hwu
        have ih := lookup_addTo id v w r
        simp only [List.lookup_cons, hwu', ih, idsOf, hvu]

theorem addTo_keys (id : Int) (v w : Str) : ∀ l : List (Str × List Int),
    w ∈ (addTo id v l).map (·.1) ↔ w = v ∨ w ∈ l.map (·.1)
  | [] => by simp [addTo]
  | (u, ids) :: r => by
    unfold addTo
    split
    · rename_i h; subst h; simp
    · have ih := addTo_keys id v w r
      rw [List.map_cons, List.mem_cons, ih, List.map_cons, List.mem_cons]; tauto

theorem addTo_ok (id : Int) (v : Str) : ∀ l : List (Str × List Int), MapOk l → MapOk (addTo id v l)
  | [], _ => by simp [addTo, MapOk]
  | (u, ids) :: r, h => by
    obtain ⟨h1, h2⟩ := h
    rw [List.map_cons, List.nodup_cons] at h1
    unfold addTo
    split
    · refine ⟨by rw [List.map_cons, List.nodup_cons]; exact h1, fun p hp => ?_⟩
      rcases List.mem_cons.1 hp with rfl | hp
      · exact ⟨insId_sorted _ _ (h2 (u, ids) (by simp)).1, insId_ne_nil _ _⟩
      · exact h2 p (by simp [hp])
    · rename_i hne
      obtain ⟨g1, g2⟩ := addTo_ok id v r ⟨h1.2, fun p hp => h2 p (by simp [hp])⟩
      refine ⟨?_, fun p hp => ?_⟩
      · rw [List.map_cons, List.nodup_cons]
        refine ⟨fun hm => ?_, g1⟩
        rcases (addTo_keys id v u r).1 hm with e | hm
        · exact hne e.symm
        · exact h1.1 hm
      · rcases List.mem_cons.1 hp with rfl | hp
        · exact h2 _ (by simp)
        · exact g2 p hp

theorem mem_idsOf_addTo (id x : Int) (v w : Str) (l : List (Str × List Int)) :
    x ∈ idsOf (addTo id v l) w ↔ (w = v ∧ x = id) ∨ x ∈ idsOf l w := by
  rw [idsOf, lookup_addTo]
  by_cases h : w = v
  · subst h; simp [mem_insId]
  · simp [h, idsOf]

/-! ### Entities -/

/-- A well-formed entity. -/
def EntOk (e : Entity) : Prop := e.wild.Pairwise (· < ·) ∧ MapOk e.inc ∧ MapOk e.exc

theorem addAssigns_true (id : Int) : ∀ (vs : List Str) (e : Entity), EntOk e →
    EntOk (vs.foldl (fun e v => e.addAssign true id v) e) ∧
    (vs.foldl (fun e v => e.addAssign true id v) e).wild = e.wild ∧
    (vs.foldl (fun e v => e.addAssign true id v) e).inc = e.inc ∧
    ∀ x w, x ∈ idsOf (vs.foldl (fun e v => e.addAssign true id v) e).exc w ↔ (w ∈ vs ∧ x = id) ∨ x ∈ idsOf e.exc w
  | [], e, h => ⟨h, rfl, rfl, by simp⟩
  | v :: vs, e, h => by
    have hk : EntOk (e.addAssign true id v) := ⟨h.1, h.2.1, addTo_ok _ _ _ h.2.2⟩
    obtain ⟨h1, h2, h3, h4⟩ := addAssigns_true id vs _ hk
    refine ⟨h1, h2, h3, fun x w => ?_⟩
    rw [List.foldl_cons, h4]
    have : (e.addAssign true id v).exc = addTo id v e.exc := rfl
    rw [this, mem_idsOf_addTo, List.mem_cons]; tauto

theorem addAssigns_false (id : Int) : ∀ (vs : List Str) (e : Entity), EntOk e →
    EntOk (vs.foldl (fun e v => e.addAssign false id v) e) ∧
    (vs.foldl (fun e v => e.addAssign false id v) e).wild = e.wild ∧
    (vs.foldl (fun e v => e.addAssign false id v) e).exc = e.exc ∧
    ∀ x w, x ∈ idsOf (vs.foldl (fun e v => e.addAssign false id v) e).inc w ↔ (w ∈ vs ∧ x = id) ∨ x ∈ idsOf e.inc w
  | [], e, h => ⟨h, rfl, rfl, by simp⟩
  | v :: vs, e, h => by
    have hk : EntOk (e.addAssign false id v) := ⟨h.1, addTo_ok _ _ _ h.2.1, h.2.2⟩
    obtain ⟨h1, h2, h3, h4⟩ := addAssigns_false id vs _ hk
    refine ⟨h1, h2, h3, fun x w => ?_⟩
    rw [List.foldl_cons, h4]
    have : (e.addAssign false id v).inc = addTo id v e.inc := rfl
    rw [this, mem_idsOf_addTo, List.mem_cons]; tauto

theorem addDoc_spec (f : Str) (e : Entity) (d : Doc) (h : EntOk e) :
    EntOk (e.addDoc f d) ∧
    (∀ x, x ∈ (e.addDoc f d).wild ↔ (x = d.id ∧ IsWild (d.conds.lookup f)) ∨ x ∈ e.wild) ∧
    (∀ x v, x ∈ idsOf (e.addDoc f d).inc v ↔ (x = d.id ∧ Includes (d.conds.lookup f) v) ∨ x ∈ idsOf e.inc v) ∧
    (∀ x v, x ∈ idsOf (e.addDoc f d).exc v ↔ (x = d.id ∧ Excludes (d.conds.lookup f) v) ∨ x ∈ idsOf e.exc v) := by
  have hw : EntOk { e with wild := insId d.id e.wild } := ⟨insId_sorted _ _ h.1, h.2.1, h.2.2⟩
  unfold Entity.addDoc
  rcases hc : d.conds.lookup f with _ | x
  · refine ⟨hw, fun x => ?_, fun x v => ?_, fun x v => ?_⟩
    · simp [mem_insId, IsWild]
    · simp [Includes]
    · simp [Excludes]
  · simp only []
    by_cases hv : x.values = []
    · rw [if_pos hv]
      refine ⟨hw, fun y => ?_, fun y v => ?_, fun y v => ?_⟩
      · simp [mem_insId, IsWild, hv]
      · simp [Includes, hv]
      · simp [Excludes, hv]
    · rw [if_neg hv]
      rcases he : x.exclude with _ | _
      · simp only [Bool.false_eq_true, if_false]
        obtain ⟨h1, h2, h3, h4⟩ := addAssigns_false d.id x.values e h
        refine ⟨h1, fun y => ?_, fun y v => ?_, fun y v => ?_⟩
        · rw [h2]; simp [IsWild, hv, he]
        · rw [h4]; simp [Includes, he]; tauto
        · rw [h3]; simp [Excludes, he]
      · simp only [if_true]
        obtain ⟨h1, h2, h3, h4⟩ := addAssigns_true d.id x.values e h
        refine ⟨⟨insId_sorted _ _ h.1, h1.2.1, h1.2.2⟩, fun y => ?_, fun y v => ?_, fun y v => ?_⟩
        · simp [mem_insId, IsWild, he]
        · rw [h3]; simp [Includes, he]
        · rw [h4]; simp [Excludes, he]; tauto

theorem entityOf_spec (docs : List Doc) (f : Str) :
    EntOk (entityOf docs f) ∧ IdSet docs f IsWild (entityOf docs f).wild ∧
    (∀ x v, x ∈ idsOf (entityOf docs f).inc v ↔ ∃ d ∈ docs, d.id = x ∧ Includes (d.conds.lookup f) v) ∧
    (∀ x v, x ∈ idsOf (entityOf docs f).exc v ↔ ∃ d ∈ docs, d.id = x ∧ Excludes (d.conds.lookup f) v) := by
  have key : ∀ (docs : List Doc) (e : Entity), EntOk e →
      EntOk (docs.foldl (Entity.addDoc f) e) ∧
      (∀ x, x ∈ (docs.foldl (Entity.addDoc f) e).wild ↔
        x ∈ e.wild ∨ ∃ d ∈ docs, d.id = x ∧ IsWild (d.conds.lookup f)) ∧
      (∀ x v, x ∈ idsOf (docs.foldl (Entity.addDoc f) e).inc v ↔
        x ∈ idsOf e.inc v ∨ ∃ d ∈ docs, d.id = x ∧ Includes (d.conds.lookup f) v) ∧
      (∀ x v, x ∈ idsOf (docs.foldl (Entity.addDoc f) e).exc v ↔
        x ∈ idsOf e.exc v ∨ ∃ d ∈ docs, d.id = x ∧ Excludes (d.conds.lookup f) v) := by
    intro docs
    induction docs with
    | nil => intro e he; exact ⟨he, by simp, by simp, by simp⟩
    | cons d ds ih =>
      intro e he
      obtain ⟨a1, a2, a3, a4⟩ := addDoc_spec f e d he
      obtain ⟨b1, b2, b3, b4⟩ := ih _ a1
      refine ⟨b1, fun x => ?_, fun x v => ?_, fun x v => ?_⟩
      · rw [List.foldl_cons, b2, a2]
        simp only [List.mem_cons, exists_eq_or_imp, eq_comm (a := x)]; tauto
      · rw [List.foldl_cons, b3, a3]
        simp only [List.mem_cons, exists_eq_or_imp, eq_comm (a := x)]; tauto
      · rw [List.foldl_cons, b4, a4]
        simp only [List.mem_cons, exists_eq_or_imp, eq_comm (a := x)]; tauto
  obtain ⟨h1, h2, h3, h4⟩ := key docs ⟨[], [], []⟩ ⟨List.Pairwise.nil, by simp [MapOk], by simp [MapOk]⟩
  refine ⟨h1, ⟨h1.1, fun id => ?_⟩, fun x v => ?_, fun x v => ?_⟩
  · exact (h2 id).trans (by simp)
  · exact (h3 x v).trans (by simp [idsOf])
  · exact (h4 x v).trans (by simp [idsOf])

theorem lookup_mem {α : Type} {l : List (Str × α)} {v : Str} {x : α} (h : l.lookup v = some x) : (v, x) ∈ l := by
  induction l with
  | nil => simp at h
  | cons p r ih =>
    obtain ⟨u, y⟩ := p
    rw [List.lookup_cons] at h
    by_cases e : v = u
    · subst e; simp at h; simp [h]
    · have : (v == u) = false := by simpa using e
      rw [this] at h
      exact List.mem_cons_of_mem _ (ih h)

theorem mem_lookup {α : Type} {l : List (Str × α)} (hn : (l.map (·.1)).Nodup) {v : Str} {x : α} (h : (v, x) ∈ l) :
    l.lookup v = some x := by
  induction l with
  | nil => simp at h
  | cons p r ih =>
    obtain ⟨u, y⟩ := p
    rw [List.map_cons, List.nodup_cons] at hn
    rw [List.lookup_cons]
    rcases List.mem_cons.1 h with e | h'
    · simp only [Prod.mk.injEq] at e; obtain ⟨rfl, rfl⟩ := e; simp
    · have : (v == u) = false := by
        simp only [beq_eq_false_iff_ne, ne_eq]
        intro e; subst e
        exact hn.1 (List.mem_map.2 ⟨_, h', rfl⟩)
      rw [this]; exact ih hn.2 h'

theorem inc_posting (docs : List Doc) (f : Str) {v : Str} {ids : List Int} (h : (v, ids) ∈ (entityOf docs f).inc) :
    IdSet docs f (Includes · v) ids := by
  obtain ⟨⟨_, h1, _⟩, _, h3, _⟩ := entityOf_spec docs f
  refine ⟨(h1.2 _ h).1, fun id => ?_⟩
  rw [← h3, idsOf, mem_lookup h1.1 h]; rfl

theorem exc_posting (docs : List Doc) (f : Str) {v : Str} {ids : List Int} (h : (v, ids) ∈ (entityOf docs f).exc) :
    IdSet docs f (Excludes · v) ids := by
  obtain ⟨⟨_, _, h1⟩, _, _, h3⟩ := entityOf_spec docs f
  refine ⟨(h1.2 _ h).1, fun id => ?_⟩
  rw [← h3, idsOf, mem_lookup h1.1 h]; rfl

theorem idSet_sub {docs : List Doc} {f : Str} {P : Option Expr → Prop} {s : List Int} (h : IdSet docs f P s) :
    ∀ id ∈ s, id ∈ allIds docs := by
  intro id hid
  obtain ⟨d, hd, he, _⟩ := (h.2 id).1 hid
  exact ((allIds_spec docs).2 id).2 ⟨d, hd, he⟩

theorem isPosting_spec {docs : List Doc} {fields : List Str} {s : List Int} (h : IsPosting docs fields s) :
    s.Pairwise (· < ·) ∧ ∀ id ∈ s, id ∈ allIds docs := by
  obtain ⟨f, _, h | ⟨v, h | h⟩⟩ := h <;> exact ⟨h.1, idSet_sub h⟩

/-! ### Building -/

/-- Every bitmap of the table is that of a posting set, under its digest. -/
def TblOk (crc : List Int → Nat) (docs : List Doc) (fields : List Str) (m : Mgr) : Prop :=
  m.sorted = allIds docs ∧
  ∀ k b, m.table.lookup k = some b → ∃ ids, IsPosting docs fields ids ∧ crc ids = k ∧ Holds m.sorted ids b

theorem build_spec {crc : List Int → Nat} {docs : List Doc} {fields : List Str} (hnc : NoCollision crc docs fields)
    {m : Mgr} (hm : TblOk crc docs fields m) {ids : List Int} (hp : IsPosting docs fields ids) (hne : ids ≠ []) :
    ∃ m' b, m.build crc ids = some (m', some b) ∧ TblOk crc docs fields m' ∧ Holds (allIds docs) ids b := by
  unfold Mgr.build
  rw [if_neg hne]
  rcases hl : m.table.lookup (crc ids) with _ | b
  · obtain ⟨hs, hsub⟩ := isPosting_spec hp
    obtain ⟨b, hb, hh⟩ := bitmapFor_spec (allIds_spec docs).1 hs hsub
    simp only [hm.1, hb, Option.map_some]
    refine ⟨_, b, rfl, ⟨hm.1 ▸ rfl, fun k b' hk => ?_⟩, hh⟩
    simp only at hk
    rw [List.lookup_cons] at hk
    by_cases e : k = crc ids
    · subst e
      simp only [beq_self_eq_true, Option.some.injEq] at hk; subst hk
      exact ⟨ids, hp, rfl, hh⟩
    · have : (k == crc ids) = false := by simpa using e
      rw [this] at hk
      have := hm.2 k b' hk
      rw [hm.1] at this; exact this
  · obtain ⟨ids', hp', hc, hh⟩ := hm.2 _ _ hl
    have := hnc _ _ hp' hp hc; subst this
    simp only [hh.1, if_true]
    exact ⟨m, b, rfl, hm, hm.1 ▸ hh⟩

theorem buildAll_spec {crc : List Int → Nat} {docs : List Doc} {fields : List Str} (hnc : NoCollision crc docs fields) :
    ∀ (l : List (Str × List Int)) {m : Mgr}, TblOk crc docs fields m →
    (∀ p ∈ l, IsPosting docs fields p.2 ∧ p.2 ≠ []) →
    ∃ m' r, buildAll crc m l = some (m', r) ∧ TblOk crc docs fields m' ∧
      ∀ v, (l.lookup v = none ∧ r.lookup v = none) ∨
        ∃ ids b, l.lookup v = some ids ∧ r.lookup v = some b ∧ Holds (allIds docs) ids b
  | [], m, hm, _ => ⟨m, [], rfl, hm, fun v => Or.inl ⟨rfl, rfl⟩⟩
  | (u, ids) :: r, m, hm, h => by
    obtain ⟨hp, hne⟩ := h (u, ids) (by simp)
    obtain ⟨m1, b, e1, hm1, hh⟩ := build_spec hnc hm hp hne
    obtain ⟨m2, r2, e2, hm2, h2⟩ := buildAll_spec hnc r hm1 (fun p hp => h p (by simp [hp]))
    simp only at hne
    refine ⟨m2, (u, b) :: r2, ?_, hm2, fun v => ?_⟩
    · unfold buildAll
      rw [if_neg hne]
      simp only [e1, Option.bind_some, e2, Option.map_some]
    · rw [List.lookup_cons, List.lookup_cons]
      by_cases e : v = u
      · subst e
        simp only [beq_self_eq_true]
        exact Or.inr ⟨ids, b, rfl, rfl, hh⟩
      · have : (v == u) = false := by simpa using e
        rw [this]; exact h2 v

theorem lookup_perm {l l' : List (Str × List Int)} (hp : l'.Perm l) (hn : (l.map (·.1)).Nodup) (v : Str) :
    l'.lookup v = l.lookup v := by
  have hn' : (l'.map (·.1)).Nodup := (hp.map _).nodup_iff.2 hn
  rcases h : l.lookup v with _ | x
  · rcases h' : l'.lookup v with _ | y
    · rfl
    · have := mem_lookup hn (hp.mem_iff.1 (lookup_mem h'))
      rw [h] at this; simp at this
  · exact mem_lookup hn' (hp.mem_iff.2 (lookup_mem h))

/-- The posting lists of a field are right. -/
def FieldOk (docs : List Doc) (f : Str) (p : FieldPl) : Prop :=
  (∀ b, p.wild = some b → ∃ s, s ≠ [] ∧ IdSet docs f IsWild s ∧ Holds (allIds docs) s b) ∧
  (p.wild = none → ∀ d ∈ docs, ¬ IsWild (d.conds.lookup f)) ∧
  (∀ v b, p.inc.lookup v = some b → ∃ s, s ≠ [] ∧ IdSet docs f (Includes · v) s ∧ Holds (allIds docs) s b) ∧
  (∀ v, p.inc.lookup v = none → ∀ d ∈ docs, ¬ Includes (d.conds.lookup f) v) ∧
  (∀ v b, p.exc.lookup v = some b → ∃ s, s ≠ [] ∧ IdSet docs f (Excludes · v) s ∧ Holds (allIds docs) s b) ∧
  (∀ v, p.exc.lookup v = none → ∀ d ∈ docs, ¬ Excludes (d.conds.lookup f) v)

theorem buildWild_spec {crc : List Int → Nat} {docs : List Doc} {fields : List Str} (hnc : NoCollision crc docs fields)
    {m : Mgr} (hm : TblOk crc docs fields m) {f : Str} (hf : f ∈ fields) :
    ∃ m' w, m.build crc (entityOf docs f).wild = some (m', w) ∧ TblOk crc docs fields m' ∧
      (∀ b, w = some b → ∃ s, s ≠ [] ∧ IdSet docs f IsWild s ∧ Holds (allIds docs) s b) ∧
      (w = none → ∀ d ∈ docs, ¬ IsWild (d.conds.lookup f)) := by
  obtain ⟨_, hw, _, _⟩ := entityOf_spec docs f
  by_cases he : (entityOf docs f).wild = []
  · refine ⟨m, none, by unfold Mgr.build; rw [if_pos he], hm, by simp, fun _ d hd hd' => ?_⟩
    have := (hw.2 d.id).2 ⟨d, hd, rfl, hd'⟩
    rw [he] at this; simp at this
  · obtain ⟨m', b, e, hm', hh⟩ := build_spec hnc hm ⟨f, hf, Or.inl hw⟩ he
    exact ⟨m', some b, e, hm', fun b' e => by cases e; exact ⟨_, he, hw, hh⟩, by simp⟩

theorem buildField_spec {crc : List Int → Nat} {docs : List Doc} {fields : List Str} (hnc : NoCollision crc docs fields)
    (o : Order) {m : Mgr} (hm : TblOk crc docs fields m) {f : Str} (hf : f ∈ fields) :
    ∃ m' p, buildField crc o m (entityOf docs f) = some (m', p) ∧ TblOk crc docs fields m' ∧ FieldOk docs f p := by
  obtain ⟨⟨_, hi, hx⟩, _, mi, mx⟩ := entityOf_spec docs f
  obtain ⟨m1, w, e1, hm1, w1, w2⟩ := buildWild_spec hnc hm hf
  obtain ⟨m2, inc, e2, hm2, i2⟩ := buildAll_spec hnc (o.ord (entityOf docs f).inc) hm1 (fun p hp => by
    have hp' := (o.perm _).mem_iff.1 hp
    exact ⟨⟨f, hf, Or.inr ⟨p.1, Or.inl (inc_posting docs f hp')⟩⟩, (hi.2 p hp').2⟩)
  obtain ⟨m3, exc, e3, hm3, i3⟩ := buildAll_spec hnc (o.ord (entityOf docs f).exc) hm2 (fun p hp => by
    have hp' := (o.perm _).mem_iff.1 hp
    exact ⟨⟨f, hf, Or.inr ⟨p.1, Or.inr (exc_posting docs f hp')⟩⟩, (hx.2 p hp').2⟩)
  refine ⟨m3, ⟨w, inc, exc⟩, by simp [buildField, e1, e2, e3], hm3, w1, w2, fun v b hb => ?_, fun v hv d hd hd' => ?_,
    fun v b hb => ?_, fun v hv d hd hd' => ?_⟩
  · simp only at hb
    rcases i2 v with ⟨_, h⟩ | ⟨ids, b', h1, h2, h3⟩
    · rw [h] at hb; simp at hb
    · rw [h2] at hb; cases hb
      rw [lookup_perm (o.perm _) hi.1] at h1
      have := lookup_mem h1
      exact ⟨ids, (hi.2 _ this).2, inc_posting docs f this, h3⟩
  · simp only at hv
    have := (mi d.id v).2 ⟨d, hd, rfl, hd'⟩
    rcases i2 v with ⟨h, _⟩ | ⟨ids, b', h1, h2, h3⟩
    · rw [lookup_perm (o.perm _) hi.1] at h
      rw [idsOf, h] at this; simp at this
    · rw [h2] at hv; simp at hv
  · simp only at hb
    rcases i3 v with ⟨_, h⟩ | ⟨ids, b', h1, h2, h3⟩
    · rw [h] at hb; simp at hb
    · rw [h2] at hb; cases hb
      rw [lookup_perm (o.perm _) hx.1] at h1
      have := lookup_mem h1
      exact ⟨ids, (hx.2 _ this).2, exc_posting docs f this, h3⟩
  · simp only at hv
    have := (mx d.id v).2 ⟨d, hd, rfl, hd'⟩
    rcases i3 v with ⟨h, _⟩ | ⟨ids, b', h1, h2, h3⟩
    · rw [lookup_perm (o.perm _) hx.1] at h
      rw [idsOf, h] at this; simp at this
    · rw [h2] at hv; simp at hv

theorem buildFields_spec {crc : List Int → Nat} {docs : List Doc} {fields : List Str} (hnc : NoCollision crc docs fields)
    (o : Order) : ∀ (fs : List Str) {m : Mgr}, TblOk crc docs fields m → (∀ f ∈ fs, f ∈ fields) →
    ∃ m' t, buildFields crc o docs m fs = some (m', t) ∧ m'.sorted = allIds docs ∧ t.map (·.1) = fs ∧
      ∀ p ∈ t, FieldOk docs p.1 p.2
  | [], m, hm, _ => ⟨m, [], rfl, hm.1, rfl, by simp⟩
  | f :: fs, m, hm, h => by
    obtain ⟨m1, p, e1, hm1, h1⟩ := buildField_spec hnc o hm (h f (by simp))
    obtain ⟨m2, t, e2, hm2, h2, h3⟩ := buildFields_spec hnc o fs hm1 (fun g hg => h g (by simp [hg]))
    refine ⟨m2, (f, p) :: t, by simp [buildFields, e1, e2], hm2, by simp [h2], fun q hq => ?_⟩
    rcases List.mem_cons.1 hq with rfl | hq
    · exact h1
    · exact h3 q hq

/-- Building never dies when digests do not collide, and gives every field its posting lists. -/
theorem buildIndexer_spec {crc : List Int → Nat} {docs : List Doc} {fields : List Str}
    (hnc : NoCollision crc docs fields) (o : Order) :
    ∃ m t, buildIndexer crc o docs fields = some (m, t) ∧ m.sorted = allIds docs ∧ t.map (·.1) = fields ∧
      ∀ p ∈ t, FieldOk docs p.1 p.2 :=
  buildFields_spec hnc o fields ⟨rfl, by simp⟩ (fun _ h => h)

/-! ### Querying -/

/-- A document is found for a field: it is a wildcard or includes one of the values, and excludes none. -/
def Hit (docs : List Doc) (f : Str) (vs : List Str) (id : Int) : Prop :=
  ((∃ v ∈ vs, ∃ d ∈ docs, d.id = id ∧ Includes (d.conds.lookup f) v) ∨
    ∃ d ∈ docs, d.id = id ∧ IsWild (d.conds.lookup f)) ∧
  ¬ ∃ v ∈ vs, ∃ d ∈ docs, d.id = id ∧ Excludes (d.conds.lookup f) v

theorem holds_bit {docs : List Doc} {f : Str} {P : Option Expr → Prop} {s : List Int} {b : Bitmap}
    (hs : IdSet docs f P s) (hb : Holds (allIds docs) s b) {i : Nat} {id : Int} (hi : (allIds docs)[i]? = some id) :
    bit b i = true ↔ ∃ d ∈ docs, d.id = id ∧ P (d.conds.lookup f) := by
  rw [hb.2.2.2, ← hs.2]
  constructor
  · rintro ⟨x, hx, he⟩
    rw [hi] at he; cases he; exact hx
  · intro h; exact ⟨id, h, hi⟩

theorem found_any (l : List (Str × Bitmap)) (vs : List Str) (i : Nat) :
    (found l vs).any (fun b => bit b i) = true ↔ ∃ v ∈ vs, ∃ b, l.lookup v = some b ∧ bit b i = true := by
  simp only [found, List.any_eq_true, List.mem_filterMap]
  constructor
  · rintro ⟨b, ⟨v, hv, e⟩, h⟩; exact ⟨v, hv, b, e, h⟩
  · rintro ⟨v, hv, b, e, h⟩; exact ⟨b, ⟨v, hv, e⟩, h⟩

/-- The merge group of a field. -/
def groupOf (grp w : Bitmap) (incs excs : List Bitmap) : Bitmap :=
  substractAll ((unionAll grp.reset incs).union w) excs

theorem group_spec (grp w : Bitmap) (incs excs : List Bitmap) : Shape (groupOf grp w incs excs) grp ∧
    ∀ i, i < grp.words.length * 64 → bit (groupOf grp w incs excs) i =
      ((incs.any (fun b => bit b i) || bit w i) && !excs.any (fun b => bit b i)) := by
  have s0 := shape_reset grp
  obtain ⟨s1, h1⟩ := unionAll_spec incs grp.reset
  have s2 := shape_union (unionAll grp.reset incs) w
  obtain ⟨s3, h3⟩ := substractAll_spec excs ((unionAll grp.reset incs).union w)
  have s2' := s2.trans (s1.trans s0)
  refine ⟨s3.trans s2', fun i hi => ?_⟩
  rw [groupOf, h3 i (by rw [s2'.1]; exact hi), union_spec _ _ (by rw [(s1.trans s0).1]; exact hi),
    h1 i (by rw [s0.1]; exact hi), bit_reset]
  simp

theorem group_hit {docs : List Doc} {f : Str} {p : FieldPl} (hp : FieldOk docs f p) {w : Bitmap} (hw : p.wild = some w)
    (grp : Bitmap) (vs : List Str) {i : Nat} {id : Int} (hi : (allIds docs)[i]? = some id)
    (hl : i < grp.words.length * 64) :
    bit (groupOf grp w (found p.inc vs) (found p.exc vs)) i = true ↔ Hit docs f vs id := by
  obtain ⟨p1, _, p3, p4, p5, p6⟩ := hp
  rw [(group_spec grp w _ _).2 i hl]
  simp only [Bool.and_eq_true, Bool.or_eq_true, Bool.not_eq_true', ← Bool.not_eq_true, found_any]
  obtain ⟨s, _, hs, hb⟩ := p1 w hw
  rw [holds_bit hs hb hi]
  have hinc : ∀ v, (∃ b, p.inc.lookup v = some b ∧ bit b i = true) ↔
      ∃ d ∈ docs, d.id = id ∧ Includes (d.conds.lookup f) v := by
    intro v
    rcases h : p.inc.lookup v with _ | b
    · simp only [reduceCtorEq, false_and, exists_false, false_iff]
      rintro ⟨d, hd, _, hd'⟩; exact p4 v h d hd hd'
    · obtain ⟨s, _, hs, hb⟩ := p3 v b h
      simp only [Option.some.injEq, exists_eq_left', holds_bit hs hb hi]
  have hexc : ∀ v, (∃ b, p.exc.lookup v = some b ∧ bit b i = true) ↔
      ∃ d ∈ docs, d.id = id ∧ Excludes (d.conds.lookup f) v := by
    intro v
    rcases h : p.exc.lookup v with _ | b
    · simp only [reduceCtorEq, false_and, exists_false, false_iff]
      rintro ⟨d, hd, _, hd'⟩; exact p6 v h d hd hd'
    · obtain ⟨s, _, hs, hb⟩ := p5 v b h
      simp only [Option.some.injEq, exists_eq_left', holds_bit hs hb hi]
  simp only [hinc, hexc]; rfl

/-- The values a query gives for a field. -/
def valuesOf (q : List (Str × List Str)) (f : Str) : List Str := (q.lookup f).getD []

theorem calculate_some {sorted : List Int} {res grp : Bitmap} {incs excs : List Bitmap} {w : Option Bitmap}
    {r : Bitmap × Bitmap} (h : calculate sorted res grp incs excs w = some r) :
    ∃ w', w = some w' ∧ r = (res.intersect (groupOf grp w' incs excs), groupOf grp w' incs excs) := by
  rcases w with _ | w'
  · simp [calculate] at h
  · simp only [calculate, Option.bind_eq_some_iff, Option.map_eq_some_iff] at h
    obtain ⟨_, _, _, _, _, _, h⟩ := h
    exact ⟨w', rfl, h.symm⟩

theorem queryField_some {sorted : List Int} {q : List (Str × List Str)} {res grp : Bitmap} {f : Str} {p : FieldPl}
    {r : Bitmap × Bitmap} (h : queryField sorted q res grp f p = some r) :
    ∃ w, p.wild = some w ∧
      r.2 = groupOf grp w (found p.inc (valuesOf q f)) (found p.exc (valuesOf q f)) ∧ r.1 = res.intersect r.2 := by
  unfold queryField at h
  rcases hq : q.lookup f with _ | vs
  · rw [hq] at h
    simp only [Option.bind_eq_some_iff, Option.map_eq_some_iff] at h
    obtain ⟨r', h1, _, _, rfl⟩ := h
    obtain ⟨w, hw, rfl⟩ := calculate_some h1
    refine ⟨w, hw, ?_, rfl⟩
    simp [valuesOf, hq, found]
  · rw [hq] at h
    simp only [Option.bind_eq_some_iff, Option.map_eq_some_iff] at h
    obtain ⟨_, _, _, _, _, _, r', h1, _, _, rfl⟩ := h
    obtain ⟨w, hw, rfl⟩ := calculate_some h1
    refine ⟨w, hw, ?_, rfl⟩
    simp [valuesOf, hq]

theorem queryFields_some {docs : List Doc} {q : List (Str × List Str)} : ∀ (t : List (Str × FieldPl))
    {res grp r : Bitmap}, (∀ p ∈ t, FieldOk docs p.1 p.2) → Shape res grp →
    (allIds docs).length ≤ grp.words.length * 64 →
    queryFields (allIds docs) q res grp t = some r →
    Shape r res ∧ ∀ i id, (allIds docs)[i]? = some id →
      (bit r i = true ↔ bit res i = true ∧ ∀ p ∈ t, Hit docs p.1 (valuesOf q p.1) id)
  | [], res, grp, r, _, _, _, h => by
    simp only [queryFields, Option.some.injEq] at h; subst h
    exact ⟨⟨rfl, rfl⟩, by simp⟩
  | (f, p) :: t, res, grp, r, hp, hsh, hl, h => by
    simp only [queryFields, Option.bind_eq_some_iff] at h
    obtain ⟨rg, h1, h2⟩ := h
    obtain ⟨w, hw, e2, e1⟩ := queryField_some h1
    have hg := (group_spec grp w (found p.inc (valuesOf q f)) (found p.exc (valuesOf q f))).1
    rw [← e2] at hg
    have hi : Shape rg.1 res := by rw [e1]; exact shape_intersect _ _ (hsh.1.trans hg.1.symm)
    obtain ⟨a1, a2⟩ := queryFields_some t (fun p hp' => hp p (by simp [hp'])) (hi.trans (hsh.trans ⟨hg.1.symm, hg.2.symm⟩))
      (by rw [hg.1]; exact hl) h2
    refine ⟨a1.trans hi, fun i id hid => ?_⟩
    have hlt : i < (allIds docs).length := (List.getElem?_eq_some_iff.1 hid).1
    rw [a2 i id hid, e1, intersect_spec _ _ (hsh.1.trans hg.1.symm) (by rw [hsh.1]; omega), Bool.and_eq_true, e2,
      group_hit (hp (f, p) (by simp)) hw grp (valuesOf q f) hid (by omega)]
    simp only [List.mem_cons, forall_eq_or_imp]; tauto

theorem new_shape (n : Nat) : n ≤ (Bitmap.new n 0 (BitVec.allOnes 64)).words.length * 64 := by
  simp [Bitmap.new]; omega

theorem unifyQuery_some {docs : List Doc} {q : List (Str × List Str)} {t : List (Str × FieldPl)}
    (hp : ∀ p ∈ t, FieldOk docs p.1 p.2) {r : List Int} (h : unifyQuery (allIds docs) t q = some r) :
    ∀ id, id ∈ r ↔ id ∈ allIds docs ∧ ∀ p ∈ t, Hit docs p.1 (valuesOf q p.1) id := by
  simp only [unifyQuery, Option.bind_eq_some_iff] at h
  obtain ⟨_, _, b, h1, h2⟩ := h
  obtain ⟨s, hb⟩ := queryFields_some t hp ⟨rfl, rfl⟩ (new_shape _) h1
  obtain ⟨_, hr⟩ := getIds_some h2
  intro id
  rw [hr]
  have hbc : b.bitCount = (allIds docs).length := s.2
  constructor
  · rintro ⟨i, _, hbit, hid⟩
    exact ⟨List.mem_of_getElem? hid, ((hb i id hid).1 hbit).2⟩
  · rintro ⟨hm, hall⟩
    obtain ⟨i, hi, rfl⟩ := List.getElem_of_mem hm
    have hid : (allIds docs)[i]? = some (allIds docs)[i] := List.getElem?_eq_getElem hi
    exact ⟨i, by omega, (hb i _ hid).2 ⟨bit_new_ones _ _ _ hi, hall⟩, hid⟩

theorem hit_accepts {docs : List Doc} (hd : (docs.map (·.id)).Nodup) {d : Doc} (hm : d ∈ docs) (f : Str)
    (q : List (Str × List Str)) : Hit docs f (valuesOf q f) d.id ↔ Accepts (d.conds.lookup f) (q.lookup f) := by
  have huniq : ∀ (P : Doc → Prop), (∃ d' ∈ docs, d'.id = d.id ∧ P d') ↔ P d := by
    intro P
    constructor
    · rintro ⟨d', hd', he, hp⟩
      have := List.inj_on_of_nodup_map hd hd' hm he
      rwa [this] at hp
    · intro hp; exact ⟨d, hm, rfl, hp⟩
  unfold Hit
  simp only [huniq (fun d => Includes (d.conds.lookup f) _), huniq (fun d => IsWild (d.conds.lookup f)),
    huniq (fun d => Excludes (d.conds.lookup f) _)]
  unfold Accepts valuesOf
  rcases hc : d.conds.lookup f with _ | x
  · simp [IsWild, Excludes]
  · simp only []
    by_cases hv : x.values = []
    · simp [IsWild, Excludes, hv]
    · rw [if_neg hv]
      rcases he : x.exclude with _ | _
      · rcases hq : q.lookup f with _ | vs <;> simp [IsWild, Includes, Excludes, hv, he]
      · rcases hq : q.lookup f with _ | vs <;> simp [IsWild, Includes, Excludes, he]

end Ltio.Inv
