import Verif.Inverted.Theorems
import Mathlib.Logic.Encodable.Basic
import Mathlib.Logic.Equiv.List
import Mathlib.Tactic.NormNum

/-
C54: what a digest collision does, and a witness for the theorems.
-/
namespace Ltio.Inv
open Ltio.Text

theorem sorted_ext {s t : List Int} (hs : s.Pairwise (· < ·)) (ht : t.Pairwise (· < ·)) (h : ∀ x, x ∈ s ↔ x ∈ t) :
    s = t := by
  have hp : s.Perm t := (List.perm_ext_iff_of_nodup (hs.imp (fun h => ne_of_lt h)) (ht.imp (fun h => ne_of_lt h))).2 h
  exact hp.eq_of_pairwise (fun a b _ _ h1 h2 => absurd h1 (by omega)) hs ht

theorem build_table {crc : List Int → Nat} {m m' : Mgr} {ids : List Int} {b : Option Bitmap}
    (h : m.build crc ids = some (m', b)) :
    (ids ≠ [] → b ≠ none ∧ m'.table.lookup (crc ids) = b) ∧
    ∀ k x, m.table.lookup k = some x → m'.table.lookup k = some x := by
  unfold Mgr.build at h
  split at h
  · rename_i he
    cases h
    exact ⟨fun hne => absurd he hne, fun _ _ h => h⟩
  · split at h
    · rename_i b' hl
      split at h
      · cases h; exact ⟨fun _ => ⟨by simp, hl⟩, fun _ _ h => h⟩
      · simp at h
    · rename_i hl
      simp only [Option.map_eq_some_iff] at h
      obtain ⟨b', _, h⟩ := h
      cases h
      refine ⟨fun _ => ⟨by simp, by simp⟩, fun k x hk => ?_⟩
      simp only [List.lookup_cons]
      have : (k == crc ids) = false := by
        simp only [beq_eq_false_iff_ne, ne_eq]
        intro e; subst e; rw [hl] at hk; simp at hk
      rw [this]; exact hk

theorem buildAll_table {crc : List Int → Nat} : ∀ (l : List (Str × List Int)) {m m' : Mgr} {r : List (Str × Bitmap)},
    (∀ p ∈ l, p.2 ≠ []) → buildAll crc m l = some (m', r) →
    (∀ k x, m.table.lookup k = some x → m'.table.lookup k = some x) ∧
    (∀ v ids, l.lookup v = some ids → r.lookup v ≠ none ∧ r.lookup v = m'.table.lookup (crc ids)) ∧
    (∀ v, l.lookup v = none → r.lookup v = none)
  | [], m, m', r, _, h => by
    simp only [buildAll, Option.some.injEq, Prod.mk.injEq] at h
    obtain ⟨rfl, rfl⟩ := h
    exact ⟨fun _ _ h => h, by simp, by simp⟩
  | (u, ids) :: l, m, m', r, hne, h => by
    have hne' : ids ≠ [] := hne (u, ids) (by simp)
    unfold buildAll at h
    rw [if_neg hne'] at h
    simp only [Option.bind_eq_some_iff] at h
    obtain ⟨⟨m1, ob⟩, h1, h2⟩ := h
    rcases ob with _ | b
    · simp at h2
    · simp only [Option.map_eq_some_iff] at h2
      obtain ⟨⟨m2, r2⟩, h2, h3⟩ := h2
      cases h3
      obtain ⟨a1, a2⟩ := build_table h1
      obtain ⟨b1, b2, b3⟩ := buildAll_table l (fun p hp => hne p (by simp [hp])) h2
      refine ⟨fun k x hk => b1 k x (a2 k x hk), fun v ids' hv => ?_, fun v hv => ?_⟩
      · rw [List.lookup_cons] at hv ⊢
        by_cases e : v = u
        · subst e
          simp only [beq_self_eq_true, Option.some.injEq] at hv ⊢; subst hv
          exact ⟨by simp, (b1 _ _ (a1 hne').2).symm⟩
        · have : (v == u) = false := by simpa using e
          rw [this] at hv ⊢
          exact b2 v ids' hv
      · rw [List.lookup_cons] at hv ⊢
        by_cases e : v = u
        · subst e; simp at hv
        · have : (v == u) = false := by simpa using e
          rw [this] at hv ⊢
          exact b3 v hv

theorem inc_lookup {docs : List Doc} {f v : Str} {s : List Int} (hs : IdSet docs f (Includes · v) s) (hne : s ≠ []) :
    (entityOf docs f).inc.lookup v = some s := by
  obtain ⟨⟨_, hi, _⟩, _, h3, _⟩ := entityOf_spec docs f
  rcases h : (entityOf docs f).inc.lookup v with _ | ids
  · obtain ⟨id, hid⟩ := List.exists_mem_of_ne_nil s hne
    have := (h3 id v).2 ((hs.2 id).1 hid)
    rw [idsOf, h] at this; simp at this
  · have := inc_posting docs f (lookup_mem h)
    rw [sorted_ext this.1 hs.1 (fun x => (this.2 x).trans (hs.2 x).symm)]

theorem exc_lookup {docs : List Doc} {f v : Str} (hx : ∀ d ∈ docs, ¬ Excludes (d.conds.lookup f) v) :
    (entityOf docs f).exc.lookup v = none := by
  obtain ⟨⟨_, _, hi⟩, _, _, h3⟩ := entityOf_spec docs f
  rcases h : (entityOf docs f).exc.lookup v with _ | ids
  · rfl
  · have hm := lookup_mem h
    obtain ⟨id, hid⟩ := List.exists_mem_of_ne_nil ids (hi.2 _ hm).2
    obtain ⟨d, hd, _, hd'⟩ := ((exc_posting docs f hm).2 id).1 hid
    exact absurd hd' (hx d hd)

/-- Two values of a field included by sets of documents with the same digest cannot be told apart: whatever the query for
one answers, or the process dying, the query for the other does the same. -/
theorem c54_collision_confuses {crc : List Int → Nat} (o : Order)
    {perm : List (Str × FieldPl) → List (Str × FieldPl)} (hperm : ∀ l, (perm l).Perm l) {docs : List Doc} {f v w : Str}
    {s t : List Int} (hs : IdSet docs f (Includes · v) s) (ht : IdSet docs f (Includes · w) t) (hsn : s ≠ [])
    (htn : t ≠ []) (hc : crc s = crc t) (hv : ∀ d ∈ docs, ¬ Excludes (d.conds.lookup f) v)
    (hw : ∀ d ∈ docs, ¬ Excludes (d.conds.lookup f) w) :
    indexAndQuery crc o perm docs [f] [(f, [v])] = indexAndQuery crc o perm docs [f] [(f, [w])] := by
  rw [indexAndQuery, indexAndQuery]
  rcases hb : buildIndexer crc o docs [f] with _ | ⟨m, tb⟩
  · rfl
  · simp only [buildIndexer, buildFields, buildField, Option.bind_eq_some_iff, Option.map_eq_some_iff] at hb
    obtain ⟨⟨m4, p4⟩, ⟨⟨m1, wl⟩, h1, ⟨m2, i⟩, h2, ⟨m3, x⟩, h3, h4⟩, ⟨m5, t5⟩, h5, h6⟩ := hb
    simp only [Option.some.injEq, Prod.mk.injEq] at h4 h5 h6
    obtain ⟨_, rfl⟩ := h5
    obtain ⟨_, rfl⟩ := h4
    obtain ⟨_, rfl⟩ := h6
    simp only [Option.bind_some]
    have hp1 : perm [(f, ⟨wl, i, x⟩)] = [(f, ⟨wl, i, x⟩)] := List.perm_singleton.1 (hperm _)
    simp only [hp1]
    obtain ⟨⟨_, hi, hx⟩, _, _, _⟩ := entityOf_spec docs f
    obtain ⟨_, hi2, _⟩ := buildAll_table _ (fun p hp => (hi.2 p ((o.perm _).mem_iff.1 hp)).2) h2
    obtain ⟨_, _, hx2⟩ := buildAll_table _ (fun p hp => (hx.2 p ((o.perm _).mem_iff.1 hp)).2) h3
    have l1 := hi2 v s (by rw [lookup_perm (o.perm _) hi.1]; exact inc_lookup hs hsn)
    have l2 := hi2 w t (by rw [lookup_perm (o.perm _) hi.1]; exact inc_lookup ht htn)
    have e1 := hx2 v (by rw [lookup_perm (o.perm _) hx.1]; exact exc_lookup hv)
    have e2 := hx2 w (by rw [lookup_perm (o.perm _) hx.1]; exact exc_lookup hw)
    have hf1 : found i [v] = found i [w] := by
      simp only [found, List.filterMap_cons, l1.2, l2.2, hc]
    have hf2 : found x [v] = found x [w] := by
      simp only [found, List.filterMap_cons, e1, e2]
    simp only [unifyQuery, queryFields, queryField, List.lookup_cons, beq_self_eq_true, hf1, hf2]

/-- The documents that tell two sets of ids apart by the values "s" and "t" of the field "f", and one without
conditions. -/
def twoSets (s t : List Int) : List Doc :=
  ⟨-(2 ^ 62), []⟩ :: ((s ++ t).dedup.map (fun i =>
    (⟨i, [(['f'], ⟨false, (if i ∈ s then [['s']] else []) ++ (if i ∈ t then [['t']] else [])⟩)]⟩ : Doc)))

theorem twoSets_mem (s t : List Int) (d : Doc) : d ∈ twoSets s t ↔ d = ⟨-(2 ^ 62), []⟩ ∨ ∃ i, (i ∈ s ∨ i ∈ t) ∧
    d = ⟨i, [(['f'], ⟨false, (if i ∈ s then [['s']] else []) ++ (if i ∈ t then [['t']] else [])⟩)]⟩ := by
  simp only [twoSets, List.mem_cons, List.mem_map, List.mem_dedup, List.mem_append]
  constructor
  · rintro (h | ⟨i, hi, rfl⟩)
    · exact Or.inl h
    · exact Or.inr ⟨i, hi, rfl⟩
  · rintro (h | ⟨i, hi, rfl⟩)
    · exact Or.inl h
    · exact Or.inr ⟨i, hi, rfl⟩

theorem twoSets_s (s t : List Int) (hs : s.Pairwise (· < ·)) : IdSet (twoSets s t) ['f'] (Includes · ['s']) s := by
  refine ⟨hs, fun id => ?_⟩
  constructor
  · intro h
    exact ⟨_, (twoSets_mem s t _).2 (Or.inr ⟨id, Or.inl h, rfl⟩), rfl, ⟨false, (if id ∈ s then [['s']] else []) ++ (if id ∈ t then [['t']] else [])⟩,
      by simp [List.lookup], rfl, by simp [h]⟩
  · rintro ⟨d, hd, rfl, x, hx, _, hm⟩
    rcases (twoSets_mem s t d).1 hd with rfl | ⟨i, _, rfl⟩
    · simp at hx
    · simp [List.lookup] at hx; subst hx
      simp only [List.mem_append] at hm
      by_contra hc
      simp only [hc, if_false] at hm
      rcases hm with hm | hm
      · simp at hm
      · split at hm <;> simp at hm

theorem twoSets_t (s t : List Int) (ht : t.Pairwise (· < ·)) : IdSet (twoSets s t) ['f'] (Includes · ['t']) t := by
  refine ⟨ht, fun id => ?_⟩
  constructor
  · intro h
    exact ⟨_, (twoSets_mem s t _).2 (Or.inr ⟨id, Or.inr h, rfl⟩), rfl, ⟨false, (if id ∈ s then [['s']] else []) ++ (if id ∈ t then [['t']] else [])⟩,
      by simp [List.lookup], rfl, by simp [h]⟩
  · rintro ⟨d, hd, rfl, x, hx, _, hm⟩
    rcases (twoSets_mem s t d).1 hd with rfl | ⟨i, _, rfl⟩
    · simp at hx
    · simp [List.lookup] at hx; subst hx
      simp only [List.mem_append] at hm
      by_contra hc
      simp only [hc, if_false] at hm
      rcases hm with hm | hm
      · split at hm <;> simp at hm
      · simp at hm

theorem twoSets_exc (s t : List Int) (v : Str) : ∀ d ∈ twoSets s t, ¬ Excludes (d.conds.lookup ['f']) v := by
  intro d hd ⟨x, hx, he, _⟩
  rcases (twoSets_mem s t d).1 hd with rfl | ⟨i, _, rfl⟩
  · simp at hx
  · simp [List.lookup] at hx; subst hx; simp at he

/-- The answer to a query is right: the query is answered, with exactly the matching documents. -/
def Right (docs : List Doc) (fields : List Str) (q : List (Str × List Str)) (a : Option (List Int)) : Prop :=
  ∃ r, a = some r ∧ ∀ id, id ∈ r ↔ ∃ d ∈ docs, d.id = id ∧ Matches fields q d

theorem right_in {docs : List Doc} {f v : Str} {r : List Int}
    (h : Right docs [f] [(f, [v])] (some r)) {s : List Int} (hs : IdSet docs f (Includes · v) s)
    (hx : ∀ d ∈ docs, ¬ Excludes (d.conds.lookup f) v) (id : Int) :
    id ∈ r ↔ (id ∈ s ∨ ∃ d ∈ docs, d.id = id ∧ IsWild (d.conds.lookup f)) := by
  obtain ⟨r', e, h⟩ := h
  cases e
  rw [h, hs.2]
  have key : ∀ d ∈ docs, Matches [f] [(f, [v])] d ↔ (Includes (d.conds.lookup f) v ∨ IsWild (d.conds.lookup f)) := by
    intro d hd
    have hxd := hx d hd
    unfold Matches Accepts Includes IsWild
    unfold Excludes at hxd
    simp only [List.mem_singleton, forall_eq, List.lookup_cons, beq_self_eq_true]
    rcases hc : d.conds.lookup f with _ | x
    · simp
    · rw [hc] at hxd
      simp only [Option.some.injEq, exists_eq_left', not_and, forall_eq'] at hxd ⊢
      by_cases hv : x.values = []
      · simp [hv]
      · rw [if_neg hv]
        rcases he : x.exclude with _ | _
        · simp [hv]
        · simp [hxd he]
  constructor
  · rintro ⟨d, hd, he, hm⟩
    rcases (key d hd).1 hm with h | h
    · exact Or.inl ⟨d, hd, he, h⟩
    · exact Or.inr ⟨d, hd, he, h⟩
  · rintro (⟨d, hd, he, h⟩ | ⟨d, hd, he, h⟩)
    · exact ⟨d, hd, he, (key d hd).2 (Or.inl h)⟩
    · exact ⟨d, hd, he, (key d hd).2 (Or.inr h)⟩

/-- The pairs of ids used to find a collision. -/
def pairOf (p : Fin (2 ^ 40) × Fin (2 ^ 40)) : List Int := [-1 - (p.1.1 : Int), (p.2.1 : Int)]

/-- C54 violated: whatever the 64-bit digest, there are at most five documents with distinct 64-bit ids, one of them
without conditions, and two queries of which at least one is answered wrongly (or kills the process), in every order of
traversal. -/
theorem c54_violation_collision (crc : List Int → Nat) (hcrc : ∀ s, crc s < 2 ^ 64) :
    ∃ docs : List Doc, (docs.map (·.id)).Nodup ∧ docs.length ≤ 5 ∧ (∀ d ∈ docs, -(2 ^ 63) ≤ d.id ∧ d.id < 2 ^ 63) ∧
      (∃ d ∈ docs, d.conds = []) ∧
      ∀ (o : Order) (perm : List (Str × FieldPl) → List (Str × FieldPl)), (∀ l, (perm l).Perm l) →
        ¬ (Right docs [['f']] [(['f'], [['s']])] (indexAndQuery crc o perm docs [['f']] [(['f'], [['s']])]) ∧
          Right docs [['f']] [(['f'], [['t']])] (indexAndQuery crc o perm docs [['f']] [(['f'], [['t']])])) := by
  obtain ⟨a, b, hab, heq⟩ := Fintype.exists_ne_map_eq_of_card_lt
    (fun p : Fin (2 ^ 40) × Fin (2 ^ 40) => (⟨crc (pairOf p), hcrc _⟩ : Fin (2 ^ 64)))
    (by rw [Fintype.card_prod, Fintype.card_fin, Fintype.card_fin]; norm_num)
  have hc : crc (pairOf a) = crc (pairOf b) := by simpa using heq
  have hsort : ∀ p, (pairOf p).Pairwise (· < ·) := by
    intro p
    simp only [pairOf, List.pairwise_cons, List.mem_singleton, forall_eq, List.not_mem_nil, false_imp_iff, implies_true,
      List.Pairwise.nil, and_true]
    omega
  have hne : ∀ p, pairOf p ≠ [] := by intro p; simp [pairOf]
  have hrange : ∀ p, ∀ i ∈ pairOf p, -(2 ^ 41) ≤ i ∧ i < 2 ^ 41 := by
    intro p i hi
    have h1 := p.1.2; have h2 := p.2.2
    simp only [pairOf, List.mem_cons, List.not_mem_nil, or_false] at hi
    rcases hi with rfl | rfl <;> constructor <;> omega
  refine ⟨twoSets (pairOf a) (pairOf b), ?_, ?_, ?_, ⟨_, (twoSets_mem _ _ _).2 (Or.inl rfl), rfl⟩, ?_⟩
  · rw [twoSets, List.map_cons, List.map_map, List.nodup_cons]
    refine ⟨?_, ?_⟩
    · simp only [List.mem_map, List.mem_dedup, List.mem_append, Function.comp]
      rintro ⟨i, hi, he⟩
      have : -(2 ^ 41) ≤ i := by
        rcases hi with hi | hi
        · exact (hrange a i hi).1
        · exact (hrange b i hi).1
      omega
    · have : ((fun x : Doc => x.id) ∘ fun i => (⟨i, [(['f'], ⟨false, (if i ∈ pairOf a then [['s']] else []) ++
          (if i ∈ pairOf b then [['t']] else [])⟩)]⟩ : Doc)) = id := rfl
      rw [this, List.map_id]
      exact List.nodup_dedup _
  · simp only [twoSets, List.length_cons, List.length_map]
    have : (pairOf a ++ pairOf b).dedup.length ≤ (pairOf a ++ pairOf b).length := (List.dedup_sublist _).length_le
    have h4 : (pairOf a ++ pairOf b).length = 4 := rfl
    omega
  · intro d hd
    rcases (twoSets_mem _ _ d).1 hd with rfl | ⟨i, hi, rfl⟩
    · simp only; omega
    · have : -(2 ^ 41) ≤ i ∧ i < 2 ^ 41 := by
        rcases hi with hi | hi
        · exact hrange a i hi
        · exact hrange b i hi
      simp only; omega
  · rintro o perm hperm ⟨r1, r2⟩
    rw [c54_collision_confuses o hperm (twoSets_s _ _ (hsort a)) (twoSets_t _ _ (hsort b)) (hne a) (hne b) hc
      (twoSets_exc _ _ _) (twoSets_exc _ _ _)] at r1
    rcases hr : indexAndQuery crc o perm (twoSets (pairOf a) (pairOf b)) [['f']] [(['f'], [['t']])] with _ | r
    · rw [hr] at r1; obtain ⟨_, h, _⟩ := r1; simp at h
    · rw [hr] at r1 r2
      have k1 := right_in r1 (twoSets_s _ _ (hsort a)) (twoSets_exc _ _ _)
      have k2 := right_in r2 (twoSets_t _ _ (hsort b)) (twoSets_exc _ _ _)
      have hwild : ∀ i, (i ∈ pairOf a ∨ i ∈ pairOf b) →
          ¬ ∃ d ∈ twoSets (pairOf a) (pairOf b), d.id = i ∧ IsWild (d.conds.lookup ['f']) := by
        rintro i hi ⟨d, hd, rfl, hw⟩
        rcases (twoSets_mem _ _ d).1 hd with rfl | ⟨j, hj, rfl⟩
        · simp only at hi
          have : -(2 ^ 41) ≤ (-(2 ^ 62) : Int) := by
            rcases hi with hi | hi
            · exact (hrange a _ hi).1
            · exact (hrange b _ hi).1
          omega
        · have := hw _ (by simp [List.lookup]; rfl)
          simp only at this
          rcases this with h | h
          · rw [List.append_eq_nil_iff] at h
            rcases hj with hj | hj <;> simp [hj] at h
          · simp at h
      have hs : pairOf a = pairOf b := sorted_ext (hsort a) (hsort b) (fun x => by
        constructor
        · intro h
          have := (k2 x).1 ((k1 x).2 (Or.inl h))
          rcases this with h' | h'
          · exact h'
          · exact absurd h' (hwild x (Or.inl h))
        · intro h
          have := (k1 x).1 ((k2 x).2 (Or.inl h))
          rcases this with h' | h'
          · exact h'
          · exact absurd h' (hwild x (Or.inr h)))
      apply hab
      simp only [pairOf, List.cons.injEq, and_true] at hs
      refine Prod.ext (Fin.ext ?_) (Fin.ext ?_)
      · have := hs.1; omega
      · have := hs.2; omega

/-! ### Witness -/

/-- Documents: 3 includes "a" on "x", 1 excludes "a", 2 has no condition. -/
def wDocs : List Doc := [⟨3, [(['x'], ⟨false, [['a'], ['b']]⟩)]⟩, ⟨1, [(['x'], ⟨true, [['a']]⟩)]⟩, ⟨2, []⟩]

/-- Keeping the order. -/
def sameOrder : Order := ⟨id, fun _ => List.Perm.refl _⟩

/-- The hypotheses of `c54_small` hold of the witness, with an injective digest. -/
example : ∃ crc : List Int → Nat, NoCollision crc wDocs [['x']] ∧ (wDocs.map (·.id)).Nodup ∧ wDocs.length < 64 ∧
    ∀ f ∈ [['x']], ∃ d ∈ wDocs, IsWild (d.conds.lookup f) :=
  ⟨fun s => Encodable.encode s, fun _ _ _ _ h => Encodable.encode_injective h, by decide, by decide,
    fun f _ => ⟨⟨2, []⟩, by simp [wDocs], by simp [IsWild]⟩⟩

/-- Its answers, with a digest that does not collide on them. -/
theorem w_query :
    indexAndQuery (fun s => s.foldl (fun a i => 4 * a + i.toNat) 0) sameOrder id wDocs [['x']] [(['x'], [['b']])] =
      some [1, 2, 3] ∧
    indexAndQuery (fun s => s.foldl (fun a i => 4 * a + i.toNat) 0) sameOrder id wDocs [['x']] [(['x'], [['a']])] =
      some [2, 3] ∧
    indexAndQuery (fun s => s.foldl (fun a i => 4 * a + i.toNat) 0) sameOrder id wDocs [['x']] [] = some [1, 2] := by
  decide +kernel

end Ltio.Inv
