import Verif.Inverted.Query
import Mathlib.Data.Fintype.Card
import Mathlib.Data.Fintype.Prod
import Mathlib.Data.Fintype.Pigeonhole

/-
C54: the theorems.
-/
namespace Ltio.Inv
open Ltio.Text

/-- C54.  Whenever a query is answered, the answer is exactly the documents whose conditions accept it: for any documents
with distinct ids, any fields, any query and any orders in which the hash maps are traversed, if no two of the indexed
sets of ids have the same digest. -/
theorem c54_exact {crc : List Int → Nat} {o : Order} {perm : List (Str × FieldPl) → List (Str × FieldPl)}
    (hperm : ∀ l, (perm l).Perm l) {docs : List Doc} (hd : (docs.map (·.id)).Nodup) {fields : List Str}
    (hnc : NoCollision crc docs fields) {q : List (Str × List Str)} {r : List Int}
    (h : indexAndQuery crc o perm docs fields q = some r) :
    ∀ id, id ∈ r ↔ ∃ d ∈ docs, d.id = id ∧ Matches fields q d := by
  obtain ⟨m, t, e, hs, ht, hp⟩ := buildIndexer_spec hnc o
  simp only [indexAndQuery, e, Option.bind_some, hs] at h
  intro id
  rw [unifyQuery_some (fun p hp' => hp p ((hperm t).mem_iff.1 hp')) h id, (allIds_spec docs).2]
  have hall : ∀ P : Str → Prop, (∀ p ∈ perm t, P p.1) ↔ ∀ f ∈ fields, P f := by
    intro P
    rw [← ht]
    simp only [List.mem_map, forall_exists_index, and_imp, forall_apply_eq_imp_iff₂]
    constructor
    · intro h p hp; exact h p ((hperm t).mem_iff.2 hp)
    · intro h p hp; exact h p ((hperm t).mem_iff.1 hp)
  rw [hall (fun f => Hit docs f (valuesOf q f) id)]
  constructor
  · rintro ⟨⟨d, hm, rfl⟩, h⟩
    exact ⟨d, hm, rfl, fun f hf => (hit_accepts hd hm f q).1 (h f hf)⟩
  · rintro ⟨d, hm, rfl, h⟩
    exact ⟨⟨d, hm, rfl⟩, fun f hf => (hit_accepts hd hm f q).2 (h f hf)⟩

/-! ### When is a query answered? -/

theorem allIds_length {docs : List Doc} (hd : (docs.map (·.id)).Nodup) : (allIds docs).length = docs.length := by
  have hn : (allIds docs).Nodup := (allIds_spec docs).1.imp (fun h => ne_of_lt h)
  have : (allIds docs).Perm (docs.map (·.id)) := by
    rw [List.perm_ext_iff_of_nodup hn hd]
    intro id; rw [(allIds_spec docs).2]; simp
  rw [this.length_eq, List.length_map]

/-- How many documents have an id up to the largest of a set. -/
def rankOf (docs : List Doc) (s : List Int) : Nat := (allIds docs).idxOf (s.getLastD 0) + 1

theorem holds_read {docs : List Doc} {s : List Int} {b : Bitmap} (h : Holds (allIds docs) s b)
    (hr : rankOf docs s % 64 ≠ 0) : ∃ r, getIds (allIds docs) (some b) = some r := by
  apply getIds_ok
  have h2 : b.bitCount = rankOf docs s := h.2.1
  rw [h.2.2.1, h2]
  omega

theorem dumpAll_ok (docs : List Doc) : ∀ l : List Bitmap, (∀ b ∈ l, ∃ r, getIds (allIds docs) (some b) = some r) →
    dumpAll (allIds docs) l = some ()
  | [], _ => rfl
  | b :: l, h => by
    obtain ⟨r, hr⟩ := h b (by simp)
    simp only [dumpAll, hr, Option.bind_some]
    exact dumpAll_ok docs l (fun b' hb => h b' (by simp [hb]))

/-- A bitmap with the shape of the merge results. -/
def Full (docs : List Doc) (b : Bitmap) : Prop :=
  b.words.length = ((allIds docs).length + 63) / 64 ∧ b.bitCount = (allIds docs).length

theorem full_read {docs : List Doc} {b : Bitmap} (h : Full docs b) (hn : (allIds docs).length % 64 ≠ 0) :
    ∃ r, getIds (allIds docs) (some b) = some r := by
  apply getIds_ok
  rw [h.1, h.2]; omega

theorem Full.of_shape {docs : List Doc} {a b : Bitmap} (h : Full docs b) (hs : Shape a b) : Full docs a :=
  ⟨hs.1.trans h.1, hs.2.trans h.2⟩

theorem calculate_ok {docs : List Doc} (hn : (allIds docs).length % 64 ≠ 0) {res grp : Bitmap} (hg : Full docs grp)
    (incs excs : List Bitmap) (w : Bitmap) :
    calculate (allIds docs) res grp incs excs (some w) =
      some (res.intersect (groupOf grp w incs excs), groupOf grp w incs excs) := by
  have s1 := hg.of_shape ((unionAll_spec incs grp.reset).1.trans (shape_reset grp))
  have s2 := s1.of_shape (shape_union _ w)
  have s3 := s2.of_shape (substractAll_spec excs _).1
  obtain ⟨_, h1⟩ := full_read s1 hn
  obtain ⟨_, h2⟩ := full_read s2 hn
  obtain ⟨_, h3⟩ := full_read s3 hn
  simp only [calculate, h1, h2, h3, Option.bind_some, Option.map_some]
  rfl

theorem queryFields_ok {docs : List Doc} {fields : List Str} (hn : (allIds docs).length % 64 ≠ 0)
    (hr : ∀ s, IsPosting docs fields s → s ≠ [] → rankOf docs s % 64 ≠ 0) (q : List (Str × List Str)) :
    ∀ (t : List (Str × FieldPl)) {res grp : Bitmap}, (∀ p ∈ t, FieldOk docs p.1 p.2) → (∀ p ∈ t, p.1 ∈ fields) →
    (∀ p ∈ t, p.2.wild ≠ none) → Full docs res → Full docs grp →
    ∃ r, queryFields (allIds docs) q res grp t = some r ∧ Full docs r
  | [], res, grp, _, _, _, hres, _ => ⟨res, rfl, hres⟩
  | (f, p) :: t, res, grp, hp, hf, hw, hres, hgrp => by
    obtain ⟨w, hw'⟩ := Option.ne_none_iff_exists'.1 (hw (f, p) (by simp))
    simp only at hw'
    obtain ⟨p1, _, p3, _, p5, _⟩ := hp (f, p) (by simp)
    have hf' := hf (f, p) (by simp)
    have hg := hgrp.of_shape (group_spec grp w (found p.inc (valuesOf q f)) (found p.exc (valuesOf q f))).1
    have hi := hres.of_shape (shape_intersect res (groupOf grp w (found p.inc (valuesOf q f)) (found p.exc (valuesOf q f)))
      (hres.1.trans hg.1.symm))
    have hinc : ∀ vs, dumpAll (allIds docs) (found p.inc vs) = some () := fun vs => dumpAll_ok docs _ (fun b hb => by
      obtain ⟨v, _, hb⟩ := List.mem_filterMap.1 hb
      obtain ⟨s, hne, hs, hh⟩ := p3 v b hb
      exact holds_read hh (hr s ⟨f, hf', Or.inr ⟨v, Or.inl hs⟩⟩ hne))
    have hexc : ∀ vs, dumpAll (allIds docs) (found p.exc vs) = some () := fun vs => dumpAll_ok docs _ (fun b hb => by
      obtain ⟨v, _, hb⟩ := List.mem_filterMap.1 hb
      obtain ⟨s, hne, hs, hh⟩ := p5 v b hb
      exact holds_read hh (hr s ⟨f, hf', Or.inr ⟨v, Or.inr hs⟩⟩ hne))
    obtain ⟨s, hne, hs, hh⟩ := p1 w hw'
    obtain ⟨_, hwr⟩ := holds_read hh (hr s ⟨f, hf', Or.inl hs⟩ hne)
    obtain ⟨_, hir⟩ := full_read hi hn
    obtain ⟨r, e, hfull⟩ := queryFields_ok hn hr q t (fun p hp' => hp p (by simp [hp'])) (fun p hp' => hf p (by simp [hp']))
      (fun p hp' => hw p (by simp [hp'])) hi hg
    refine ⟨r, ?_, hfull⟩
    have key : queryField (allIds docs) q res grp f p =
        some (res.intersect (groupOf grp w (found p.inc (valuesOf q f)) (found p.exc (valuesOf q f))),
          groupOf grp w (found p.inc (valuesOf q f)) (found p.exc (valuesOf q f))) := by
      unfold queryField
      rcases hq : q.lookup f with _ | vs
      · have hv : valuesOf q f = [] := by simp [valuesOf, hq]
        rw [hv] at hir ⊢
        simp only [hw']
        rw [calculate_ok hn hgrp]
        simp only [Option.bind_some, found, List.filterMap_nil] at hir ⊢
        rw [hir]; rfl
      · have hv : valuesOf q f = vs := by simp [valuesOf, hq]
        rw [hv] at hir ⊢
        simp only [hinc, hexc, hw', hwr, Option.bind_some]
        rw [calculate_ok hn hgrp]
        simp only [Option.bind_some, hir, Option.map_some]
    simp only [queryFields, key, Option.bind_some, e]

/-- C54.  A query is answered when, besides, the number of documents is not a multiple of 64, neither is the rank of the
last id of any indexed set, and every registered field has a document that does not include values on it. -/
theorem c54_answers {crc : List Int → Nat} {o : Order} {perm : List (Str × FieldPl) → List (Str × FieldPl)}
    (hperm : ∀ l, (perm l).Perm l) {docs : List Doc} (hd : (docs.map (·.id)).Nodup) {fields : List Str}
    (hnc : NoCollision crc docs fields) (q : List (Str × List Str)) (hn : docs.length % 64 ≠ 0)
    (hr : ∀ s, IsPosting docs fields s → s ≠ [] → rankOf docs s % 64 ≠ 0)
    (hw : ∀ f ∈ fields, ∃ d ∈ docs, IsWild (d.conds.lookup f)) :
    ∃ r, indexAndQuery crc o perm docs fields q = some r := by
  obtain ⟨m, t, e, hs, ht, hp⟩ := buildIndexer_spec hnc o
  rw [← allIds_length hd] at hn
  have hfull : Full docs (Bitmap.new (allIds docs).length 0 (BitVec.allOnes 64)) := ⟨by simp [Bitmap.new], rfl⟩
  obtain ⟨_, h0⟩ := full_read hfull hn
  obtain ⟨b, h1, hb⟩ := queryFields_ok hn hr q (perm t) (fun p hp' => hp p ((hperm t).mem_iff.1 hp'))
    (fun p hp' => by rw [← ht]; exact List.mem_map.2 ⟨p, (hperm t).mem_iff.1 hp', rfl⟩)
    (fun p hp' hnone => by
      have hp'' := (hperm t).mem_iff.1 hp'
      obtain ⟨d, hd, hwd⟩ := hw p.1 (by rw [← ht]; exact List.mem_map.2 ⟨p, hp'', rfl⟩)
      exact (hp p hp'').2.1 hnone d hd hwd) hfull hfull
  obtain ⟨r, h2⟩ := full_read hb hn
  exact ⟨r, by simp only [indexAndQuery, e, hs, unifyQuery, h0, h1, h2, Option.bind_some]⟩

/-- C54.  With fewer than 64 documents, but at least one, and a document that includes no value on each registered field,
every query is answered with exactly the matching documents. -/
theorem c54_small {crc : List Int → Nat} {o : Order} {perm : List (Str × FieldPl) → List (Str × FieldPl)}
    (hperm : ∀ l, (perm l).Perm l) {docs : List Doc} (hd : (docs.map (·.id)).Nodup) {fields : List Str}
    (hnc : NoCollision crc docs fields) (q : List (Str × List Str)) (h0 : 0 < docs.length) (h64 : docs.length < 64)
    (hw : ∀ f ∈ fields, ∃ d ∈ docs, IsWild (d.conds.lookup f)) :
    ∃ r, indexAndQuery crc o perm docs fields q = some r ∧
      ∀ id, id ∈ r ↔ ∃ d ∈ docs, d.id = id ∧ Matches fields q d := by
  obtain ⟨r, hr⟩ := c54_answers (o := o) hperm hd hnc q (by omega) (fun s hs hne => by
    have hl : s.getLastD 0 = s.getLast hne := by
      rw [List.getLastD_eq_getLast?, List.getLast?_eq_getLast_of_ne_nil hne]; rfl
    have := List.idxOf_lt_length_iff.2 ((isPosting_spec hs).2 _ (List.getLast_mem hne))
    rw [allIds_length hd] at this
    unfold rankOf
    rw [hl]; omega) hw
  exact ⟨r, hr, c54_exact hperm hd hnc hr⟩

/-! ### When does a query kill the process? -/

/-- C54 violated: with a number of documents that is a multiple of 64 (none, for example) every query kills the process. -/
theorem c54_violation_multiple_of_64 (crc : List Int → Nat) (o : Order)
    (perm : List (Str × FieldPl) → List (Str × FieldPl)) {docs : List Doc} (hd : (docs.map (·.id)).Nodup)
    (fields : List Str) (q : List (Str × List Str)) (hn : docs.length % 64 = 0) :
    indexAndQuery crc o perm docs fields q = none := by
  rw [indexAndQuery]
  rcases hb : buildIndexer crc o docs fields with _ | ⟨m, t⟩
  · rfl
  · have hms : m.sorted = allIds docs := by
      have key : ∀ (fs : List Str) (m m' : Mgr) (t : List (Str × FieldPl)),
          buildFields crc o docs m fs = some (m', t) → m'.sorted = m.sorted := by
        have hbuild : ∀ (m m' : Mgr) ids b, m.build crc ids = some (m', b) → m'.sorted = m.sorted := by
          intro m m' ids b h
          unfold Mgr.build at h
          split at h
          · cases h; rfl
          · split at h
            · split at h
              · cases h; rfl
              · simp at h
            · simp only [Option.map_eq_some_iff] at h
              obtain ⟨_, _, h⟩ := h
              cases h; rfl
        have hall : ∀ l (m m' : Mgr) r, buildAll crc m l = some (m', r) → m'.sorted = m.sorted := by
          intro l
          induction l with
          | nil => intro m m' r h; simp [buildAll] at h; rw [h.1]
          | cons p l ih =>
            intro m m' r h
            unfold buildAll at h
            split at h
            · exact ih _ _ _ h
            · simp only [Option.bind_eq_some_iff] at h
              obtain ⟨⟨m1, ob⟩, h1, h2⟩ := h
              rcases ob with _ | b
              · simp at h2
              · simp only [Option.map_eq_some_iff, Prod.mk.injEq] at h2
                obtain ⟨⟨m2, r2⟩, h2, h3, _⟩ := h2
                simp only at h3; subst h3
                exact (ih _ _ _ h2).trans (hbuild _ _ _ _ h1)
        intro fs
        induction fs with
        | nil => intro m m' t h; simp [buildFields] at h; rw [h.1]
        | cons f fs ih =>
          intro m m' t h
          simp only [buildFields, buildField, Option.bind_eq_some_iff, Option.map_eq_some_iff] at h
          obtain ⟨⟨m4, p4⟩, ⟨⟨m1, w⟩, h1, ⟨m2, i⟩, h2, ⟨m3, x⟩, h3, h4⟩, ⟨m5, t5⟩, h5, h6⟩ := h
          simp only [Prod.mk.injEq] at h4 h6
          obtain ⟨h4, _⟩ := h4
          obtain ⟨h6, _⟩ := h6
          subst h4; subst h6
          exact (ih _ _ _ h5).trans ((hall _ _ _ _ h3).trans ((hall _ _ _ _ h2).trans (hbuild _ _ _ _ h1)))
      exact key fields _ _ _ hb
    simp only [Option.bind_some, unifyQuery, hms]
    rw [getIds_none]
    · rfl
    · simp only [Bitmap.new, List.length_replicate, allIds_length hd]
      omega

theorem queryFields_dies {sorted : List Int} {q : List (Str × List Str)} : ∀ (t : List (Str × FieldPl)) (res grp : Bitmap),
    (∃ p ∈ t, p.2.wild = none) → queryFields sorted q res grp t = none
  | [], _, _, h => by obtain ⟨p, hp, _⟩ := h; simp at hp
  | (f, p) :: t, res, grp, h => by
    rw [queryFields]
    rcases hq : queryField sorted q res grp f p with _ | rg
    · rfl
    · obtain ⟨w, hw, _⟩ := queryField_some hq
      simp only [Option.bind_some]
      refine queryFields_dies t _ _ ?_
      obtain ⟨p', hp', hn⟩ := h
      rcases List.mem_cons.1 hp' with rfl | hp'
      · rw [hw] at hn; simp at hn
      · exact ⟨p', hp', hn⟩

/-- C54 violated: if every document includes values on some registered field, every query kills the process (the field's
null wildcard list is followed). -/
theorem c54_violation_no_wildcard (crc : List Int → Nat) (o : Order)
    {perm : List (Str × FieldPl) → List (Str × FieldPl)} (hperm : ∀ l, (perm l).Perm l) {docs : List Doc}
    {fields : List Str} (hnc : NoCollision crc docs fields) (q : List (Str × List Str)) {f : Str} (hf : f ∈ fields)
    (hw : ∀ d ∈ docs, ¬ IsWild (d.conds.lookup f)) :
    indexAndQuery crc o perm docs fields q = none := by
  obtain ⟨m, t, e, hs, ht, hp⟩ := buildIndexer_spec hnc o
  simp only [indexAndQuery, e, Option.bind_some, hs, unifyQuery]
  rcases getIds (allIds docs) (some (Bitmap.new (allIds docs).length 0 (BitVec.allOnes 64))) with _ | _
  · rfl
  · simp only [Option.bind_some]
    rw [queryFields_dies]
    · rfl
    · rw [← ht] at hf
      obtain ⟨p, hpm, rfl⟩ := List.mem_map.1 hf
      refine ⟨p, (hperm t).mem_iff.2 hpm, ?_⟩
      rcases hw' : p.2.wild with _ | b
      · rfl
      · obtain ⟨s, hne, hss, _⟩ := (hp p hpm).1 b hw'
        obtain ⟨id, hid⟩ := List.exists_mem_of_ne_nil s hne
        obtain ⟨d, hd, _, hd'⟩ := (hss.2 id).1 hid
        exact absurd hd' (hw d hd)

end Ltio.Inv
