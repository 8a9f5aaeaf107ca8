import Verif.Lru.Spec
/- Property C15. -/
set_option linter.unusedSectionVars false
namespace Ltio.Lru

variable {K V : Type} [DecidableEq K]

/-- contents of the cache, most recent first -/
def Cache.entries (c : Cache K V) : List (K × V) := c.list.map (fun n => (n.key, n.val))

/-- list and map describe the same entries -/
structure Cache.Inv (c : Cache K V) : Prop where
  ids : (c.list.map (·.id)).Nodup
  keys : (c.list.map (·.key)).Nodup
  fresh : ∀ n ∈ c.list, n.id < c.fresh
  sound : ∀ k id, c.map.f k = some id ↔ ∃ n ∈ c.list, n.id = id ∧ n.key = k
  size : c.map.size = c.list.length

theorem inv_new (cap : Nat) : (Cache.new cap : Cache K V).Inv := by
  constructor <;> simp [Cache.new]

theorem find_id {l : List (Node K V)} (h : (l.map (·.id)).Nodup) {n} (hn : n ∈ l) :
    l.find? (fun m => m.id = n.id) = some n := by
  induction l with
  | nil => simp at hn
  | cons a l ih =>
    simp only [List.map_cons, List.nodup_cons] at h
    rw [List.find?_cons]
    rcases List.mem_cons.1 hn with rfl | hn
    · simp
    · have : a.id ≠ n.id := fun e => h.1 (by rw [e]; exact List.mem_map_of_mem hn)
      simp [this, ih h.2 hn]

theorem filter_id {l : List (Node K V)} (h : (l.map (·.id)).Nodup) (h' : (l.map (·.key)).Nodup) {n} (hn : n ∈ l) :
    (l.filter (fun m => m.id ≠ n.id)).map (fun m => (m.key, m.val)) =
      (l.map (fun m => (m.key, m.val))).filter (fun p => p.1 ≠ n.key) := by
  have : l.filter (fun m => m.id ≠ n.id) = l.filter (fun m => m.key ≠ n.key) := by
    apply List.filter_congr
    intro m hm
    have : m.id = n.id ↔ m.key = n.key := by
      constructor
      · intro e
        have h1 := find_id h hn
        rw [← e, find_id h hm] at h1; simp at h1; rw [h1]
      · intro e
        have key : ∀ (l : List (Node K V)), (l.map (·.key)).Nodup → m ∈ l → n ∈ l → m = n := by
          intro l
          induction l with
          | nil => intro _ h; simp at h
          | cons a l ih =>
            intro hd h1 h2
            simp only [List.map_cons, List.nodup_cons] at hd
            rcases List.mem_cons.1 h1 with h3 | h3 <;> rcases List.mem_cons.1 h2 with h4 | h4
            · rw [h3, h4]
            · subst h3
              exact absurd (e ▸ List.mem_map_of_mem (f := (·.key)) h4) hd.1
            · subst h4
              exact absurd (e ▸ List.mem_map_of_mem (f := (·.key)) h3) hd.1
            · exact ih hd.2 h3 h4
        rw [key l h' hm hn]
    simp [this]
  rw [this, List.filter_map]; rfl

theorem lookup_entries {c : Cache K V} (hi : c.Inv) (k : K) :
    Spec.lookup c.entries k = match c.map.f k with
      | none => none
      | some id => (c.list.find? (fun n => n.id = id)).map (·.val) := by
  cases h : c.map.f k with
  | none =>
    simp only [Spec.lookup, Option.map_eq_none_iff, List.find?_eq_none]
    intro p hp
    simp only [Cache.entries, List.mem_map] at hp
    obtain ⟨n, hn, rfl⟩ := hp
    simp only [decide_eq_true_eq]
    intro e
    have := (hi.sound k n.id).2 ⟨n, hn, rfl, e⟩
    rw [h] at this; simp at this
  | some id =>
    obtain ⟨n, hn, rfl, rfl⟩ := (hi.sound k id).1 h
    simp only [find_id hi.ids hn, Option.map_some]
    have key : ∀ (l : List (Node K V)), (l.map (·.key)).Nodup → n ∈ l →
        Spec.lookup (l.map (fun n => (n.key, n.val))) n.key = some n.val := by
      intro l
      induction l with
      | nil => intro _ h; simp at h
      | cons a l ih =>
        intro hd h1
        simp only [List.map_cons, List.nodup_cons] at hd
        rcases List.mem_cons.1 h1 with rfl | h1
        · simp [Spec.lookup]
        · have : a.key ≠ n.key := fun e => hd.1 (by rw [e]; exact List.mem_map_of_mem (f := (·.key)) h1)
          have := ih hd.2 h1
          simp only [Spec.lookup] at this ⊢
          rw [List.map_cons, List.find?_cons]
          simp_all
    exact key _ hi.keys hn

/-- abstract effect of each operation on the entries -/
def absAdd (cap : Nat) (e : List (K × V)) (k : K) (v : V) : List (K × V) :=
  if e.any (fun p => p.1 = k) then Spec.touch e k v
  else if e.length ≥ cap then (k, v) :: e.dropLast else (k, v) :: e

theorem touch_not_mem {e : List (K × V)} {k : K} (h : ∀ p ∈ e, p.1 ≠ k) : e.filter (fun p => p.1 ≠ k) = e := by
  rw [List.filter_eq_self]; intro p hp; simp [h p hp]

theorem filter_nodup_map {l : List (Node K V)} {β} (g : Node K V → β) (q : Node K V → Bool) (h : (l.map g).Nodup) :
    ((l.filter q).map g).Nodup := List.Sublist.nodup (List.Sublist.map g (List.filter_sublist)) h

/-- moving node `n` to the front with a new value (same key) keeps the invariant -/
theorem front_spec {c : Cache K V} (hi : c.Inv) {n : Node K V} (hn : n ∈ c.list) (v : V) :
    let l := (⟨n.id, n.key, v⟩ : Node K V) :: c.list.filter (fun m => m.id ≠ n.id)
    Cache.Inv { c with list := l } ∧
    l.map (fun n => (n.key, n.val)) = Spec.touch c.entries n.key v := by
  intro l
  have hf := filter_id hi.ids hi.keys hn
  have hlen : (c.list.filter (fun m => m.id ≠ n.id)).length + 1 = c.list.length := by
    have key : ∀ (l : List (Node K V)), (l.map (·.id)).Nodup → n ∈ l →
        (l.filter (fun m => m.id ≠ n.id)).length + 1 = l.length := by
      intro l
      induction l with
      | nil => intro _ h; simp at h
      | cons a l ih =>
        intro hd h1
        simp only [List.map_cons, List.nodup_cons] at hd
        rcases List.mem_cons.1 h1 with rfl | h1
        · have : l.filter (fun m => m.id ≠ n.id) = l := by
            rw [List.filter_eq_self]
            intro m hm
            simp only [ne_eq, decide_not, Bool.not_eq_true', decide_eq_false_iff_not]
            intro e; exact hd.1 (by rw [← e]; exact List.mem_map_of_mem (f := (·.id)) hm)
          rw [List.filter_cons_of_neg (by simp), this]; rfl
        · have hne : a.id ≠ n.id := fun e => hd.1 (by rw [e]; exact List.mem_map_of_mem (f := (·.id)) h1)
          have := ih hd.2 h1
          rw [List.filter_cons, if_pos (by simpa using hne)]
          simp only [List.length_cons]; omega
    exact key _ hi.ids hn
  refine ⟨⟨?_, ?_, ?_, ?_, ?_⟩, ?_⟩
  · simp only [l, List.map_cons, List.nodup_cons]
    refine ⟨?_, filter_nodup_map _ _ hi.ids⟩
    simp
  · simp only [l, List.map_cons, List.nodup_cons]
    refine ⟨?_, filter_nodup_map _ _ hi.keys⟩
    intro hmem
    obtain ⟨m, hm, he⟩ := List.mem_map.1 hmem
    have : (m.key, m.val) ∈ (c.list.filter (fun m => m.id ≠ n.id)).map (fun m => (m.key, m.val)) :=
      List.mem_map_of_mem (f := fun m => (m.key, m.val)) hm
    rw [hf] at this
    simp at this
    exact this.2 he
  · intro m hm
    rcases List.mem_cons.1 hm with rfl | hm
    · exact hi.fresh n hn
    · exact hi.fresh m (List.mem_filter.1 hm).1
  · intro k id
    rw [hi.sound]
    constructor
    · rintro ⟨m, hm, rfl, rfl⟩
      by_cases h : m.id = n.id
      · have h1 := find_id hi.ids hn
        rw [← h, find_id hi.ids hm] at h1; simp at h1; subst h1
        exact ⟨_, List.mem_cons_self, rfl, rfl⟩
      · exact ⟨m, List.mem_cons_of_mem _ (List.mem_filter.2 ⟨hm, by simpa using h⟩), rfl, rfl⟩
    · rintro ⟨m, hm, rfl, rfl⟩
      rcases List.mem_cons.1 hm with rfl | hm
      · exact ⟨n, hn, rfl, rfl⟩
      · exact ⟨m, (List.mem_filter.1 hm).1, rfl, rfl⟩
  · show c.map.size = l.length
    rw [hi.size, ← hlen]; simp [l]
  · simp only [l, List.map_cons, Spec.touch, hf, Cache.entries]

theorem splice_set {l : List (Node K V)} (h : (l.map (·.id)).Nodup) {n} (hn : n ∈ l) (g : Node K V → Node K V)
    (hg : ∀ m, (g m).id = m.id) :
    spliceFront (setNode l n.id g) n.id = some (g n :: l.filter (fun m => m.id ≠ n.id)) := by
  have h1 : (setNode l n.id g).find? (fun m => m.id = n.id) = some (g n) := by
    unfold setNode
    rw [List.find?_map]
    have : ((fun m : Node K V => decide (m.id = n.id)) ∘ fun m => if m.id = n.id then g m else m) =
        fun m => decide (m.id = n.id) := by
      funext m
      simp only [Function.comp]
      split <;> simp_all
    rw [this, find_id h hn]; simp
  have h2 : (setNode l n.id g).filter (fun m => m.id ≠ n.id) = l.filter (fun m => m.id ≠ n.id) := by
    unfold setNode
    induction l with
    | nil => rfl
    | cons a l ih =>
      clear h1 hn
      simp only [List.map_cons, List.nodup_cons] at h
      have ih' : (l.map (fun m => if m.id = n.id then g m else m)).filter (fun m => m.id ≠ n.id) =
          l.filter (fun m => m.id ≠ n.id) := by
        clear ih h
        induction l with
        | nil => rfl
        | cons b l ih =>
          by_cases e : b.id = n.id
          · simp [e, hg]; simpa using ih
          · simp [e]; simpa using ih
      by_cases e : a.id = n.id
      · simp [e, hg]; simpa using ih'
      · simp [e]; simpa using ih'
  unfold spliceFront
  rw [h1, h2]

theorem getLast_entries (c : Cache K V) : c.entries.dropLast = c.list.dropLast.map (fun n => (n.key, n.val)) := by
  simp [Cache.entries, List.map_dropLast]

theorem dropLast_filter {l : List (Node K V)} (h : (l.map (·.id)).Nodup) {n} (hn : l.getLast? = some n) :
    l.filter (fun m => m.id ≠ n.id) = l.dropLast := by
  obtain ⟨ys, rfl⟩ := List.getLast?_eq_some_iff.1 hn
  simp only [List.map_append, List.map_cons, List.map_nil] at h
  rw [List.nodup_append] at h
  rw [List.filter_append, List.dropLast_concat]
  have : ys.filter (fun m => m.id ≠ n.id) = ys := by
    rw [List.filter_eq_self]
    intro m hm
    simp only [ne_eq, decide_not, Bool.not_eq_true', decide_eq_false_iff_not]
    exact h.2.2 m.id (List.mem_map_of_mem (f := (·.id)) hm) n.id (by simp)
  rw [this]; simp

theorem pushNew_spec {c : Cache K V} (hi : c.Inv) (k : K) (v : V) (hk : c.map.f k = none) :
    (c.pushNew k v).Inv ∧ (c.pushNew k v).entries = (k, v) :: c.entries ∧ (c.pushNew k v).cap = c.cap := by
  have hnk : ∀ n ∈ c.list, n.key ≠ k := by
    intro n hn e
    have := (hi.sound k n.id).2 ⟨n, hn, rfl, e⟩
    rw [hk] at this; simp at this
  refine ⟨⟨?_, ?_, ?_, ?_, ?_⟩, rfl, rfl⟩
  · simp only [Cache.pushNew, List.map_cons, List.nodup_cons]
    refine ⟨?_, hi.ids⟩
    intro h
    obtain ⟨n, hn, e⟩ := List.mem_map.1 h
    have := hi.fresh n hn; omega
  · simp only [Cache.pushNew, List.map_cons, List.nodup_cons]
    refine ⟨?_, hi.keys⟩
    intro h
    obtain ⟨n, hn, e⟩ := List.mem_map.1 h
    exact hnk n hn e
  · intro n hn
    simp only [Cache.pushNew] at hn ⊢
    rcases List.mem_cons.1 hn with rfl | hn
    · exact Nat.lt_succ_self _
    · exact Nat.lt_succ_of_lt (hi.fresh n hn)
  · intro k' id
    simp only [Cache.pushNew, UMap.assign]
    by_cases e : k' = k
    · subst e
      simp only [if_true, Option.some.injEq]
      constructor
      · rintro rfl; exact ⟨_, List.mem_cons_self, rfl, rfl⟩
      · rintro ⟨n, hn, rfl, hk'⟩
        rcases List.mem_cons.1 hn with rfl | hn
        · rfl
        · exact absurd hk' (hnk n hn)
    · rw [if_neg e, hi.sound]
      constructor
      · rintro ⟨n, hn, h⟩; exact ⟨n, List.mem_cons_of_mem _ hn, h⟩
      · rintro ⟨n, hn, rfl, rfl⟩
        rcases List.mem_cons.1 hn with rfl | hn
        · exact absurd rfl e
        · exact ⟨n, hn, rfl, rfl⟩
  · simp [Cache.pushNew, UMap.assign, hk, hi.size]

theorem dropLast_spec {c : Cache K V} (hi : c.Inv) (h0 : c.list ≠ []) :
    ∃ c', c.dropLast = some c' ∧ c'.Inv ∧ c'.entries = c.entries.dropLast ∧ c'.cap = c.cap ∧
      (∀ k, c.map.f k = none → c'.map.f k = none) := by
  obtain ⟨last, hl⟩ : ∃ n, c.list.getLast? = some n := by
    cases h : c.list.getLast? with
    | none => simp at h; exact absurd h h0
    | some n => exact ⟨n, rfl⟩
  obtain ⟨ys, hys⟩ := List.getLast?_eq_some_iff.1 hl
  have hids := hi.ids; have hkeys := hi.keys
  rw [hys] at hids hkeys
  simp only [List.map_append, List.map_cons, List.map_nil] at hids hkeys
  rw [List.nodup_append] at hids hkeys
  unfold Cache.dropLast
  rw [hl]
  refine ⟨_, rfl, ⟨?_, ?_, ?_, ?_, ?_⟩, ?_, rfl, ?_⟩
  · simp only [hys, List.dropLast_concat]; exact hids.1
  · simp only [hys, List.dropLast_concat]; exact hkeys.1
  · intro n hn
    simp only [hys, List.dropLast_concat] at hn
    exact hi.fresh n (by rw [hys]; simp [hn])
  · intro k id
    simp only [UMap.erase, hys, List.dropLast_concat]
    by_cases e : k = last.key
    · subst e
      simp only [if_true]
      constructor
      · intro h; simp at h
      · rintro ⟨n, hn, rfl, hk⟩
        exact absurd hk (hkeys.2.2 n.key (List.mem_map_of_mem (f := (·.key)) hn) last.key (by simp))
    · rw [if_neg e, hi.sound, hys]
      constructor
      · rintro ⟨n, hn, rfl, rfl⟩
        rcases List.mem_append.1 hn with hn | hn
        · exact ⟨n, hn, rfl, rfl⟩
        · simp at hn; subst hn; exact absurd rfl e
      · rintro ⟨n, hn, h⟩; exact ⟨n, List.mem_append_left _ hn, h⟩
  · have : c.map.f last.key = some last.id := (hi.sound _ _).2 ⟨last, by rw [hys]; simp, rfl, rfl⟩
    simp [UMap.erase, this, hi.size]
  · simp [Cache.entries, List.map_dropLast]
  · intro k hk
    simp only [UMap.erase]; split
    · rfl
    · exact hk

theorem any_entries {c : Cache K V} (hi : c.Inv) (k : K) :
    c.entries.any (fun p => p.1 = k) = (c.map.f k).isSome := by
  cases h : c.map.f k with
  | none =>
    simp only [Option.isSome_none, List.any_eq_false, decide_eq_true_eq]
    intro p hp
    simp only [Cache.entries, List.mem_map] at hp
    obtain ⟨n, hn, rfl⟩ := hp
    intro e
    have := (hi.sound k n.id).2 ⟨n, hn, rfl, e⟩
    rw [h] at this; simp at this
  | some id =>
    obtain ⟨n, hn, rfl, rfl⟩ := (hi.sound k id).1 h
    simp only [Option.isSome_some, List.any_eq_true]
    exact ⟨(n.key, n.val), List.mem_map_of_mem (f := fun n => (n.key, n.val)) hn, by simp⟩

theorem add_spec (cxx17 : Bool) {c : Cache K V} (hi : c.Inv) (hcap : 0 < c.cap) (k : K) (v : V) :
    ∃ c', c.add cxx17 k v = some c' ∧ c'.Inv ∧ c'.cap = c.cap ∧ c'.entries = absAdd c.cap c.entries k v := by
  have hlen : c.entries.length = c.map.size := by simp [Cache.entries, hi.size]
  unfold Cache.add absAdd
  rw [any_entries hi]
  cases h : c.map.f k with
  | some id =>
    obtain ⟨n, hn, rfl, rfl⟩ := (hi.sound k id).1 h
    simp only [splice_set hi.ids hn (fun n => { n with val := v }) (fun m => rfl)]
    obtain ⟨h1, h2⟩ := front_spec hi hn v
    refine ⟨_, rfl, h1, rfl, ?_⟩
    simp only [Option.isSome_some, if_true]
    exact h2
  | none =>
    simp only [Option.isSome_none, Bool.false_eq_true, if_false, hlen]
    by_cases hge : c.map.size ≥ c.cap
    · rw [if_pos hge, if_pos hge]
      have h0 : c.list ≠ [] := by
        intro e; rw [hi.size, e] at hge; simp at hge; omega
      cases cxx17 with
      | false =>
        obtain ⟨c', e, i1, i2, i3, i4⟩ := dropLast_spec hi h0
        obtain ⟨j1, j2, j3⟩ := pushNew_spec i1 k v (i4 k h)
        simp only [Bool.false_eq_true, if_false, e]
        exact ⟨_, rfl, j1, by rw [j3, i3], by rw [j2, i2]⟩
      | true =>
        simp only [if_true]
        unfold Cache.recycle
        cases hl : c.list.getLast? with
        | none => simp at hl; exact absurd hl h0
        | some last =>
          have hlm : last ∈ c.list := List.mem_of_getLast? hl
          have hmap : c.map.f last.key = some last.id := (hi.sound _ _).2 ⟨last, hlm, rfl, rfl⟩
          simp only [hmap, splice_set hi.ids hlm (fun n => { n with key := k, val := v }) (fun m => rfl)]
          rw [dropLast_filter hi.ids hl]
          obtain ⟨ys, hys⟩ := List.getLast?_eq_some_iff.1 hl
          have hids := hi.ids; have hkeys := hi.keys
          rw [hys] at hids hkeys
          simp only [List.map_append, List.map_cons, List.map_nil] at hids hkeys
          rw [List.nodup_append] at hids hkeys
          have hnk : ∀ n ∈ c.list, n.key ≠ k := by
            intro n hn e
            have := (hi.sound k n.id).2 ⟨n, hn, rfl, e⟩
            rw [h] at this; simp at this
          have hlk : k ≠ last.key := fun e => hnk last hlm e.symm
          refine ⟨_, rfl, ⟨?_, ?_, ?_, ?_, ?_⟩, rfl, ?_⟩
          · simp only [hys, List.dropLast_concat, List.map_cons, List.nodup_cons]
            refine ⟨?_, hids.1⟩
            intro hm
            exact hids.2.2 last.id hm last.id (by simp) rfl
          · simp only [hys, List.dropLast_concat, List.map_cons, List.nodup_cons]
            refine ⟨?_, hkeys.1⟩
            intro hm
            obtain ⟨n, hn, e⟩ := List.mem_map.1 hm
            exact hnk n (by rw [hys]; simp [hn]) e
          · intro n hn
            simp only [hys, List.dropLast_concat] at hn
            rcases List.mem_cons.1 hn with rfl | hn
            · exact hi.fresh last hlm
            · exact hi.fresh n (by rw [hys]; simp [hn])
          · intro k' id
            simp only [hys, List.dropLast_concat]
            have hins : ((c.map.erase last.key).insert k last.id).f =
                fun x => if x = k then some last.id else if x = last.key then none else c.map.f x := by
              simp [UMap.insert, UMap.erase, UMap.assign, hlk, h]
            rw [hins]
            simp only
            by_cases e : k' = k
            · subst e
              simp only [if_true, Option.some.injEq]
              constructor
              · rintro rfl; exact ⟨_, List.mem_cons_self, rfl, rfl⟩
              · rintro ⟨n, hn, rfl, hk'⟩
                rcases List.mem_cons.1 hn with rfl | hn
                · rfl
                · exact absurd hk' (hnk n (by rw [hys]; simp [hn]))
            · rw [if_neg e]
              by_cases e2 : k' = last.key
              · subst e2
                rw [if_pos rfl]
                constructor
                · intro h; simp at h
                · rintro ⟨n, hn, rfl, hk'⟩
                  rcases List.mem_cons.1 hn with rfl | hn
                  · exact absurd hk'.symm e
                  · exact absurd hk' (hkeys.2.2 n.key (List.mem_map_of_mem (f := (·.key)) hn) last.key (by simp))
              · rw [if_neg e2, hi.sound, hys]
                constructor
                · rintro ⟨n, hn, rfl, rfl⟩
                  rcases List.mem_append.1 hn with hn | hn
                  · exact ⟨n, List.mem_cons_of_mem _ hn, rfl, rfl⟩
                  · simp at hn; subst hn; exact absurd rfl e2
                · rintro ⟨n, hn, rfl, rfl⟩
                  rcases List.mem_cons.1 hn with rfl | hn
                  · exact absurd rfl e
                  · exact ⟨n, List.mem_append_left _ hn, rfl, rfl⟩
          · have hsz : c.map.size = ys.length + 1 := by rw [hi.size, hys]; simp
            simp [UMap.insert, UMap.erase, UMap.assign, hlk, h, hmap, hsz, hys]
          · simp [Cache.entries, List.map_dropLast]
    · rw [if_neg hge, if_neg hge]
      obtain ⟨j1, j2, j3⟩ := pushNew_spec hi k v h
      exact ⟨_, rfl, j1, j3, j2⟩

theorem get_spec {c : Cache K V} (hi : c.Inv) (k : K) :
    ∃ c', c.get k = some (c', Spec.lookup c.entries k) ∧ c'.Inv ∧ c'.cap = c.cap ∧
      c'.entries = match Spec.lookup c.entries k with
        | none => c.entries
        | some v => Spec.touch c.entries k v := by
  have hlk := lookup_entries hi k
  unfold Cache.get
  cases h : c.map.f k with
  | none => rw [h] at hlk; simp only at hlk; rw [hlk]; exact ⟨c, rfl, hi, rfl, rfl⟩
  | some id =>
    obtain ⟨n, hn, rfl, rfl⟩ := (hi.sound k id).1 h
    rw [h] at hlk
    simp only [find_id hi.ids hn, Option.map_some] at hlk
    rw [hlk]
    have hs : spliceFront c.list n.id = some (n :: c.list.filter (fun m => m.id ≠ n.id)) := by
      unfold spliceFront; rw [find_id hi.ids hn]
    simp only [hs, List.find?_cons, decide_true]
    obtain ⟨h1, h2⟩ := front_spec hi hn n.val
    exact ⟨_, rfl, h1, rfl, h2⟩

/-- relation between cache contents and the unbounded recency list -/
def Rel (c : Cache K V) (u : List (K × V)) : Prop :=
  c.Inv ∧ c.entries = u.take c.cap ∧ (u.map (·.1)).Nodup ∧ 0 < c.cap

theorem touch_nodup {u : List (K × V)} (h : (u.map (·.1)).Nodup) (k : K) (v : V) :
    ((Spec.touch u k v).map (·.1)).Nodup := by
  simp only [Spec.touch, List.map_cons, List.nodup_cons]
  refine ⟨?_, List.Sublist.nodup (List.Sublist.map _ List.filter_sublist) h⟩
  simp

/-- removing a key found among the first `n` entries -/
theorem take_filter_mem {u : List (K × V)} (h : (u.map (·.1)).Nodup) (k : K) (n : Nat)
    (hm : (u.take n).any (fun p => p.1 = k) = true) :
    (u.take n).filter (fun p => p.1 ≠ k) = (u.filter (fun p => p.1 ≠ k)).take (n - 1) := by
  induction u generalizing n with
  | nil => simp
  | cons a u ih =>
    cases n with
    | zero => simp at hm
    | succ n =>
      simp only [List.map_cons, List.nodup_cons] at h
      by_cases e : a.1 = k
      · have hu : ∀ p ∈ u, p.1 ≠ k := fun p hp e' => h.1 (by rw [e, ← e']; exact List.mem_map_of_mem (f := (·.1)) hp)
        rw [List.take_succ_cons, List.filter_cons_of_neg (by simp [e]), List.filter_cons_of_neg (by simp [e]),
          touch_not_mem hu, touch_not_mem (fun p hp => hu p (List.mem_of_mem_take hp))]
        simp
      · rw [List.take_succ_cons, List.filter_cons_of_pos (by simp [e]), List.filter_cons_of_pos (by simp [e])]
        have hm' : (u.take n).any (fun p => p.1 = k) = true := by simpa [e] using hm
        have hn : n ≠ 0 := by rintro rfl; simp at hm'
        obtain ⟨n, rfl⟩ := Nat.exists_eq_succ_of_ne_zero hn
        rw [ih h.2 _ hm']
        simp

theorem take_filter_not_mem {u : List (K × V)} (k : K) (n : Nat)
    (hm : (u.take n).any (fun p => p.1 = k) = false) :
    (u.filter (fun p => p.1 ≠ k)).take n = u.take n := by
  induction u generalizing n with
  | nil => simp
  | cons a u ih =>
    cases n with
    | zero => simp
    | succ n =>
      simp only [List.take_succ_cons, List.any_cons, Bool.or_eq_false_iff, decide_eq_false_iff_not] at hm
      rw [List.filter_cons_of_pos (by simp [hm.1]), List.take_succ_cons, ih n hm.2, List.take_succ_cons]

theorem take_le_of_take {u w : List (K × V)} {n m : Nat} (h : u.take n = w.take n) (hm : m ≤ n) : u.take m = w.take m := by
  have := congrArg (List.take m) h
  simpa [List.take_take, Nat.min_eq_left hm] using this

theorem absAdd_take {u : List (K × V)} (h : (u.map (·.1)).Nodup) (cap : Nat) (hc : 0 < cap) (k : K) (v : V) :
    absAdd cap (u.take cap) k v = (Spec.touch u k v).take cap := by
  obtain ⟨cap, rfl⟩ := Nat.exists_eq_succ_of_ne_zero (Nat.pos_iff_ne_zero.1 hc)
  unfold absAdd
  by_cases hm : (u.take (cap+1)).any (fun p => p.1 = k) = true
  · rw [if_pos hm]
    simp only [Spec.touch, List.take_succ_cons, take_filter_mem h k _ hm]
    simp
  · rw [if_neg hm]
    have hm' : (u.take (cap+1)).any (fun p => p.1 = k) = false := Bool.eq_false_iff.2 hm
    have := take_le_of_take (take_filter_not_mem k _ hm') (Nat.le_succ cap)
    simp only [Spec.touch, List.take_succ_cons, this]
    by_cases hl : u.length ≥ cap + 1
    · rw [if_pos (by simp; omega)]
      congr 1
      rw [List.dropLast_eq_take, List.take_take, List.length_take]; congr 1; omega
    · rw [if_neg (by simp; omega), List.take_of_length_le (by omega), List.take_of_length_le (by omega)]

theorem lookup_take_any {u : List (K × V)} {k : K} {v : V} (h : Spec.lookup u k = some v) :
    u.any (fun p => p.1 = k) = true := by
  unfold Spec.lookup at h
  rw [Option.map_eq_some_iff] at h
  obtain ⟨p, hp, rfl⟩ := h
  have h1 := List.find?_some hp
  rw [List.any_eq_true]
  exact ⟨p, List.mem_of_find?_eq_some hp, h1⟩

theorem step_rel (cxx17 : Bool) {c : Cache K V} {u : List (K × V)} (hr : Rel c u) (op : Op K V) :
    ∃ c', step cxx17 c op = some (c', (Spec.step c.cap u op).2) ∧ Rel c' (Spec.step c.cap u op).1 ∧ c'.cap = c.cap := by
  obtain ⟨hi, he, hn, hc⟩ := hr
  cases op with
  | add k v =>
    obtain ⟨c', h1, h2, h3, h4⟩ := add_spec cxx17 hi hc k v
    refine ⟨c', by simp [step, h1, Spec.step], ⟨h2, ?_, touch_nodup hn k v, by omega⟩, h3⟩
    rw [h4, he, h3, absAdd_take hn _ hc]; rfl
  | get k =>
    obtain ⟨c', h1, h2, h3, h4⟩ := get_spec hi k
    rw [he] at h1 h4
    simp only [step, Spec.step, h1]
    cases hl : Spec.lookup (u.take c.cap) k with
    | none =>
      rw [hl] at h4
      exact ⟨c', rfl, ⟨h2, by rw [h4, h3], hn, by omega⟩, h3⟩
    | some v =>
      rw [hl] at h4
      refine ⟨c', rfl, ⟨h2, ?_, touch_nodup hn k v, by omega⟩, h3⟩
      rw [h4, h3]
      have := absAdd_take hn c.cap hc k v
      rw [absAdd, if_pos (lookup_take_any hl)] at this
      exact this
  | exists_ k =>
    refine ⟨c, ?_, ⟨hi, he, hn, hc⟩, rfl⟩
    simp only [step, Spec.step, Cache.exists_, ← he, ← any_entries hi]
    congr 3
    unfold Spec.lookup
    rw [Option.isSome_map, Bool.eq_iff_iff, List.find?_isSome, List.any_eq_true]

/-- **C15.** For every capacity >= 1, every history of calls and both compile-time variants, the
cache never reaches undefined behaviour and answers every call exactly like the LRU specification:
the entries present are always the `cap` most recently used keys with their latest values. -/
theorem c15_lru (cxx17 : Bool) (cap : Nat) (hc : 0 < cap) (ops : List (Op K V)) :
    ∃ c, run cxx17 (Cache.new cap) ops = some (c, (Spec.run cap [] ops).2) ∧
      c.entries = (Spec.run cap [] ops).1.take cap := by
  have key : ∀ (ops : List (Op K V)) (c : Cache K V) (u : List (K × V)), Rel c u → c.cap = cap →
      ∃ c', run cxx17 c ops = some (c', (Spec.run cap u ops).2) ∧ c'.entries = (Spec.run cap u ops).1.take cap := by
    intro ops
    induction ops with
    | nil => intro c u hr hcap; exact ⟨c, rfl, by rw [hr.2.1, hcap]; rfl⟩
    | cons op ops ih =>
      intro c u hr hcap
      obtain ⟨c', h1, h2, h3⟩ := step_rel cxx17 hr op
      rw [hcap] at h1 h2 h3
      obtain ⟨c'', h4, h5⟩ := ih c' _ h2 h3
      refine ⟨c'', ?_, h5⟩
      simp only [run, h1, h4, Spec.run]
  exact key ops _ [] ⟨inv_new cap, by simp [Cache.entries, Cache.new], by simp, hc⟩ rfl

/-- **C15, bound and uniqueness.** `size()` never exceeds the capacity and keys are unique. -/
theorem c15_bounded (cxx17 : Bool) (cap : Nat) (hc : 0 < cap) (ops : List (Op K V)) (c : Cache K V)
    (rs : List (Res V)) (h : run cxx17 (Cache.new cap) ops = some (c, rs)) :
    c.map.size ≤ cap ∧ c.map.size = c.entries.length ∧ (c.entries.map (·.1)).Nodup := by
  have key : ∀ (ops : List (Op K V)) (c : Cache K V) (u : List (K × V)), Rel c u → c.cap = cap →
      ∀ c' rs, run cxx17 c ops = some (c', rs) → ∃ u', Rel c' u' ∧ c'.cap = cap := by
    intro ops
    induction ops with
    | nil => intro c u hr hcap c' rs h; simp [run] at h; obtain ⟨rfl, rfl⟩ := h; exact ⟨u, hr, hcap⟩
    | cons op ops ih =>
      intro c u hr hcap c' rs h
      obtain ⟨c1, h1, h2, h3⟩ := step_rel cxx17 hr op
      simp only [run, h1] at h
      cases hx : run cxx17 c1 ops with
      | none => rw [hx] at h; simp at h
      | some x =>
        obtain ⟨c2, rs2⟩ := x
        rw [hx] at h; simp at h
        obtain ⟨rfl, rfl⟩ := h
        exact ih c1 _ h2 (by rw [h3, hcap]) c2 rs2 hx
  obtain ⟨u, ⟨hi, he, hn, _⟩, hcap⟩ := key ops _ [] ⟨inv_new cap, by simp [Cache.entries, Cache.new], by simp, hc⟩ rfl c rs h
  refine ⟨?_, ?_, ?_⟩
  · have : c.entries.length = c.list.length := by simp [Cache.entries]
    rw [hi.size, ← this, he, List.length_take]; omega
  · simp [Cache.entries, hi.size]
  · have := hi.keys
    simpa [Cache.entries, Function.comp_def] using this

/-- A capacity of zero is not supported: the first `Add` is undefined behaviour. -/
theorem c15_zero_capacity_ub (cxx17 : Bool) (k : K) (v : V) (ops : List (Op K V)) :
    run cxx17 (Cache.new 0) (.add k v :: ops) = none := by
  cases cxx17 <;> simp [run, step, Cache.add, Cache.new, Cache.recycle, Cache.dropLast]

/-- Non-vacuity / sanity: capacity 2; key 1 is read, so adding key 3 evicts key 2. -/
example : (Spec.run 2 ([] : List (Nat × Nat)) [.add 1 10, .add 2 20, .get 1, .add 3 30, .get 2, .get 1]).2 =
    [.done, .done, .value (some 10), .done, .value none, .value (some 10)] := by decide

end Ltio.Lru
