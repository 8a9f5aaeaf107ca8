import Verif.BoolIndex.Ids
/-
Model of components/boolean_indexer/scanner_cursor.{h,cc} and property C13.

Every read of `id_list_` goes through `l[i]?`; `none` as a result is an out-of-bounds read
(undefined behaviour).  Simplification: `int` indices do not overflow (posting lists below
2^30 entries).
-/
namespace Ltio.BoolIndex

/-- `EntriesCursor` (scanner_cursor.h:13-53): `id_list_` and `index_`; `size_` is the list's
length. -/
structure Cur where
  list : List Nat
  idx : Nat
deriving Repr, DecidableEq

/-- `linear_skip_distance` (scanner_cursor.cc:5). -/
def linearSkipDistance : Nat := 64

/-- `GetCurEntryID` (scanner_cursor.h:19-21). -/
def Cur.get (c : Cur) : Nat := c.list.getD c.idx nullEntry

/-- `LinearSkipTo` / `LinearSkip` (scanner_cursor.h:23-35): step over entries satisfying `p`
(`p e` is `e < id`, respectively `e <= id`). -/
def linear (l : List Nat) (p : Nat → Bool) (idx : Nat) : Nat :=
  match l[idx]? with
  | none => idx
  | some e => if p e then
      if h : idx < l.length then linear l p (idx + 1) else idx
    else idx
termination_by l.length - idx

/-- The loop of `Skip` (scanner_cursor.cc:11-30, `p e` is `e <= id`) and of `SkipTo`
(scanner_cursor.cc:32-51, `p e` is `e < id`): the two bodies differ only in `p`.
Returns the new `index_`. -/
def seek (l : List Nat) (p : Nat → Bool) (idx right : Nat) : Option Nat :=
  if _hlt : idx < right then
    if right - idx < linearSkipDistance then some (linear l p idx)
    else
      match l[(idx + right) / 2]? with
      | none => none
      | some e =>
        if p e then
          if (idx + right) / 2 + 1 ≥ l.length then some ((idx + right) / 2 + 1)
          else match l[(idx + right) / 2 + 1]? with
            | none => none
            | some f => if p f then seek l p ((idx + right) / 2 + 1) right
              else some ((idx + right) / 2 + 1)
        else
          if idx ≥ l.length then some idx
          else match l[idx]? with
            | none => none
            | some f => if p f then seek l p idx ((idx + right) / 2) else some idx
  else some idx
termination_by right - idx
decreasing_by all_goals omega

/-- `EntriesCursor::SkipTo` (scanner_cursor.cc:32-51). -/
def Cur.skipTo (c : Cur) (id : Nat) : Option Cur :=
  (seek c.list (fun e => decide (e < id)) c.idx c.list.length).map (fun i => { c with idx := i })

/-- `EntriesCursor::Skip` (scanner_cursor.cc:11-30). -/
def Cur.skip (c : Cur) (id : Nat) : Option Cur :=
  (seek c.list (fun e => decide (e ≤ id)) c.idx c.list.length).map (fun i => { c with idx := i })

/-- `FieldCursor` (scanner_cursor.h:55-87): `cursors_`, `current_` (as an index) and
`current_id_`. -/
structure Field where
  cursors : List Cur
  current : Nat
  currentId : Nat
deriving Repr

/-- The loop of `Initialize` (scanner_cursor.cc:63-70): scanning from position `i` with the best
candidate so far. -/
def initLoop : List Cur → Nat → Nat × Nat → Nat × Nat
  | [], _, best => best
  | c :: cs, i, best => initLoop cs (i + 1) (if c.get < best.2 then (i, c.get) else best)

/-- `FieldCursor::Initialize` (scanner_cursor.cc:60-70); `none`: `cursors_[0]` of an empty
vector. -/
def Field.initialize (cs : List Cur) : Option Field :=
  match cs with
  | [] => none
  | c :: rest => some ⟨c :: rest, (initLoop (c :: rest) 0 (0, c.get)).1,
      (initLoop (c :: rest) 0 (0, c.get)).2⟩

/-- The loop of `Skip`/`SkipTo` (scanner_cursor.cc:76-98): move every cursor with `f`, remember
the position of the smallest entry; result: moved cursors, `(current_, min_id)`. -/
def moveLoop (f : Cur → Option Cur) : List Cur → Nat → Nat × Nat → Option (List Cur × (Nat × Nat))
  | [], _, best => some ([], best)
  | c :: cs, i, best =>
    match f c with
    | none => none
    | some c' =>
      match moveLoop f cs (i + 1) (if c'.get < best.2 then (i, c'.get) else best) with
      | none => none
      | some (cs', b) => some (c' :: cs', b)

/-- `FieldCursor::Skip` / `SkipTo` (scanner_cursor.cc:76-98). -/
def Field.move (f : Cur → Option Cur) (F : Field) : Option Field :=
  match moveLoop f F.cursors 0 (F.current, nullEntry) with
  | none => none
  | some (cs, b) =>
    match cs[b.1]? with
    | none => none
    | some c => some { cursors := cs, current := b.1, currentId := c.get }

def Field.skipTo (F : Field) (id : Nat) : Option Field := F.move (fun c => c.skipTo id)
def Field.skip (F : Field) (id : Nat) : Option Field := F.move (fun c => c.skip id)

/-! ### Specification: what is left to read -/

/-- Entries at or after the cursor. -/
def Cur.rest (c : Cur) : List Nat := c.list.drop c.idx

/-- A posting list as built by the indexer: ascending, no end marker inside. -/
def Cur.Ok (c : Cur) : Prop :=
  c.list.Pairwise (· ≤ ·) ∧ c.idx ≤ c.list.length ∧ ∀ e ∈ c.list, e < nullEntry

/-! ### Correctness of seek -/

/-- `i` is the first position at or after `idx` whose entry does not satisfy `p`. -/
def FirstNot (l : List Nat) (p : Nat → Bool) (idx i : Nat) : Prop :=
  idx ≤ i ∧ i ≤ l.length ∧ (∀ j, idx ≤ j → j < i → ∀ e, l[j]? = some e → p e = true) ∧
  ∀ e, l[i]? = some e → p e = false

theorem FirstNot.unique {l : List Nat} {p : Nat → Bool} {idx i k : Nat}
    (hi : FirstNot l p idx i) (hk : FirstNot l p idx k) : i = k := by
  obtain ⟨a1, a2, a3, a4⟩ := hi
  obtain ⟨b1, b2, b3, b4⟩ := hk
  rcases Nat.lt_trichotomy i k with h | h | h
  · have hl : i < l.length := by omega
    have h1 := b3 i a1 h l[i] (List.getElem?_eq_getElem hl)
    have h2 := a4 l[i] (List.getElem?_eq_getElem hl)
    rw [h1] at h2; cases h2
  · exact h
  · have hl : k < l.length := by omega
    have h1 := a3 k b1 h l[k] (List.getElem?_eq_getElem hl)
    have h2 := b4 l[k] (List.getElem?_eq_getElem hl)
    rw [h1] at h2; cases h2

theorem linear_first (l : List Nat) (p : Nat → Bool) : ∀ (n idx : Nat), l.length - idx = n →
    idx ≤ l.length → FirstNot l p idx (linear l p idx) := by
  intro n
  induction n with
  | zero =>
    intro idx hn hi
    have : idx = l.length := by omega
    subst this
    unfold linear
    simp [FirstNot]
    omega
  | succ n ih =>
    intro idx hn hi
    have hl : idx < l.length := by omega
    unfold linear
    rw [List.getElem?_eq_getElem hl]
    simp only
    split
    · rename_i hp
      obtain ⟨a1, a2, a3, a4⟩ := ih (idx + 1) (by omega) (by omega)
      refine ⟨by omega, a2, ?_, a4⟩
      intro j hj hj' e he
      by_cases hji : j = idx
      · subst hji
        rw [List.getElem?_eq_getElem hl] at he
        injection he with he
        rw [← he]; exact hp
      · exact a3 j (by omega) hj' e he
    · rename_i hp
      refine ⟨Nat.le_refl _, by omega, fun j h1 h2 => by omega, ?_⟩
      intro e he
      rw [List.getElem?_eq_getElem hl] at he
      injection he with he
      rw [← he]; simpa using hp

/-- `p` holds on an initial segment (true for `< id`, `<= id` on an ascending list). -/
def Down (l : List Nat) (p : Nat → Bool) : Prop :=
  ∀ i j : Nat, i ≤ j → ∀ a b, l[i]? = some a → l[j]? = some b → p b = true → p a = true

theorem seek_first (l : List Nat) (p : Nat → Bool) (hd : Down l p) :
    ∀ (n idx right : Nat), right - idx = n → idx ≤ right → right ≤ l.length →
      (∀ e, l[right]? = some e → p e = false) →
      ∃ i, seek l p idx right = some i ∧ FirstNot l p idx i := by
  intro n
  induction n using Nat.strongRecOn with
  | _ n ih =>
    intro idx right hn hir hr hright
    unfold seek
    split
    · rename_i hlt
      split
      · exact ⟨_, rfl, linear_first l p _ idx rfl (by omega)⟩
      · rename_i hdist
        have hld : linearSkipDistance = 64 := rfl
        have hm : (idx + right) / 2 < l.length := by omega
        rw [List.getElem?_eq_getElem hm]
        simp only
        split
        · rename_i hpm
          have hskip : ∀ j, idx ≤ j → j < (idx + right) / 2 + 1 →
              ∀ e, l[j]? = some e → p e = true := fun j _ hj e he =>
            hd j ((idx + right) / 2) (by omega) e _ he (List.getElem?_eq_getElem hm) hpm
          split
          · rename_i hge
            refine ⟨_, rfl, by omega, by omega, hskip, ?_⟩
            intro e he
            rw [List.getElem?_eq_none (by omega)] at he; cases he
          · rename_i hge
            have hm1 : (idx + right) / 2 + 1 < l.length := by omega
            rw [List.getElem?_eq_getElem hm1]
            simp only
            split
            · rename_i hpf
              obtain ⟨i, h1, a1, a2, a3, a4⟩ := ih (right - ((idx + right) / 2 + 1)) (by omega)
                ((idx + right) / 2 + 1) right rfl (by omega) hr hright
              refine ⟨i, h1, by omega, a2, ?_, a4⟩
              intro j hj hj' e he
              by_cases hjm : j < (idx + right) / 2 + 1
              · exact hskip j hj hjm e he
              · exact a3 j (by omega) hj' e he
            · rename_i hpf
              refine ⟨_, rfl, by omega, by omega, hskip, ?_⟩
              intro e he
              rw [List.getElem?_eq_getElem hm1] at he
              injection he with he
              rw [← he]; simpa using hpf
        · rename_i hpm
          split
          · rename_i hge; omega
          · have hil : idx < l.length := by omega
            rw [List.getElem?_eq_getElem hil]
            simp only
            split
            · exact ih ((idx + right) / 2 - idx) (by omega) idx ((idx + right) / 2) rfl (by omega)
                (by omega) (by
                  intro e he
                  rw [List.getElem?_eq_getElem hm] at he
                  injection he with he
                  rw [← he]; simpa using hpm)
            · rename_i hpf
              refine ⟨_, rfl, Nat.le_refl _, by omega, fun j h1 h2 => by omega, ?_⟩
              intro e he
              rw [List.getElem?_eq_getElem hil] at he
              injection he with he
              rw [← he]; simpa using hpf
    · rename_i hlt
      have : idx = right := by omega
      subst this
      exact ⟨idx, rfl, Nat.le_refl _, hr, fun j h1 h2 => by omega, hright⟩

theorem down_of_sorted {l : List Nat} (hs : l.Pairwise (· ≤ ·)) {p : Nat → Bool}
    (hp : ∀ a b, a ≤ b → p b = true → p a = true) : Down l p := by
  intro i j hij a b ha hb hpb
  obtain ⟨hi, rfl⟩ := List.getElem?_eq_some_iff.1 ha
  obtain ⟨hj, rfl⟩ := List.getElem?_eq_some_iff.1 hb
  apply hp _ _ _ hpb
  by_cases h : i = j
  · subst h; exact Nat.le_refl _
  · exact (List.pairwise_iff_getElem.1 hs) i j hi hj (by omega)

/-- **C13 (SkipTo).**  On an ascending posting list `SkipTo(x)` never reads outside the list and
leaves the cursor at the first entry `>= x` at or after the current position (or at the end). -/
theorem c13_skipTo {c : Cur} (h : c.Ok) (x : Nat) :
    ∃ i, c.skipTo x = some { c with idx := i } ∧ c.idx ≤ i ∧ i ≤ c.list.length ∧
      (∀ j, c.idx ≤ j → j < i → ∀ e, c.list[j]? = some e → e < x) ∧
      (∀ e, c.list[i]? = some e → x ≤ e) := by
  obtain ⟨i, h1, a1, a2, a3, a4⟩ := seek_first c.list (fun e => decide (e < x))
    (down_of_sorted h.1 (by intro a b hab hb; simp at *; omega)) _ c.idx c.list.length rfl h.2.1
    (Nat.le_refl _) (by intro e he; rw [List.getElem?_eq_none (Nat.le_refl _)] at he; cases he)
  refine ⟨i, by unfold Cur.skipTo; rw [h1]; rfl, a1, a2, ?_, ?_⟩
  · intro j hj hj' e he; simpa using a3 j hj hj' e he
  · intro e he; simpa using a4 e he

/-- **C13 (Skip).**  Same for `Skip(x)`: first entry `> x`. -/
theorem c13_skip {c : Cur} (h : c.Ok) (x : Nat) :
    ∃ i, c.skip x = some { c with idx := i } ∧ c.idx ≤ i ∧ i ≤ c.list.length ∧
      (∀ j, c.idx ≤ j → j < i → ∀ e, c.list[j]? = some e → e ≤ x) ∧
      (∀ e, c.list[i]? = some e → x < e) := by
  obtain ⟨i, h1, a1, a2, a3, a4⟩ := seek_first c.list (fun e => decide (e ≤ x))
    (down_of_sorted h.1 (by intro a b hab hb; simp at *; omega)) _ c.idx c.list.length rfl h.2.1
    (Nat.le_refl _) (by intro e he; rw [List.getElem?_eq_none (Nat.le_refl _)] at he; cases he)
  refine ⟨i, by unfold Cur.skip; rw [h1]; rfl, a1, a2, ?_, ?_⟩
  · intro j hj hj' e he; simpa using a3 j hj hj' e he
  · intro e he; simpa using a4 e he

/-! ### Moving a cursor = filtering what is left -/

theorem drop_filter {l : List Nat} (hs : l.Pairwise (· ≤ ·)) {q : Nat → Bool}
    (hq : ∀ a b, a ≤ b → q a = true → q b = true) {idx i : Nat} (hi : idx ≤ i)
    (h1 : ∀ j, idx ≤ j → j < i → ∀ e, l[j]? = some e → q e = false)
    (h2 : ∀ e, l[i]? = some e → q e = true) : l.drop i = (l.drop idx).filter q := by
  have hsplit : l.drop idx = (l.drop idx).take (i - idx) ++ l.drop i := by
    have := List.take_append_drop (i - idx) (l.drop idx)
    rw [List.drop_drop, show idx + (i - idx) = i from by omega] at this
    exact this.symm
  rw [hsplit, List.filter_append]
  have ha : ((l.drop idx).take (i - idx)).filter q = [] := by
    rw [List.filter_eq_nil_iff]
    intro e he
    obtain ⟨k, hk⟩ := List.getElem?_of_mem he
    rw [List.getElem?_take] at hk
    split at hk
    · rw [List.getElem?_drop] at hk
      rw [h1 (idx + k) (by omega) (by omega) e hk]; simp
    · cases hk
  have hb : (l.drop i).filter q = l.drop i := by
    rw [List.filter_eq_self]
    intro e he
    obtain ⟨k, hk⟩ := List.getElem?_of_mem he
    rw [List.getElem?_drop] at hk
    obtain ⟨hlt, rfl⟩ := List.getElem?_eq_some_iff.1 hk
    have hil : i < l.length := by omega
    apply hq l[i] _ _ (h2 _ (List.getElem?_eq_getElem hil))
    by_cases hk0 : k = 0
    · subst hk0; exact Nat.le_refl _
    · exact (List.pairwise_iff_getElem.1 hs) i (i + k) hil hlt (by omega)
  rw [ha, hb, List.nil_append]

theorem skipTo_rest {c : Cur} (h : c.Ok) (x : Nat) :
    ∃ c', c.skipTo x = some c' ∧ c'.Ok ∧ c'.list = c.list ∧
      c'.rest = c.rest.filter (fun e => decide (x ≤ e)) := by
  obtain ⟨i, h1, h2, h3, h4, h5⟩ := c13_skipTo h x
  refine ⟨_, h1, ⟨h.1, h3, h.2.2⟩, rfl, ?_⟩
  apply drop_filter h.1 (by intro a b hab ha; simp at *; omega) h2
  · intro j hj hj' e he; have := h4 j hj hj' e he; simpa using this
  · intro e he; simpa using h5 e he

theorem skip_rest {c : Cur} (h : c.Ok) (x : Nat) :
    ∃ c', c.skip x = some c' ∧ c'.Ok ∧ c'.list = c.list ∧
      c'.rest = c.rest.filter (fun e => decide (x < e)) := by
  obtain ⟨i, h1, h2, h3, h4, h5⟩ := c13_skip h x
  refine ⟨_, h1, ⟨h.1, h3, h.2.2⟩, rfl, ?_⟩
  apply drop_filter h.1 (by intro a b hab ha; simp at *; omega) h2
  · intro j hj hj' e he; have := h4 j hj hj' e he; simpa using this
  · intro e he; simpa using h5 e he

theorem get_le_rest {c : Cur} (h : c.Ok) : ∀ e ∈ c.rest, c.get ≤ e := by
  intro e he
  obtain ⟨k, hk⟩ := List.getElem?_of_mem he
  unfold Cur.rest at hk
  rw [List.getElem?_drop] at hk
  obtain ⟨hlt, rfl⟩ := List.getElem?_eq_some_iff.1 hk
  have hil : c.idx < c.list.length := by omega
  unfold Cur.get
  rw [List.getD_eq_getElem?_getD, List.getElem?_eq_getElem hil]
  simp only [Option.getD_some]
  by_cases hk0 : k = 0
  · subst hk0; exact Nat.le_refl _
  · exact (List.pairwise_iff_getElem.1 h.1) c.idx (c.idx + k) hil hlt (by omega)

theorem get_mem {c : Cur} (_ : c.Ok) : c.get = nullEntry ∧ c.rest = [] ∨ c.get ∈ c.rest := by
  by_cases hil : c.idx < c.list.length
  · right
    unfold Cur.get Cur.rest
    rw [List.getD_eq_getElem?_getD, List.getElem?_eq_getElem hil]
    simp only [Option.getD_some]
    rw [List.drop_eq_getElem_cons hil]
    exact List.mem_cons_self
  · left
    unfold Cur.get Cur.rest
    rw [List.getD_eq_getElem?_getD, List.getElem?_eq_none (by omega)]
    exact ⟨rfl, List.drop_eq_nil_of_le (by omega)⟩

theorem rest_lt {c : Cur} (h : c.Ok) : ∀ e ∈ c.rest, e < nullEntry :=
  fun e he => h.2.2 e (List.mem_of_mem_drop he)

/-! ### Field cursors -/

/-- Everything a field cursor still has to deliver. -/
def Field.rest (F : Field) : List Nat := F.cursors.flatMap Cur.rest

/-- `currentId` is the smallest remaining entry, or the end marker. -/
def IsMin (m : Nat) (l : List Nat) : Prop := (∀ e ∈ l, m ≤ e) ∧ (m ∈ l ∨ (l = [] ∧ m = nullEntry))

structure Field.Ok (F : Field) : Prop where
  ok : ∀ c ∈ F.cursors, c.Ok
  cur : F.current < F.cursors.length
  min : IsMin F.currentId F.rest
  at_cur : ∀ c, F.cursors[F.current]? = some c → c.get = F.currentId

theorem initLoop_spec : ∀ (cs : List Cur) (i : Nat) (best : Nat × Nat),
    (initLoop cs i best).2 ≤ best.2 ∧ (∀ c ∈ cs, (initLoop cs i best).2 ≤ c.get) ∧
    (initLoop cs i best = best ∨
      ∃ k c, cs[k]? = some c ∧ initLoop cs i best = (i + k, c.get)) := by
  intro cs
  induction cs with
  | nil => intro i best; exact ⟨Nat.le_refl _, by simp, Or.inl rfl⟩
  | cons c cs ih =>
    intro i best
    unfold initLoop
    obtain ⟨h1, h2, h3⟩ := ih (i + 1) (if c.get < best.2 then (i, c.get) else best)
    refine ⟨?_, ?_, ?_⟩
    · refine Nat.le_trans h1 ?_
      split
      · rename_i h; exact Nat.le_of_lt h
      · exact Nat.le_refl _
    · intro d hd
      rcases List.mem_cons.1 hd with rfl | hd
      · refine Nat.le_trans h1 ?_
        split
        · exact Nat.le_refl _
        · omega
      · exact h2 d hd
    · rcases h3 with h3 | ⟨k, d, hk, h3⟩
      · rw [h3]
        split
        · exact Or.inr ⟨0, c, rfl, rfl⟩
        · exact Or.inl rfl
      · refine Or.inr ⟨k + 1, d, by simpa using hk, ?_⟩
        rw [h3]
        congr 1
        omega

theorem isMin_of_gets {cs : List Cur} (hok : ∀ c ∈ cs, c.Ok) {m : Nat}
    (hle : ∀ c ∈ cs, m ≤ c.get) (hm : ∃ c ∈ cs, c.get = m) : IsMin m (cs.flatMap Cur.rest) := by
  refine ⟨?_, ?_⟩
  · intro e he
    obtain ⟨c, hc, he⟩ := List.mem_flatMap.1 he
    exact Nat.le_trans (hle c hc) (get_le_rest (hok c hc) e he)
  · obtain ⟨c, hc, rfl⟩ := hm
    rcases get_mem (hok c hc) with ⟨h1, _⟩ | h1
    · right
      refine ⟨?_, h1⟩
      rw [List.flatMap_eq_nil_iff]
      intro d hd
      rcases get_mem (hok d hd) with ⟨_, h3⟩ | h3
      · exact h3
      · have := rest_lt (hok d hd) _ h3
        have := hle d hd
        omega
    · exact Or.inl (List.mem_flatMap.2 ⟨c, hc, h1⟩)

/-- **C13 (field cursor start).**  After `Initialize` the field cursor reports the minimum over
its posting lists. -/
theorem c13_initialize {cs : List Cur} (hne : cs ≠ []) (hok : ∀ c ∈ cs, c.Ok) :
    ∃ F, Field.initialize cs = some F ∧ F.cursors = cs ∧ F.Ok := by
  match cs, hne, hok with
  | c :: rest, _, hok =>
    refine ⟨_, rfl, rfl, ?_⟩
    obtain ⟨h1, h2, h3⟩ := initLoop_spec (c :: rest) 0 (0, c.get)
    have hex : ∃ d, (c :: rest)[(initLoop (c :: rest) 0 (0, c.get)).1]? = some d ∧
        d.get = (initLoop (c :: rest) 0 (0, c.get)).2 := by
      rcases h3 with h3 | ⟨k, d, hk, h3⟩
      · rw [h3]; exact ⟨c, rfl, rfl⟩
      · rw [h3]; exact ⟨d, by simpa using hk, rfl⟩
    obtain ⟨d, hd, hdg⟩ := hex
    refine ⟨hok, ?_, ?_, ?_⟩
    · exact (List.getElem?_eq_some_iff.1 hd).1
    · exact isMin_of_gets hok h2 ⟨d, List.mem_of_getElem? hd, hdg⟩
    · intro e he
      simp only at he
      rw [hd] at he
      injection he with he
      rw [← he]; exact hdg

theorem moveLoop_spec {f : Cur → Option Cur} {q : Nat → Bool}
    (hf : ∀ c : Cur, c.Ok → ∃ c', f c = some c' ∧ c'.Ok ∧ c'.list = c.list ∧
      c'.rest = c.rest.filter q) :
    ∀ (cs : List Cur) (i : Nat) (best : Nat × Nat), (∀ c ∈ cs, c.Ok) →
    ∃ cs' b, moveLoop f cs i best = some (cs', b) ∧ cs'.length = cs.length ∧
      (∀ c ∈ cs', c.Ok) ∧ cs'.flatMap Cur.rest = (cs.flatMap Cur.rest).filter q ∧
      cs'.map Cur.list = cs.map Cur.list ∧
      b.2 ≤ best.2 ∧ (∀ c ∈ cs', b.2 ≤ c.get) ∧
      (b = best ∨ ∃ k c, cs'[k]? = some c ∧ b = (i + k, c.get)) := by
  intro cs
  induction cs with
  | nil =>
    intro i best _
    exact ⟨[], best, rfl, rfl, by simp, rfl, rfl, Nat.le_refl _, by simp, Or.inl rfl⟩
  | cons c cs ih =>
    intro i best hok
    obtain ⟨c', hc, hc1, hc2, hc3⟩ := hf c (hok c (by simp))
    obtain ⟨cs', b, h1, h2, h3, h4, h5, h6, h7, h8⟩ :=
      ih (i + 1) (if c'.get < best.2 then (i, c'.get) else best) (fun d hd => hok d (by simp [hd]))
    refine ⟨c' :: cs', b, ?_, by simp [h2], ?_, ?_, by simp [hc2, h5], ?_, ?_, ?_⟩
    · unfold moveLoop; rw [hc]; simp only; rw [h1]
    · intro d hd
      rcases List.mem_cons.1 hd with rfl | hd
      · exact hc1
      · exact h3 d hd
    · rw [List.flatMap_cons, List.flatMap_cons, List.filter_append, h4, hc3]
    · refine Nat.le_trans h6 ?_
      split
      · rename_i h; exact Nat.le_of_lt h
      · exact Nat.le_refl _
    · intro d hd
      rcases List.mem_cons.1 hd with rfl | hd
      · refine Nat.le_trans h6 ?_
        split
        · exact Nat.le_refl _
        · omega
      · exact h7 d hd
    · rcases h8 with h8 | ⟨k, d, hk, h8⟩
      · rw [h8]
        split
        · exact Or.inr ⟨0, c', rfl, rfl⟩
        · exact Or.inl rfl
      · refine Or.inr ⟨k + 1, d, by simpa using hk, ?_⟩
        rw [h8]
        congr 1
        omega

theorem move_spec {f : Cur → Option Cur} {q : Nat → Bool}
    (hf : ∀ c : Cur, c.Ok → ∃ c', f c = some c' ∧ c'.Ok ∧ c'.list = c.list ∧
      c'.rest = c.rest.filter q) {F : Field} (h : F.Ok) :
    ∃ F', F.move f = some F' ∧ F'.Ok ∧ F'.rest = F.rest.filter q ∧
      F'.cursors.map Cur.list = F.cursors.map Cur.list := by
  obtain ⟨cs', b, h1, h2, h3, h4, h5, h6, h7, h8⟩ :=
    moveLoop_spec hf F.cursors 0 (F.current, nullEntry) h.ok
  unfold Field.move
  rw [h1]
  simp only
  rcases h8 with h8 | ⟨k, d, hk, h8⟩
  · -- nothing below the end marker: every cursor is exhausted
    subst h8
    have hlt : F.current < cs'.length := by rw [h2]; exact h.cur
    rw [List.getElem?_eq_getElem hlt]
    simp only
    have hall : ∀ c ∈ cs', c.get = nullEntry ∧ c.rest = [] := by
      intro c hc
      rcases get_mem (h3 c hc) with hg | hg
      · exact hg
      · have := rest_lt (h3 c hc) _ hg
        have := h7 c hc
        simp only at this
        omega
    have hnil : cs'.flatMap Cur.rest = [] := by
      rw [List.flatMap_eq_nil_iff]
      exact fun c hc => (hall c hc).2
    have hg := (hall _ (List.getElem_mem hlt)).1
    refine ⟨_, rfl, ⟨h3, hlt, ?_, ?_⟩, h4, h5⟩
    · refine ⟨?_, ?_⟩
      · intro e he
        have he' : e ∈ cs'.flatMap Cur.rest := he
        rw [hnil] at he'; cases he'
      · exact Or.inr ⟨hnil, hg⟩
    · intro c hc
      simp only at hc
      rw [List.getElem?_eq_getElem hlt] at hc
      injection hc with hc
      rw [hc]
  · subst h8
    simp only [Nat.zero_add]
    rw [hk]
    simp only
    refine ⟨_, rfl, ⟨h3, (List.getElem?_eq_some_iff.1 hk).1, ?_, ?_⟩, h4, h5⟩
    · exact isMin_of_gets h3 h7 ⟨d, List.mem_of_getElem? hk, rfl⟩
    · intro c hc
      simp only at hc
      rw [hk] at hc
      injection hc with hc
      rw [← hc]

/-- **C13 (field cursor moves).**  `SkipTo(x)` / `Skip(x)` on a field cursor drops exactly the
entries `< x` / `<= x` of every list, and the reported entry is the minimum of what is left (the
end marker if nothing is). -/
theorem c13_field {F : Field} (h : F.Ok) (x : Nat) :
    (∃ F', F.skipTo x = some F' ∧ F'.Ok ∧ F'.rest = F.rest.filter (fun e => decide (x ≤ e)) ∧
      IsMin F'.currentId F'.rest) ∧
    (∃ F', F.skip x = some F' ∧ F'.Ok ∧ F'.rest = F.rest.filter (fun e => decide (x < e)) ∧
      IsMin F'.currentId F'.rest) := by
  obtain ⟨F1, a1, a2, a3, -⟩ := move_spec (fun c hc => skipTo_rest hc x) h
  obtain ⟨F2, b1, b2, b3, -⟩ := move_spec (fun c hc => skip_rest hc x) h
  exact ⟨⟨F1, a1, a2, a3, a2.min⟩, ⟨F2, b1, b2, b3, b2.min⟩⟩

/-! Non-vacuity: a long list (binary search is really used) and a field over two lists. -/

example : (Cur.mk (List.range 200) 3).Ok := by
  refine ⟨?_, by simp, ?_⟩
  · exact List.Pairwise.imp (fun h => Nat.le_of_lt h) List.pairwise_lt_range
  · intro e he
    have := List.mem_range.1 he
    unfold nullEntry; omega

example : (Cur.mk [2, 4, 4, 9] 0).skipTo 4 = some ⟨[2, 4, 4, 9], 1⟩ ∧
    (Cur.mk [2, 4, 4, 9] 0).skip 4 = some ⟨[2, 4, 4, 9], 3⟩ := by decide +kernel

end Ltio.BoolIndex
