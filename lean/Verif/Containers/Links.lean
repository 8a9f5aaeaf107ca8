/-
Doubly linked memory and the three pointer updates used by base/queue/linked_list.h and
base/queue/double_linked_list.h, with the lemmas relating them to lists.
-/
namespace Ltio.Links

/-- Nodes are addresses; `none` is the null pointer. -/
structure Heap where
  next : Nat → Option Nat
  pre : Nat → Option Nat

/-- `n->next_ = v`. -/
def Heap.setNext (h : Heap) (n : Nat) (v : Option Nat) : Heap :=
  { h with next := fun m => if m = n then v else h.next m }

/-- `n->pre_ = v`. -/
def Heap.setPre (h : Heap) (n : Nat) (v : Option Nat) : Heap :=
  { h with pre := fun m => if m = n then v else h.pre m }

/-- `a` and `b` are linked in both directions. -/
def Linked (h : Heap) (a b : Nat) : Prop := h.next a = some b ∧ h.pre b = some a

/-- The nodes `xs` lie between `a` and `b`, linked in both directions. -/
def Path (h : Heap) : Nat → List Nat → Nat → Prop
  | a, [], b => Linked h a b
  | a, x :: xs, b => Linked h a x ∧ Path h x xs b

theorem path_append (h : Heap) (y : Nat) (ys : List Nat) (b : Nat) : ∀ (xs : List Nat) (a : Nat),
    Path h a (xs ++ y :: ys) b ↔ Path h a xs y ∧ Path h y ys b := by
  intro xs
  induction xs with
  | nil => intro a; rfl
  | cons x xs ih =>
    intro a
    simp only [List.cons_append, Path, ih, and_assoc]

/-- The last node before the end. -/
def lastOf (a : Nat) : List Nat → Nat
  | [] => a
  | x :: xs => lastOf x xs

/-- The first node, or the end. -/
def firstOf (b : Nat) : List Nat → Nat
  | [] => b
  | x :: _ => x

theorem lastOf_mem (a : Nat) : ∀ (xs : List Nat), lastOf a xs = a ∧ xs = [] ∨ lastOf a xs ∈ xs := by
  intro xs
  induction xs generalizing a with
  | nil => exact Or.inl ⟨rfl, rfl⟩
  | cons x xs ih =>
    right
    simp only [lastOf, List.mem_cons]
    rcases ih x with h | h
    · exact Or.inl h.1
    · exact Or.inr h

theorem path_last {h : Heap} {b : Nat} : ∀ {xs : List Nat} {a : Nat}, Path h a xs b →
    Linked h (lastOf a xs) b := by
  intro xs
  induction xs with
  | nil => intro a hp; exact hp
  | cons x xs ih => intro a hp; exact ih hp.2

theorem path_first {h : Heap} {b : Nat} : ∀ {xs : List Nat} {a : Nat}, Path h a xs b →
    Linked h a (firstOf b xs) := by
  intro xs a hp
  cases xs with
  | nil => exact hp
  | cons x xs => exact hp.1

theorem path_congr {h h' : Heap} {b : Nat} : ∀ {xs : List Nat} {a : Nat}, Path h a xs b →
    (∀ n, n = a ∨ n ∈ xs → h'.next n = h.next n) → (∀ n, n = b ∨ n ∈ xs → h'.pre n = h.pre n) →
    Path h' a xs b := by
  intro xs
  induction xs with
  | nil =>
    intro a hp hn hq
    exact ⟨by rw [hn a (Or.inl rfl)]; exact hp.1, by rw [hq b (Or.inl rfl)]; exact hp.2⟩
  | cons x xs ih =>
    intro a hp hn hq
    refine ⟨⟨by rw [hn a (Or.inl rfl)]; exact hp.1.1, by rw [hq x (Or.inr (by simp))]; exact hp.1.2⟩, ?_⟩
    apply ih hp.2
    · rintro n (rfl | hm)
      · exact hn _ (Or.inr (by simp))
      · exact hn _ (Or.inr (by simp [hm]))
    · rintro n (rfl | hm)
      · exact hq _ (Or.inl rfl)
      · exact hq _ (Or.inr (by simp [hm]))

/-- A path with its last link bent to another end. -/
theorem path_retarget {h h' : Heap} {b c : Nat} : ∀ {xs : List Nat} {a : Nat}, Path h a xs b →
    (∀ n, (n = a ∨ n ∈ xs) → n ≠ lastOf a xs → h'.next n = h.next n) →
    (∀ n ∈ xs, h'.pre n = h.pre n) → Linked h' (lastOf a xs) c → (a :: xs).Nodup →
    Path h' a xs c := by
  intro xs
  induction xs with
  | nil => intro a _ _ _ hl _; exact hl
  | cons x xs ih =>
    intro a hp hn hq hl hnd
    have hax : a ≠ lastOf x xs := by
      intro e
      have : a ∉ x :: xs := (List.nodup_cons.1 hnd).1
      rcases lastOf_mem x xs with h | h
      · apply this; rw [e, h.1]; simp
      · apply this; rw [e]; simp [h]
    refine ⟨⟨by rw [hn a (Or.inl rfl) hax]; exact hp.1.1, by rw [hq x (by simp)]; exact hp.1.2⟩, ?_⟩
    refine ih hp.2 ?_ (fun n hm => hq n (by simp [hm])) hl (List.nodup_cons.1 hnd).2
    rintro n (rfl | hm) hne
    · exact hn _ (Or.inr (by simp)) hne
    · exact hn _ (Or.inr (by simp [hm])) hne

/-- Insert `e` before `b` (`InsertBefore`, linked_list.h:53-58; `PushBack`,
double_linked_list.h:77-80): `p = b->pre_`. -/
def insertBefore (h : Heap) (e b : Nat) : Option Heap :=
  match h.pre b with
  | none => none
  | some p => some ((((h.setNext e (some b)).setPre e (some p)).setNext p (some e)).setPre b (some e))

/-- Insert `e` after `a` (`InsertAfter`, linked_list.h:61-66; `PushFront`,
double_linked_list.h:109-112). -/
def insertAfter (h : Heap) (e a : Nat) : Option Heap :=
  match h.next a with
  | none => none
  | some q => some ((((h.setNext e (some q)).setPre e (some a)).setPre q (some e)).setNext a (some e))

/-- Unlink `e` (`RemoveFromList`, linked_list.h:69-76; `Remove`, double_linked_list.h:95-98). -/
def unlink (h : Heap) (e : Nat) : Option Heap :=
  match h.pre e, h.next e with
  | some p, some q =>
    some ((((h.setNext p (some q)).setPre q (some p)).setNext e none).setPre e none)
  | _, _ => none

theorem insertBefore_path {h : Heap} {a b e : Nat} {xs : List Nat} (hp : Path h a xs b)
    (hnd : (a :: xs).Nodup) (hb : b ∉ xs) (he : e ≠ a ∧ e ≠ b ∧ e ∉ xs) :
    ∃ h', insertBefore h e b = some h' ∧ Path h' a (xs ++ [e]) b ∧
      ∀ n, n ≠ a → n ≠ b → n ≠ e → n ∉ xs → h'.next n = h.next n ∧ h'.pre n = h.pre n := by
  have hl := path_last hp
  have hle : lastOf a xs ≠ e := by
    intro hh
    rcases lastOf_mem a xs with h1 | h1
    · exact he.1 (by rw [← hh, h1.1])
    · exact he.2.2 (by rw [← hh]; exact h1)
  refine ⟨_, by unfold insertBefore; rw [hl.2], ?_, ?_⟩
  · rw [path_append]
    constructor
    · refine path_retarget hp ?_ ?_ ?_ hnd
      · intro n hn hne
        have hne' : n ≠ e := by
          rintro rfl
          rcases hn with h1 | h1
          · exact he.1 h1
          · exact he.2.2 h1
        simp [Heap.setNext, Heap.setPre, hne, hne']
      · intro n hn
        have h1 : n ≠ e := fun hh => he.2.2 (hh ▸ hn)
        have h2 : n ≠ b := fun hh => hb (hh ▸ hn)
        simp [Heap.setNext, Heap.setPre, h1, h2]
      · have : e ≠ b := he.2.1
        simp [Linked, Heap.setNext, Heap.setPre, this]
    · have : e ≠ lastOf a xs := fun hh => hle hh.symm
      simp [Path, Linked, Heap.setNext, Heap.setPre, this]
  · intro n h1 h2 h3 h4
    have h5 : n ≠ lastOf a xs := by
      intro hh
      rcases lastOf_mem a xs with h6 | h6
      · exact h1 (by rw [hh, h6.1])
      · exact h4 (by rw [hh]; exact h6)
    simp [Heap.setNext, Heap.setPre, h2, h3, h5]

theorem insertAfter_path {h : Heap} {a b e : Nat} {xs : List Nat} (hp : Path h a xs b)
    (hnd : (a :: xs).Nodup) (hb : b ∉ xs) (he : e ≠ a ∧ e ≠ b ∧ e ∉ xs) :
    ∃ h', insertAfter h e a = some h' ∧ Path h' a (e :: xs) b ∧
      ∀ n, n ≠ a → n ≠ b → n ≠ e → n ∉ xs → h'.next n = h.next n ∧ h'.pre n = h.pre n := by
  have hl := path_first hp
  have hax : a ∉ xs := (List.nodup_cons.1 hnd).1
  have hfe : firstOf b xs ≠ e := by
    cases xs with
    | nil => exact fun hh => he.2.1 hh.symm
    | cons x xs => intro hh; apply he.2.2; rw [← hh]; simp [firstOf]
  refine ⟨_, by unfold insertAfter; rw [hl.1], ?_, ?_⟩
  · refine ⟨?_, ?_⟩
    · have h1 : e ≠ firstOf b xs := fun hh => hfe hh.symm
      simp [Linked, Heap.setNext, Heap.setPre, h1]
    · have h2 : e ≠ a := he.1
      cases xs with
      | nil => simp [Path, Linked, Heap.setNext, Heap.setPre, firstOf, h2]
      | cons x xs =>
        have hxa : x ≠ a := fun hh => hax (by simp [hh])
        refine ⟨?_, ?_⟩
        · simp [Linked, Heap.setNext, Heap.setPre, firstOf, h2]
        · refine path_congr hp.2 ?_ ?_
          · intro n hn
            have h3 : n ≠ e := by
              rintro rfl
              rcases hn with h4 | h4
              · exact he.2.2 (by simp [h4])
              · exact he.2.2 (by simp [h4])
            have h5 : n ≠ a := by
              rintro rfl
              rcases hn with h4 | h4
              · exact hxa h4.symm
              · exact hax (by simp [h4])
            simp [Heap.setNext, Heap.setPre, h3, h5]
          · intro n hn
            have hxnd : x ∉ xs := (List.nodup_cons.1 (List.nodup_cons.1 hnd).2).1
            have h3 : n ≠ e := by
              rintro rfl
              rcases hn with h4 | h4
              · exact he.2.1 h4
              · exact he.2.2 (by simp [h4])
            have h5 : n ≠ x := by
              rintro rfl
              rcases hn with h4 | h4
              · exact hb (by simp [h4])
              · exact hxnd h4
            simp [Heap.setNext, Heap.setPre, firstOf, h3, h5]
  · intro n h1 h2 h3 h4
    have h5 : n ≠ firstOf b xs := by
      cases xs with
      | nil => exact h2
      | cons x xs => intro hh; apply h4; rw [hh]; simp [firstOf]
    simp [Heap.setNext, Heap.setPre, h1, h3, h5]

theorem unlink_path {h : Heap} {a b e : Nat} {ys zs : List Nat} (hp : Path h a (ys ++ e :: zs) b)
    (hnd : (a :: (ys ++ e :: zs)).Nodup) (hb : b ∉ ys ++ e :: zs) :
    ∃ h', unlink h e = some h' ∧ Path h' a (ys ++ zs) b ∧ h'.next e = none ∧ h'.pre e = none ∧
      ∀ n, n ≠ a → n ≠ b → n ≠ e → n ∉ ys ++ zs → h'.next n = h.next n ∧ h'.pre n = h.pre n := by
  rw [path_append] at hp
  obtain ⟨hp1, hp2⟩ := hp
  have hl := path_last hp1
  have hf := path_first hp2
  have hnd2 := List.nodup_cons.1 hnd
  have hnd3 := List.nodup_append.1 hnd2.2
  have hez : e ∉ zs := (List.nodup_cons.1 hnd3.2.1).1
  have hey : e ∉ ys := fun h0 => hnd3.2.2 e h0 e (by simp) rfl
  have hea : e ≠ a := by rintro rfl; exact hnd2.1 (by simp)
  have heb : e ≠ b := by rintro rfl; exact hb (by simp)
  have hpe : lastOf a ys ≠ e := by
    intro hh
    rcases lastOf_mem a ys with h1 | h1
    · exact hea (by rw [← hh, h1.1])
    · exact hey (by rw [← hh]; exact h1)
  have hqe : firstOf b zs ≠ e := by
    cases zs with
    | nil => exact fun hh => heb hh.symm
    | cons z zs => intro hh; apply hez; rw [← hh]; simp [firstOf]
  have hndy : (a :: ys).Nodup := by
    rw [List.nodup_cons]
    exact ⟨fun h0 => hnd2.1 (by simp [h0]), hnd3.1⟩
  refine ⟨_, by unfold unlink; rw [hl.2, hf.1], ?_, by simp [Heap.setNext, Heap.setPre],
    by simp [Heap.setPre], ?_⟩
  · -- the part up to the predecessor, bent to the successor
    have key : ∀ c, c = firstOf b zs → (∀ n ∈ ys, n ≠ c) → Path
        ((((h.setNext (lastOf a ys) (some (firstOf b zs))).setPre (firstOf b zs)
          (some (lastOf a ys))).setNext e none).setPre e none) a ys c := by
      intro c hc hyc
      refine path_retarget hp1 ?_ ?_ ?_ hndy
      · intro n hn hne
        have hne' : n ≠ e := by
          rintro rfl
          rcases hn with h1 | h1
          · exact hea h1
          · exact hey h1
        simp [Heap.setNext, Heap.setPre, hne, hne']
      · intro n hn
        have h1 : n ≠ e := fun hh => hey (hh ▸ hn)
        have h2 : n ≠ firstOf b zs := by rw [← hc]; exact hyc n hn
        simp [Heap.setNext, Heap.setPre, h1, h2]
      · have h3 : firstOf b zs ≠ e := hqe
        simp [Linked, Heap.setNext, Heap.setPre, hpe, hc, h3]
    cases zs with
    | nil =>
      rw [List.append_nil]
      exact key b rfl (fun n hn hh => hb (by simp [← hh, hn]))
    | cons z zs =>
      rw [path_append]
      have hzy : ∀ n ∈ ys, n ≠ z := fun n hn hh => hnd3.2.2 n hn z (by simp) hh
      refine ⟨key z rfl hzy, ?_⟩
      have hzz : z ∉ zs := (List.nodup_cons.1 (List.nodup_cons.1 hnd3.2.1).2).1
      refine path_congr hp2.2 ?_ ?_
      · intro n hn
        have hmem : n ∈ z :: zs := by simpa using hn
        have h1 : n ≠ e := fun hh => hez (hh ▸ hmem)
        have h2 : n ≠ lastOf a ys := by
          intro hh
          rcases lastOf_mem a ys with h3 | h3
          · apply hnd2.1
            have : a ∈ z :: zs := by rw [← h3.1, ← hh]; exact hmem
            simp only [List.mem_append, List.mem_cons] at this ⊢
            exact Or.inr (Or.inr this)
          · exact hnd3.2.2 n (by rw [hh]; exact h3) n (List.mem_cons_of_mem _ hmem) rfl
        simp [Heap.setNext, Heap.setPre, h1, h2]
      · intro n hn
        have h1 : n ≠ e := by
          rintro rfl
          rcases hn with h3 | h3
          · exact heb h3
          · exact hez (by simp [h3])
        have h2 : n ≠ z := by
          rintro rfl
          rcases hn with h3 | h3
          · exact hb (by simp [h3])
          · exact hzz h3
        simp [Heap.setNext, Heap.setPre, firstOf, h1, h2]
  · intro n h1 h2 h3 h4
    have h5 : n ≠ lastOf a ys := by
      intro hh
      rcases lastOf_mem a ys with h6 | h6
      · exact h1 (by rw [hh, h6.1])
      · exact h4 (by rw [hh]; simp [h6])
    have h6 : n ≠ firstOf b zs := by
      cases zs with
      | nil => exact h2
      | cons z zs => intro hh; apply h4; rw [hh]; simp [firstOf]
    simp [Heap.setNext, Heap.setPre, h3, h5, h6]

/-- Following `next` from `n` until `stop` (at most `fuel` steps). -/
def walk (h : Heap) (stop : Nat) : Nat → Nat → Option (List Nat)
  | 0, _ => none
  | fuel + 1, n =>
    if n = stop then some []
    else match h.next n with
      | none => none
      | some m => (walk h stop fuel m).map (n :: ·)

theorem walk_path {h : Heap} {b : Nat} : ∀ {xs : List Nat} {a : Nat} (fuel : Nat), Path h a xs b →
    b ∉ xs → xs.length < fuel → ∃ n, h.next a = some n ∧ walk h b fuel n = some xs := by
  intro xs
  induction xs with
  | nil =>
    intro a fuel hp _ hf
    refine ⟨b, hp.1, ?_⟩
    cases fuel with
    | zero => simp at hf
    | succ fuel => simp [walk]
  | cons x xs ih =>
    intro a fuel hp hb hf
    cases fuel with
    | zero => simp at hf
    | succ fuel =>
      simp only [List.mem_cons, not_or] at hb
      obtain ⟨m, h1, h2⟩ := ih fuel hp.2 hb.2 (by simpa using hf)
      refine ⟨x, hp.1.1, ?_⟩
      rw [walk, if_neg (fun e => hb.1 e.symm), h1]
      simp [h2]

/-- Following `pre` from `n` until `stop`. -/
def walkBack (h : Heap) (stop : Nat) : Nat → Nat → Option (List Nat)
  | 0, _ => none
  | fuel + 1, n =>
    if n = stop then some []
    else match h.pre n with
      | none => none
      | some m => (walkBack h stop fuel m).map (n :: ·)

/-- The mirror image of a heap. -/
def Heap.flip (h : Heap) : Heap := ⟨h.pre, h.next⟩

theorem path_flip {h : Heap} : ∀ {xs : List Nat} {a b : Nat}, Path h a xs b →
    Path h.flip b xs.reverse a := by
  intro xs
  induction xs with
  | nil => intro a b hp; exact ⟨hp.2, hp.1⟩
  | cons x xs ih =>
    intro a b hp
    rw [List.reverse_cons, path_append]
    exact ⟨ih hp.2, ⟨hp.1.2, hp.1.1⟩⟩

theorem walkBack_eq (h : Heap) (stop : Nat) : ∀ (fuel n : Nat),
    walkBack h stop fuel n = walk h.flip stop fuel n := by
  intro fuel
  induction fuel with
  | zero => intro n; rfl
  | succ fuel ih =>
    intro n
    simp only [walkBack, walk, ih]
    rfl

end Ltio.Links
