import Verif.Containers.Links

/-
Model of base/queue/linked_list.h (`LinkedList`) and base/queue/double_linked_list.h
(`DoubleLinkedList`), and C29: they behave as sequences.
-/
namespace Ltio.Links

/-! ### LinkedList -/

/-- A `LinkedList` with its memory (linked_list.h:93-133): `root` is the address of `root_`. -/
structure LList where
  heap : Heap
  root : Nat
  size : Nat

/-- `LinkedList()` (linked_list.h:97) in a memory where `root` is a fresh node. -/
def LList.new (h : Heap) (root : Nat) : LList :=
  ⟨(h.setNext root (some root)).setPre root (some root), root, 0⟩

/-- `size_++` on a `size_t`. -/
def szInc (n : Nat) : Nat := (n + 1) % 2 ^ 64

/-- `size_--` on a `size_t`. -/
def szDec (n : Nat) : Nat := (n + 2 ^ 64 - 1) % 2 ^ 64

/-- `Append` (linked_list.h:100-103). -/
def LList.append (l : LList) (e : Nat) : Option LList :=
  (insertBefore l.heap e l.root).map (fun h => { l with heap := h, size := szInc l.size })

/-- `Remove` (linked_list.h:105-108). -/
def LList.remove (l : LList) (e : Nat) : Option LList :=
  (unlink l.heap e).map (fun h => { l with heap := h, size := szDec l.size })

/-- `empty` (linked_list.h:120): `root_.next()` is the root itself. -/
def LList.empty (l : LList) : Bool := l.heap.next l.root == some l.root

/-- `First` (linked_list.h:110). -/
def LList.first (l : LList) : Option Nat := if l.empty then none else l.heap.next l.root

/-- `PopAndRemove` (linked_list.h:112-118): the element, if any; `size_` is not changed. -/
def LList.pop (l : LList) : Option (LList × Option Nat) :=
  match l.first with
  | none => some (l, none)
  | some e => (unlink l.heap e).map (fun h => ({ l with heap := h }, some e))

/-- Iteration: `for (n = head(); n != end(); n = n->next())`. -/
def LList.elems (l : LList) (fuel : Nat) : Option (List Nat) :=
  match l.heap.next l.root with
  | none => none
  | some n => walk l.heap l.root fuel n

/-- The list holds exactly `xs` (its memory is a cycle through them). -/
structure LList.Holds (l : LList) (xs : List Nat) : Prop where
  path : Path l.heap l.root xs l.root
  nodup : (l.root :: xs).Nodup

theorem LList.Holds.root {l : LList} {xs : List Nat} (h : l.Holds xs) : l.root ∉ xs :=
  (List.nodup_cons.1 h.nodup).1

/-- What a user sees of a list with elements `xs`. -/
theorem holds_view (l : LList) (xs : List Nat) (h : l.Holds xs) :
    (∀ fuel, xs.length < fuel → l.elems fuel = some xs) ∧ l.empty = xs.isEmpty ∧
    l.first = xs.head? := by
  have hf := path_first h.path
  have hemp : l.empty = xs.isEmpty := by
    unfold LList.empty
    rw [hf.1]
    cases xs with
    | nil => simp [firstOf]
    | cons x xs =>
      have : x ≠ l.root := fun e => h.root (by simp [e])
      simp [firstOf, this]
  refine ⟨?_, hemp, ?_⟩
  · intro fuel hfu
    obtain ⟨n, h1, h2⟩ := walk_path fuel h.path h.root hfu
    unfold LList.elems
    rw [h1]; exact h2
  · unfold LList.first
    rw [hemp, hf.1]
    cases xs <;> simp [firstOf]

theorem new_holds (h : Heap) (root : Nat) : (LList.new h root).Holds [] := by
  refine ⟨?_, by simp [LList.new]⟩
  simp [LList.new, Path, Linked, Heap.setNext, Heap.setPre]

theorem append_holds (l : LList) (xs : List Nat) (h : l.Holds xs) (e : Nat) (he : e ≠ l.root)
    (hx : e ∉ xs) : ∃ l', l.append e = some l' ∧ l'.Holds (xs ++ [e]) ∧
      l'.root = l.root ∧ l'.size = szInc l.size ∧
      ∀ n, n ≠ l.root → n ≠ e → n ∉ xs →
        l'.heap.next n = l.heap.next n ∧ l'.heap.pre n = l.heap.pre n := by
  obtain ⟨h', h1, h2, h3⟩ := insertBefore_path h.path h.nodup h.root ⟨he, he, hx⟩
  refine ⟨⟨h', l.root, szInc l.size⟩, by unfold LList.append; rw [h1]; rfl, ⟨h2, ?_⟩, rfl, rfl, fun n a b c => h3 n a a b c⟩
  have hn := h.nodup
  simp only [List.nodup_cons, List.mem_append, not_or, List.mem_singleton, List.nodup_append] at hn ⊢
  refine ⟨⟨hn.1, fun e' => he e'.symm⟩, hn.2, by simp, ?_⟩
  intro a ha b hb hab
  exact hx (by rw [← hb, ← hab]; exact ha)

theorem erase_split (ys : List Nat) (e : Nat) (zs : List Nat) (h : e ∉ ys) :
    (ys ++ e :: zs).erase e = ys ++ zs := by
  rw [List.erase_append_right _ h]; simp

theorem unlink_holds (l : LList) (xs : List Nat) (h : l.Holds xs) (e : Nat) (hx : e ∈ xs) :
    ∃ h', unlink l.heap e = some h' ∧ (∀ sz, (⟨h', l.root, sz⟩ : LList).Holds (xs.erase e)) ∧
      h'.next e = none ∧ h'.pre e = none ∧
      ∀ n, n ≠ l.root → n ≠ e → n ∉ xs → h'.next n = l.heap.next n ∧ h'.pre n = l.heap.pre n := by
  obtain ⟨ys, zs, rfl⟩ := List.append_of_mem hx
  have hnd := h.nodup
  have hey : e ∉ ys := by
    have := (List.nodup_append.1 (List.nodup_cons.1 hnd).2).2.2
    exact fun h0 => this e h0 e (by simp) rfl
  obtain ⟨h', h1, h2, h3, h4, h5⟩ := unlink_path h.path hnd h.root
  rw [erase_split ys e zs hey]
  refine ⟨h', h1, ?_, h3, h4, ?_⟩
  · intro sz
    refine ⟨h2, ?_⟩
    refine List.Nodup.sublist ?_ hnd
    exact List.Sublist.cons_cons _ (List.Sublist.append (List.Sublist.refl _) (List.sublist_cons_self _ _))
  · intro n a b c
    apply h5 n a a b
    simp only [List.mem_append, List.mem_cons, not_or] at c ⊢
    exact ⟨c.1, c.2.2⟩

/-! ### C29 for LinkedList -/

/-- The operations a user performs. -/
inductive Op where
  | append (e : Nat)
  | remove (e : Nat)
  | pop

/-- **Specification**: the same operations on a plain list. -/
def specStep (xs : List Nat) : Op → List Nat
  | .append e => xs ++ [e]
  | .remove e => xs.erase e
  | .pop => xs.tail

/-- The user's obligation: append nodes that are in no list, remove nodes that are in this one. -/
def allowed (root : Nat) (xs : List Nat) : Op → Prop
  | .append e => e ≠ root ∧ e ∉ xs
  | .remove e => e ∈ xs
  | .pop => True

/-- One operation of the code. -/
def LList.step (l : LList) : Op → Option LList
  | .append e => l.append e
  | .remove e => l.remove e
  | .pop => l.pop.map (·.1)

/-- All the operations, in order. -/
def LList.run (l : LList) : List Op → Option LList
  | [] => some l
  | o :: os => (l.step o).bind (fun l' => l'.run os)

/-- Every operation is allowed when it is performed. -/
def allAllowed (root : Nat) : List Nat → List Op → Prop
  | _, [] => True
  | xs, o :: os => allowed root xs o ∧ allAllowed root (specStep xs o) os

theorem step_holds (l : LList) (xs : List Nat) (h : l.Holds xs) (o : Op)
    (ho : allowed l.root xs o) :
    ∃ l', l.step o = some l' ∧ l'.Holds (specStep xs o) ∧ l'.root = l.root := by
  cases o with
  | append e =>
    obtain ⟨l', h1, h2, h3, -, -⟩ := append_holds l xs h e ho.1 ho.2
    exact ⟨l', h1, h2, h3⟩
  | remove e =>
    obtain ⟨h', h1, h2, -⟩ := unlink_holds l xs h e ho
    refine ⟨⟨h', l.root, szDec l.size⟩, by show LList.remove l e = _; unfold LList.remove; rw [h1]; rfl, h2 _, rfl⟩
  | pop =>
    have hv := (holds_view l xs h).2.2
    cases xs with
    | nil =>
      have : l.first = none := hv
      exact ⟨l, by show (LList.pop l).map _ = _; unfold LList.pop; rw [this]; rfl, h, rfl⟩
    | cons x xs =>
      have hf : l.first = some x := hv
      obtain ⟨h', h1, h2, -⟩ := unlink_holds l (x :: xs) h x (by simp)
      refine ⟨⟨h', l.root, l.size⟩, by show (LList.pop l).map _ = _; unfold LList.pop; rw [hf]; simp only [h1]; rfl, ?_, rfl⟩
      have := h2 l.size
      simpa [specStep] using this

/-- **C29 (LinkedList).**  After any sequence of appends, removals of members and pops, iterating
the list yields exactly the plain list with the same operations applied, `First` its first element
and `empty` whether it has none; no operation dereferences a null pointer. -/
theorem c29_sequence (h : Heap) (root : Nat) (os : List Op) (ha : allAllowed root [] os) :
    ∃ l', (LList.new h root).run os = some l' ∧
      (∀ fuel, (os.foldl specStep []).length < fuel → l'.elems fuel = some (os.foldl specStep [])) ∧
      l'.first = (os.foldl specStep []).head? ∧ l'.empty = (os.foldl specStep []).isEmpty := by
  have key : ∀ (os : List Op) (l : LList) (xs : List Nat), l.Holds xs → allAllowed l.root xs os →
      ∃ l', l.run os = some l' ∧ l'.Holds (os.foldl specStep xs) := by
    intro os
    induction os with
    | nil => intro l xs hl _; exact ⟨l, rfl, hl⟩
    | cons o os ih =>
      intro l xs hl ho
      obtain ⟨l1, h1, h2, h3⟩ := step_holds l xs hl o ho.1
      obtain ⟨l2, g1, g2⟩ := ih l1 _ h2 (by rw [h3]; exact ho.2)
      exact ⟨l2, by simp [LList.run, h1, g1], g2⟩
  obtain ⟨l', h1, h2⟩ := key os _ [] (new_holds h root) ha
  obtain ⟨v1, v2, v3⟩ := holds_view l' _ h2
  exact ⟨l', h1, v1, v3, v2⟩

/-- **C29 (removal and insertion are local).**  An operation leaves the links of every node that is
not in the list untouched – in particular other lists – and removed nodes are detached. -/
theorem c29_frame (l : LList) (xs : List Nat) (h : l.Holds xs) (e : Nat) :
    (e ≠ l.root → e ∉ xs → ∃ l', l.append e = some l' ∧ ∀ n, n ≠ l.root → n ≠ e → n ∉ xs →
      l'.heap.next n = l.heap.next n ∧ l'.heap.pre n = l.heap.pre n) ∧
    (e ∈ xs → ∃ l', l.remove e = some l' ∧ l'.heap.next e = none ∧ l'.heap.pre e = none ∧
      ∀ n, n ≠ l.root → n ≠ e → n ∉ xs →
        l'.heap.next n = l.heap.next n ∧ l'.heap.pre n = l.heap.pre n) := by
  constructor
  · intro h1 h2
    obtain ⟨l', a, -, -, -, b⟩ := append_holds l xs h e h1 h2
    exact ⟨l', a, b⟩
  · intro hx
    obtain ⟨h', h1, -, h3, h4, h5⟩ := unlink_holds l xs h e hx
    exact ⟨⟨h', l.root, szDec l.size⟩, by unfold LList.remove; rw [h1]; rfl, h3, h4, h5⟩

/-- **C29 (size), without pops**: the reported size is the number of elements. -/
theorem c29_size_partial (h : Heap) (root : Nat) (os : List Op) (ha : allAllowed root [] os)
    (hp : ∀ o ∈ os, o ≠ .pop) (hl : os.length < 2 ^ 64) :
    ∃ l', (LList.new h root).run os = some l' ∧ l'.size = (os.foldl specStep []).length := by
  have key : ∀ (os : List Op) (l : LList) (xs : List Nat), l.Holds xs → l.size = xs.length →
      xs.length + os.length < 2 ^ 64 → allAllowed l.root xs os → (∀ o ∈ os, o ≠ .pop) →
      ∃ l', l.run os = some l' ∧ l'.size = (os.foldl specStep xs).length := by
    intro os
    induction os with
    | nil => intro l xs _ hs _ _ _; exact ⟨l, rfl, hs⟩
    | cons o os ih =>
      intro l xs hl hs hlt ho hno
      simp only [List.length_cons] at hlt
      have hno' : ∀ o ∈ os, o ≠ .pop := fun o' h' => hno o' (by simp [h'])
      cases o with
      | append e =>
        obtain ⟨l1, h1, h2, h3, h4, -⟩ := append_holds l xs hl e ho.1.1 ho.1.2
        obtain ⟨l2, g1, g2⟩ := ih l1 _ h2 (by
            rw [h4, hs, List.length_append]
            unfold szInc
            simp only [List.length_cons, List.length_nil]
            exact Nat.mod_eq_of_lt (by omega))
          (by simp only [List.length_append, List.length_cons, List.length_nil]; omega)
          (by rw [h3]; exact ho.2) hno'
        exact ⟨l2, by simp [LList.run, LList.step, h1, g1], g2⟩
      | remove e =>
        have hx : e ∈ xs := ho.1
        obtain ⟨h', h1, h2, -⟩ := unlink_holds l xs hl e hx
        have hpos : 0 < xs.length := List.length_pos_of_mem hx
        have hle : (xs.erase e).length = xs.length - 1 := List.length_erase_of_mem hx
        obtain ⟨l2, g1, g2⟩ := ih ⟨h', l.root, szDec l.size⟩ _ (h2 _) (by
            show szDec l.size = _
            unfold szDec
            rw [hs, hle]; omega)
          (by rw [hle]; omega) ho.2 hno'
        exact ⟨l2, by simp [LList.run, LList.step, LList.remove, h1, g1], g2⟩
      | pop => exact absurd rfl (hno _ (by simp))
  exact key os _ [] (new_holds h root) rfl (by simpa using hl) ha hp

/-- **C29 violated: `PopAndRemove` does not count down.**  After popping a non-empty list of the
reported size, the reported size is one more than the number of elements. -/
theorem c29_violation_pop_size (l : LList) (x : Nat) (xs : List Nat) (h : l.Holds (x :: xs))
    (hs : l.size = (x :: xs).length) :
    ∃ l', l.pop = some (l', some x) ∧ l'.Holds xs ∧ l'.size = xs.length + 1 := by
  have hf : l.first = some x := (holds_view l _ h).2.2
  obtain ⟨h', h1, h2, -⟩ := unlink_holds l (x :: xs) h x (by simp)
  refine ⟨⟨h', l.root, l.size⟩, by unfold LList.pop; rw [hf]; simp only [h1]; rfl, ?_, ?_⟩
  · have := h2 l.size
    simpa using this
  · simpa using hs

/-! ### DoubleLinkedList -/

/-- A `DoubleLinkedList` in memory (double_linked_list.h:43-127): two sentinels, the size and its
identity; `holder` is a field of the nodes, shared by all lists. -/
structure DList where
  head : Nat
  tail : Nat
  self : Nat
  size : Nat

/-- Memory with the `holder_` field (double_linked_list.h:36-41). -/
structure Mem where
  heap : Heap
  holder : Nat → Option Nat

/-- `Attatched` (double_linked_list.h:68-70). -/
def DList.attached (l : DList) (m : Mem) (n : Nat) : Bool := m.holder n == some l.self

/-- Assigning `holder_`. -/
def Mem.setHolder (m : Mem) (n : Nat) (v : Option Nat) : Mem :=
  { m with holder := fun k => if k = n then v else m.holder k }

/-- `PushBack` (double_linked_list.h:72-83). -/
def DList.pushBack (l : DList) (m : Mem) (n : Nat) : Option (DList × Mem × Bool) :=
  if l.attached m n then some (l, m, false)
  else (insertBefore m.heap n l.tail).map (fun h =>
    ({ l with size := l.size + 1 }, Mem.setHolder { m with heap := h } n (some l.self), true))

/-- `PushFront` (double_linked_list.h:102-113). -/
def DList.pushFront (l : DList) (m : Mem) (n : Nat) : Option (DList × Mem × Bool) :=
  if l.attached m n then some (l, m, false)
  else (insertAfter m.heap n l.head).map (fun h =>
    ({ l with size := l.size + 1 }, Mem.setHolder { m with heap := h } n (some l.self), true))

/-- `Remove` (double_linked_list.h:89-100); the node pointer is not checked for null. -/
def DList.remove (l : DList) (m : Mem) (n : Option Nat) : Option (DList × Mem × Bool) :=
  if l.size = 0 then some (l, m, false)
  else match n with
    | none => none
    | some n =>
      if l.attached m n then
        (unlink m.heap n).map (fun h =>
          ({ l with size := l.size - 1 }, Mem.setHolder { m with heap := h } n none, true))
      else some (l, m, false)

/-- `Front` (double_linked_list.h:87). -/
def DList.front (l : DList) (m : Mem) : Option Nat := if l.size > 0 then m.heap.next l.head else none

/-- `Back` (double_linked_list.h:85). -/
def DList.back (l : DList) (m : Mem) : Option Nat := if l.size > 0 then m.heap.pre l.tail else none

/-- How the destructor's loop ends. -/
inductive Fate where
  | completed (m : Mem)
  | nullDeref
  | stillRunning

/-- The destructor's loop (double_linked_list.h:57-60): `node` moves on through `node->next_` after
`Remove(node)`; the number bounds the iterations. -/
def DList.destroyLoop (l : DList) (m : Mem) : Nat → Option Nat → Fate
  | 0, _ => .stillRunning
  | fuel + 1, node =>
    if node = some l.tail then .completed m
    else match l.remove m node with
      | none => .nullDeref
      | some (l', m', _) =>
        match node with
        | none => .nullDeref
        | some n => l'.destroyLoop m' fuel (m'.heap.next n)

/-- `~DoubleLinkedList` (double_linked_list.h:56-64). -/
def DList.destroy (l : DList) (m : Mem) (fuel : Nat) : Fate :=
  l.destroyLoop m fuel (m.heap.next l.head)

/-- The list holds exactly `xs`. -/
structure DList.Holds (l : DList) (m : Mem) (xs : List Nat) : Prop where
  path : Path m.heap l.head xs l.tail
  nodup : (l.head :: xs).Nodup
  tail : l.tail ∉ xs
  ends : l.head ≠ l.tail
  size : l.size = xs.length
  holder : ∀ n ∈ xs, m.holder n = some l.self

/-- **C29 (DoubleLinkedList): pushing.**  A node that is in no list is added at the back or the
front, the size is the number of elements, and `Front`/`Back` are the ends. -/
theorem c29_double_push (l : DList) (m : Mem) (xs : List Nat) (h : l.Holds m xs) (n : Nat)
    (hn : n ≠ l.head ∧ n ≠ l.tail) (hfree : m.holder n = none) :
    (∃ l' m', l.pushBack m n = some (l', m', true) ∧ l'.Holds m' (xs ++ [n]) ∧
      l'.back m' = some n) ∧
    (∃ l' m', l.pushFront m n = some (l', m', true) ∧ l'.Holds m' (n :: xs) ∧
      l'.front m' = some n) := by
  have hx : n ∉ xs := by
    intro hc
    have := h.holder n hc
    rw [hfree] at this; simp at this
  have hatt : l.attached m n = false := by simp [DList.attached, hfree]
  have hnd : (n :: xs).Nodup := List.nodup_cons.2 ⟨hx, (List.nodup_cons.1 h.nodup).2⟩
  have hhx : l.head ∉ xs := (List.nodup_cons.1 h.nodup).1
  constructor
  · obtain ⟨h', h1, h2, -⟩ := insertBefore_path h.path h.nodup h.tail ⟨hn.1, hn.2, hx⟩
    refine ⟨{ l with size := l.size + 1 }, Mem.setHolder ⟨h', m.holder⟩ n (some l.self),
      by unfold DList.pushBack; simp only [hatt, Bool.false_eq_true, if_false, h1]; rfl,
      ⟨h2, ?_, ?_, h.ends, ?_, ?_⟩, ?_⟩
    · simp only [List.nodup_cons, List.mem_append, not_or, List.mem_singleton, List.nodup_append]
      refine ⟨⟨hhx, fun e => hn.1 e.symm⟩, (List.nodup_cons.1 h.nodup).2, by simp, ?_⟩
      intro a ha b hb hab
      exact hx (by rw [← hb, ← hab]; exact ha)
    · simp only [List.mem_append, not_or, List.mem_singleton]
      exact ⟨h.tail, fun e => hn.2 e.symm⟩
    · simp [h.size]
    · intro k hk
      simp only [Mem.setHolder]
      split
      · rfl
      · rename_i hkn
        rcases List.mem_append.1 hk with hk | hk
        · exact h.holder k hk
        · simp at hk; exact absurd hk hkn
    · unfold DList.back
      rw [if_pos (by show 0 < l.size + 1; omega)]
      have := (path_last h2).2
      have e : lastOf l.head (xs ++ [n]) = n := by
        clear h2 h1 this hx hnd hhx h
        generalize l.head = a
        induction xs generalizing a with
        | nil => rfl
        | cons x xs ih => exact ih x
      rw [e] at this
      exact this
  · obtain ⟨h', h1, h2, -⟩ := insertAfter_path h.path h.nodup h.tail ⟨hn.1, hn.2, hx⟩
    refine ⟨{ l with size := l.size + 1 }, Mem.setHolder ⟨h', m.holder⟩ n (some l.self),
      by unfold DList.pushFront; simp only [hatt, Bool.false_eq_true, if_false, h1]; rfl,
      ⟨h2, ?_, ?_, h.ends, ?_, ?_⟩, ?_⟩
    · refine List.nodup_cons.2 ⟨?_, hnd⟩
      simp only [List.mem_cons, not_or]
      exact ⟨fun e => hn.1 e.symm, hhx⟩
    · simp only [List.mem_cons, not_or]
      exact ⟨fun e => hn.2 e.symm, h.tail⟩
    · simp [h.size]
    · intro k hk
      simp only [Mem.setHolder]
      split
      · rfl
      · rename_i hkn
        rcases List.mem_cons.1 hk with hk | hk
        · exact absurd hk hkn
        · exact h.holder k hk
    · unfold DList.front
      rw [if_pos (by show 0 < l.size + 1; omega)]
      exact h2.1.1

/-- **C29 (DoubleLinkedList): removing.**  A member is removed and detached; anything else
(including nodes already in the list for a push) is refused without change. -/
theorem c29_double_remove (l : DList) (m : Mem) (xs : List Nat) (h : l.Holds m xs) (n : Nat) :
    (n ∈ xs → ∃ l' m', l.remove m (some n) = some (l', m', true) ∧ l'.Holds m' (xs.erase n) ∧
      m'.holder n = none ∧ m'.heap.next n = none ∧ m'.heap.pre n = none) ∧
    (m.holder n ≠ some l.self → l.remove m (some n) = some (l, m, false)) ∧
    (n ∈ xs → l.pushBack m n = some (l, m, false) ∧ l.pushFront m n = some (l, m, false)) := by
  refine ⟨?_, ?_, ?_⟩
  · intro hx
    have hpos : 0 < xs.length := List.length_pos_of_mem hx
    have hatt : l.attached m n = true := by simp [DList.attached, h.holder n hx]
    have hsz : ¬ l.size = 0 := by rw [h.size]; omega
    obtain ⟨ys, zs, rfl⟩ := List.append_of_mem hx
    have hey : n ∉ ys := by
      have := (List.nodup_append.1 (List.nodup_cons.1 h.nodup).2).2.2
      exact fun h0 => this n h0 n (by simp) rfl
    have hez : n ∉ zs := by
      have := (List.nodup_append.1 (List.nodup_cons.1 h.nodup).2).2.1
      exact (List.nodup_cons.1 this).1
    obtain ⟨h', h1, h2, h3, h4, h5⟩ := unlink_path h.path h.nodup h.tail
    have hsub : List.Sublist (ys ++ zs) (ys ++ n :: zs) :=
      List.Sublist.append (List.Sublist.refl _) (List.sublist_cons_self _ _)
    rw [erase_split ys n zs hey]
    refine ⟨{ l with size := l.size - 1 }, Mem.setHolder ⟨h', m.holder⟩ n none,
      by unfold DList.remove; simp only [hsz, hatt, if_false, if_true, h1]; rfl,
      ⟨h2, ?_, ?_, h.ends, ?_, ?_⟩, by simp [Mem.setHolder], h3, h4⟩
    · exact List.Nodup.sublist (List.Sublist.cons_cons _ hsub) h.nodup
    · exact fun hc => h.tail (hsub.subset hc)
    · show l.size - 1 = _
      rw [h.size]; simp
    · intro k hk
      have hkn : k ≠ n := by
        rintro rfl
        rcases List.mem_append.1 hk with hk | hk
        · exact hey hk
        · exact hez hk
      simp only [Mem.setHolder, hkn, if_false]
      exact h.holder k (hsub.subset hk)
  · intro hne
    have hatt : l.attached m n = false := by simpa [DList.attached] using hne
    unfold DList.remove
    by_cases hs : l.size = 0
    · simp [hs]
    · simp [hs, hatt]
  · intro hx
    have hatt : l.attached m n = true := by simp [DList.attached, h.holder n hx]
    simp [DList.pushBack, DList.pushFront, hatt]

/-- **C29 violated: destroying a non-empty DoubleLinkedList** of any number of
elements dereferences a null pointer: after `Remove` of the first one its `next_` is null, so the
loop never meets the end, whatever its length. -/
theorem c29_violation_destructor (l : DList) (m : Mem) (x : Nat) (xs : List Nat)
    (h : l.Holds m (x :: xs)) : ∀ fuel, l.destroy m (fuel + 2) = .nullDeref := by
  intro fuel
  obtain ⟨l', m', h1, h2, h3, h4, h5⟩ := (c29_double_remove l m _ h x).1 (by simp)
  have hne : some x ≠ some l.tail := by
    intro e
    simp only [Option.some.injEq] at e
    exact h.tail (by simp [← e])
  have : ¬ (none : Option Nat) = some l'.tail := by simp
  unfold DList.destroy
  rw [h.path.1.1]
  simp only [DList.destroyLoop, hne, if_false, h1, h4, this]
  cases l'.remove m' none with
  | none => rfl
  | some r => rfl

/-- **C29 (destroying an empty list is fine).** -/
theorem c29_destroy_empty (l : DList) (m : Mem) (h : l.Holds m []) :
    ∀ fuel, l.destroy m (fuel + 1) = .completed m := by
  intro fuel
  unfold DList.destroy
  rw [h.path.1]
  simp [DList.destroyLoop]

/-- **C29 violated: pushing a node that is in another list** succeeds and breaks that list: it
still reports its size, but walking it from the front ends in the other list's end. -/
theorem c29_violation_steal (l k : DList) (m : Mem) (x : Nat) (xs ys : List Nat)
    (h : l.Holds m (x :: xs)) (g : k.Holds m ys) (hlk : l.self ≠ k.self)
    (hxk : x ≠ k.head ∧ x ≠ k.tail) (hh : l.head ≠ k.tail ∧ l.head ≠ k.head ∧ l.head ∉ ys)
    (hxy : x ∉ ys) :
    ∃ k' m', k.pushBack m x = some (k', m', true) ∧ k'.Holds m' (ys ++ [x]) ∧
      l.front m' = some x ∧ l.size = (x :: xs).length ∧ m'.heap.next x = some k.tail := by
  have hatt : k.attached m x = false := by
    have := h.holder x (by simp)
    simp only [DList.attached, this]
    simpa using hlk
  obtain ⟨h', h1, h2, h3⟩ := insertBefore_path g.path g.nodup g.tail ⟨hxk.1, hxk.2, hxy⟩
  have hlx : l.head ≠ x := by
    have := (List.nodup_cons.1 h.nodup).1
    intro e; exact this (by simp [e])
  refine ⟨{ k with size := k.size + 1 }, Mem.setHolder ⟨h', m.holder⟩ x (some k.self),
    by unfold DList.pushBack; simp only [hatt, Bool.false_eq_true, if_false, h1]; rfl,
    ⟨h2, ?_, ?_, g.ends, ?_, ?_⟩, ?_, h.size, ?_⟩
  · simp only [List.nodup_cons, List.mem_append, not_or, List.mem_singleton, List.nodup_append]
    refine ⟨⟨(List.nodup_cons.1 g.nodup).1, fun e => hxk.1 e.symm⟩, (List.nodup_cons.1 g.nodup).2,
      by simp, ?_⟩
    intro a ha b hb hab
    exact hxy (by rw [← hb, ← hab]; exact ha)
  · simp only [List.mem_append, not_or, List.mem_singleton]
    exact ⟨g.tail, fun e => hxk.2 e.symm⟩
  · simp [g.size]
  · intro j hj
    simp only [Mem.setHolder]
    split
    · rfl
    · rename_i hjx
      rcases List.mem_append.1 hj with hj | hj
      · exact g.holder j hj
      · simp at hj; exact absurd hj hjx
  · unfold DList.front
    have hpos : l.size > 0 := by rw [h.size]; simp
    rw [if_pos hpos]
    show h'.next l.head = some x
    rw [(h3 l.head hh.2.1 hh.1 hlx hh.2.2).1]
    exact h.path.1.1
  · have := ((path_append h' x [] k.tail ys k.head).1 h2).2
    exact this.1

/-! ### Concrete cases -/

/-- A freshly constructed `DoubleLinkedList` (double_linked_list.h:46-54) holds nothing. -/
theorem new_dlist_holds (m : Mem) (head tail self : Nat) (hne : head ≠ tail) :
    (⟨head, tail, self, 0⟩ : DList).Holds
      { m with heap := (((m.heap.setPre tail (some head)).setNext head (some tail)).setPre head
          none).setNext tail none } [] := by
  refine ⟨?_, by simp, by simp, hne, rfl, by simp⟩
  simp [Path, Linked, Heap.setNext, Heap.setPre, hne, hne.symm]

/-- So the hypotheses of the violation theorems are met: two lists, one node pushed into each. -/
example : ∃ (l k : DList) (m : Mem) (x : Nat) (xs ys : List Nat), l.Holds m (x :: xs) ∧
    k.Holds m ys ∧ l.self ≠ k.self ∧ (x ≠ k.head ∧ x ≠ k.tail) ∧
    (l.head ≠ k.tail ∧ l.head ≠ k.head ∧ l.head ∉ ys) ∧ x ∉ ys := by
  let hp : Heap := ⟨fun n => match n with | 0 => some 4 | 4 => some 1 | 2 => some 5 | 5 => some 3 | _ => none,
    fun n => match n with | 4 => some 0 | 1 => some 4 | 5 => some 2 | 3 => some 5 | _ => none⟩
  let m : Mem := ⟨hp, fun n => match n with | 4 => some 10 | 5 => some 20 | _ => none⟩
  refine ⟨⟨0, 1, 10, 1⟩, ⟨2, 3, 20, 1⟩, m, 4, [], [5], ⟨?_, by simp, by simp, by simp, rfl, ?_⟩,
    ⟨?_, by simp, by simp, by simp, rfl, ?_⟩, by simp, by simp, by simp, by simp⟩
  · simp [Path, Linked, m, hp]
  · simp [m]
  · simp [Path, Linked, m, hp]
  · simp [m]

example : allAllowed 0 [] [.append 5, .append 7, .remove 5, .pop, .pop, .append 5] := by
  simp [allAllowed, allowed, specStep]

end Ltio.Links
