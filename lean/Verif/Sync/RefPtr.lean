import Verif.Sync.Basic

/-
Model of base/memory/refcountedobject.h and base/memory/scoped_ref_ptr.h (C83): objects with an
atomic reference count, and smart pointers to them held by any number of threads.

A slot is one `scoped_refptr` variable; it is used by one thread at a time (it is not thread safe
itself), different slots are used concurrently.  `AddRef` and `Release` are atomic steps
(`__sync_add_and_fetch`, `__sync_sub_and_fetch`); an assignment is three steps, between which other
slots move.  The `int` count is modelled as unbounded (fewer than 2^31 references).
-/
namespace Ltio.Sync.RefPtr

/-- A smart pointer variable: at rest, or inside `operator=(T*)` (scoped_ref_ptr.h:103-111) after the
`AddRef` of the new pointer, or after the `Release` of the old one. -/
inductive Slot where
  | rest (v : Option Nat)
  | added (old new : Option Nat)
  | released (new : Option Nat)
deriving DecidableEq

/-- Objects and smart pointers. -/
structure St where
  slot : Nat → Slot
  /-- `ref_count_` of an object -/
  rc : Nat → Nat
  /-- how often an object has been deleted -/
  del : Nat → Nat
  /-- references a user holds as plain pointers: after `release()`, or by calling `AddRef` -/
  raw : Nat → Nat
  /-- has the object ever been referenced? (ghost) -/
  ever : Nat → Bool

/-- All pointers null, all objects newly created (refcountedobject.h:55). -/
def init : St := ⟨fun _ => .rest none, fun _ => 0, fun _ => 0, fun _ => 0, fun _ => false⟩

/-- What can happen. -/
inductive Lab where
  /-- construct or assign from a plain pointer: lines 61-64 -/
  | ctor (k : Nat) (p : Nat)
  /-- copy construction, lines 66-75 -/
  | copy (k j : Nat)
  /-- move construction, lines 78-81 -/
  | move (k j : Nat)
  /-- destruction, lines 83-86 -/
  | dtor (k : Nat)
  /-- `operator=(T*)`, first step: `AddRef` of the new pointer -/
  | assign (k : Nat) (p : Option Nat)
  /-- copy assignment, first step -/
  | assignFrom (k j : Nat)
  /-- `operator=(T*)`, second step: `Release` of the old pointer -/
  | assignRel (k : Nat)
  /-- `operator=(T*)`, last step: store the pointer -/
  | assignSet (k : Nat)
  /-- move assignment, lines 122-131 -/
  | moveAssign (k j : Nat)
  /-- `swap`, lines 133-139 -/
  | swap (k j : Nat)
  /-- `release()`, lines 97-101: the reference is the user's now -/
  | release (k : Nat)
  /-- a user who holds a reference as a plain pointer calls `AddRef` -/
  | addRef (p : Nat)
  /-- a user gives up a reference held as a plain pointer: `Release` -/
  | rawRelease (p : Nat)
deriving DecidableEq

/-- Store a slot. -/
def St.setSlot (s : St) (k : Nat) (v : Slot) : St := ⟨put s.slot k v, s.rc, s.del, s.raw, s.ever⟩

/-- `AddRef` (refcountedobject.h:39), nothing for a null pointer. -/
def St.inc (s : St) : Option Nat → St
  | none => s
  | some p => ⟨s.slot, put s.rc p (s.rc p + 1), s.del, s.raw, put s.ever p true⟩

/-- `Release` (refcountedobject.h:41-47): deletes the object when the count is zero. -/
def St.dec (s : St) : Option Nat → St
  | none => s
  | some p => ⟨s.slot, put s.rc p (s.rc p - 1),
      put s.del p (if s.rc p - 1 = 0 then s.del p + 1 else s.del p), s.raw, s.ever⟩

/-- A plain pointer may be used: null, or to an object that is not deleted. -/
def St.usable (s : St) : Option Nat → Bool
  | none => true
  | some p => s.del p == 0

/-- Change of the number of references held as plain pointers. -/
def St.setRaw (s : St) (p v : Nat) : St := ⟨s.slot, s.rc, s.del, put s.raw p v, s.ever⟩

/-- The reference of `release()` becomes the user's. -/
def St.giveRaw (s : St) : Option Nat → St
  | none => s
  | some p => s.setRaw p (s.raw p + 1)

/-- The value of a slot at rest. -/
def Slot.val : Slot → Option (Option Nat)
  | .rest v => some v
  | _ => none

/-- One step, with `N` slots.  A plain pointer that is passed in must not be to a deleted object. -/
def step (N : Nat) (s : St) : Lab → Option St
  | .ctor k p =>
    if k < N ∧ s.slot k = .rest none ∧ s.usable (some p) = true then
      some ((s.inc (some p)).setSlot k (.rest (some p))) else none
  | .copy k j =>
    match s.slot j with
    | .rest v => if k < N ∧ j < N ∧ s.slot k = .rest none then some ((s.inc v).setSlot k (.rest v)) else none
    | _ => none
  | .move k j =>
    match s.slot j with
    | .rest v =>
      if k < N ∧ j < N ∧ s.slot k = .rest none then
        some ((s.setSlot j (.rest none)).setSlot k (.rest v)) else none
    | _ => none
  | .dtor k =>
    match s.slot k with
    | .rest v => if k < N then some ((s.setSlot k (.rest none)).dec v) else none
    | _ => none
  | .assign k p =>
    match s.slot k with
    | .rest v => if k < N ∧ s.usable p = true then some ((s.inc p).setSlot k (.added v p)) else none
    | _ => none
  | .assignFrom k j =>
    match s.slot k, s.slot j with
    | .rest v, .rest p => if k < N ∧ j < N then some ((s.inc p).setSlot k (.added v p)) else none
    | _, _ => none
  | .assignRel k =>
    match s.slot k with
    | .added old p => if k < N then some ((s.setSlot k (.released p)).dec old) else none
    | _ => none
  | .assignSet k =>
    match s.slot k with
    | .released p => if k < N then some (s.setSlot k (.rest p)) else none
    | _ => none
  | .moveAssign k j =>
    match s.slot k, s.slot j with
    | .rest v, .rest p =>
      if k < N ∧ j < N then
        if k = j then some s
        else some (((s.setSlot j (.rest none)).setSlot k (.rest p)).dec v)
      else none
    | _, _ => none
  | .swap k j =>
    match s.slot k, s.slot j with
    | .rest v, .rest p =>
      if k < N ∧ j < N then some ((s.setSlot j (.rest v)).setSlot k (.rest p)) else none
    | _, _ => none
  | .release k =>
    match s.slot k with
    | .rest v => if k < N then some ((s.setSlot k (.rest none)).giveRaw v) else none
    | _ => none
  | .addRef p =>
    if s.usable (some p) = true then some ((s.inc (some p)).setRaw p (s.raw p + 1)) else none
  | .rawRelease p =>
    if 0 < s.raw p then some ((s.setRaw p (s.raw p - 1)).dec (some p)) else none

/-- How many references to `o` a slot holds. -/
def Slot.own : Slot → Nat → Nat
  | .rest v, o => if v = some o then 1 else 0
  | .added a b, o => (if a = some o then 1 else 0) + (if b = some o then 1 else 0)
  | .released v, o => if v = some o then 1 else 0

/-- How many references the first `N` slots hold. -/
def owns (f : Nat → Slot) (o : Nat) : Nat → Nat
  | 0 => 0
  | N + 1 => owns f o N + (f N).own o

theorem owns_put_ge (f : Nat → Slot) (o k : Nat) (v : Slot) :
    ∀ N, N ≤ k → owns (put f k v) o N = owns f o N := by
  intro N
  induction N with
  | zero => intro _; rfl
  | succ N ih =>
    intro h
    simp only [owns]
    rw [ih (by omega), put_ne _ _ (by omega)]

theorem owns_put (f : Nat → Slot) (o k : Nat) (v : Slot) : ∀ N, k < N →
    owns (put f k v) o N + (f k).own o = owns f o N + v.own o := by
  intro N
  induction N with
  | zero => intro h; omega
  | succ N ih =>
    intro h
    simp only [owns]
    by_cases hk : k = N
    · subst hk
      rw [owns_put_ge _ _ _ _ _ (Nat.le_refl _)]
      simp only [put_same]
      omega
    · rw [put_ne _ _ (Ne.symm hk)]
      have := ih (by omega)
      omega

theorem own_le_owns (f : Nat → Slot) (o k : Nat) : ∀ N, k < N → (f k).own o ≤ owns f o N := by
  intro N
  induction N with
  | zero => intro h; omega
  | succ N ih =>
    intro h
    simp only [owns]
    by_cases hk : k = N
    · subst hk; omega
    · have := ih (by omega); omega

/-- All references to an object. -/
def total (N : Nat) (s : St) (o : Nat) : Nat := owns s.slot o N + s.raw o

/-- The invariant for one object, in terms of a number of references. -/
structure Good (s : St) (o n : Nat) : Prop where
  rc : s.rc o = n
  live : 0 < n → s.del o = 0 ∧ s.ever o = true
  dead : n = 0 → s.del o = if s.ever o then 1 else 0

/-- The invariant. -/
def Inv (N : Nat) (s : St) : Prop := ∀ o, Good s o (total N s o)

theorem inv_init (N : Nat) : Inv N init := by
  have h : ∀ o N, owns init.slot o N = 0 := by
    intro o N
    induction N with
    | zero => rfl
    | succ N ih => simp only [owns, ih]; simp [init, Slot.own]
  intro o
  have : total N init o = 0 := by simp only [total, h]; rfl
  rw [this]
  exact ⟨rfl, fun h => by omega, fun _ => rfl⟩

/-- One reference more to a usable object. -/
def ind (v : Option Nat) (o : Nat) : Nat := if v = some o then 1 else 0

theorem usable_of_own {N : Nat} {s : St} (hI : Inv N s) {k : Nat} (hk : k < N) {o : Nat}
    (h : 0 < (s.slot k).own o) : s.del o = 0 := by
  have h1 := own_le_owns s.slot o k N hk
  exact ((hI o).live (by simp only [total]; omega)).1

theorem good_inc {s : St} {v : Option Nat} (hu : s.usable v = true) {o n : Nat} (h : Good s o n) :
    Good (s.inc v) o (n + ind v o) := by
  cases v with
  | none => simpa [St.inc, ind] using h
  | some p =>
    by_cases hp : p = o
    · subst hp
      simp only [St.usable, beq_iff_eq] at hu
      refine ⟨by simp [St.inc, ind, h.rc], fun _ => ⟨hu, by simp [St.inc]⟩, ?_⟩
      intro h0; simp [ind] at h0
    · have hp' : o ≠ p := Ne.symm hp
      have hi : ind (some p) o = 0 := by simp [ind, hp]
      rw [hi]
      refine ⟨by simp [St.inc, put, hp', h.rc], ?_, ?_⟩
      · intro h0; have := h.live h0; simpa [St.inc, put, hp'] using this
      · intro h0; have := h.dead h0; simp only [St.inc, put, hp', if_false]; exact this

theorem good_dec {s : St} {v : Option Nat} {o n : Nat} (h : Good s o (n + ind v o)) :
    Good (s.dec v) o n := by
  cases v with
  | none => simpa [St.dec, ind] using h
  | some p =>
    by_cases hp : p = o
    · subst hp
      simp only [ind, if_true] at h
      have h1 := h.live (by omega)
      have h2 := h.rc
      refine ⟨by simp [St.dec, h2], ?_, ?_⟩
      · intro h0
        refine ⟨?_, h1.2⟩
        simp only [St.dec, put_same, h2]
        rw [if_neg (by omega)]; exact h1.1
      · intro h0
        simp only [St.dec, put_same, h2, h1.2, if_true]
        rw [if_pos (by omega), h1.1]
    · have hp' : o ≠ p := Ne.symm hp
      have hi : ind (some p) o = 0 := by simp [ind, hp]
      rw [hi] at h
      refine ⟨by simpa [St.dec, put, hp'] using h.rc, ?_, ?_⟩
      · intro h0; have := h.live h0; simpa [St.dec, put, hp'] using this
      · intro h0; have := h.dead h0; simp only [St.dec, put, hp', if_false]; exact this

/-- `Good` does not look at slots and plain pointers. -/
theorem good_congr {s s' : St} {o n m : Nat} (h1 : s'.rc = s.rc) (h2 : s'.del = s.del)
    (h3 : s'.ever = s.ever) (hnm : m = n) (h : Good s o n) : Good s' o m := by
  subst hnm
  exact ⟨by rw [h1]; exact h.rc, by rw [h2, h3]; exact h.live, by rw [h2, h3]; exact h.dead⟩

theorem own_rest (v : Option Nat) (o : Nat) : (Slot.rest v).own o = ind v o := rfl
theorem own_added (a b : Option Nat) (o : Nat) : (Slot.added a b).own o = ind a o + ind b o := rfl
theorem own_released (v : Option Nat) (o : Nat) : (Slot.released v).own o = ind v o := rfl
theorem ind_none (o : Nat) : ind none o = 0 := rfl

theorem usable_slot {N : Nat} {s : St} (hI : Inv N s) {j : Nat} (hj : j < N) {v : Option Nat}
    (h : s.slot j = .rest v) : s.usable v = true := by
  cases v with
  | none => rfl
  | some p =>
    have := usable_of_own hI hj (o := p) (by rw [h]; simp [Slot.own])
    simp [St.usable, this]

@[simp] theorem inc_slot (s : St) (v : Option Nat) : (s.inc v).slot = s.slot := by cases v <;> rfl
@[simp] theorem dec_slot (s : St) (v : Option Nat) : (s.dec v).slot = s.slot := by cases v <;> rfl
@[simp] theorem inc_raw (s : St) (v : Option Nat) : (s.inc v).raw = s.raw := by cases v <;> rfl
@[simp] theorem dec_raw (s : St) (v : Option Nat) : (s.dec v).raw = s.raw := by cases v <;> rfl
theorem inc_setSlot (s : St) (v : Option Nat) (k : Nat) (x : Slot) :
    ((s.inc v).setSlot k x) = (s.setSlot k x).inc v := by cases v <;> rfl

theorem good_setSlot {s : St} {o n : Nat} {k : Nat} {x : Slot} (h : Good s o n) :
    Good (s.setSlot k x) o n := good_congr (s := s) rfl rfl rfl rfl h

theorem usable_setSlot (s : St) (k : Nat) (x : Slot) (v : Option Nat) :
    (s.setSlot k x).usable v = s.usable v := by cases v <;> rfl

/-- A step that adds the reference `v` and stores a slot which holds one reference to `v` more. -/
theorem inv_add {N : Nat} {s : St} (hI : Inv N s) {k : Nat} (hk : k < N) {x : Slot} {v : Option Nat}
    (hu : s.usable v = true) (hx : ∀ o, x.own o = (s.slot k).own o + ind v o) :
    Inv N ((s.inc v).setSlot k x) := by
  intro o
  rw [inc_setSlot]
  have h := good_inc (s := s.setSlot k x) (v := v) (o := o) (by rw [usable_setSlot]; exact hu)
    (good_setSlot (hI o))
  have ho := owns_put s.slot o k x N hk
  have hx' := hx o
  refine good_congr rfl rfl rfl ?_ h
  simp only [total, inc_slot, inc_raw, St.setSlot]
  omega

/-- A step that stores a slot which holds one reference to `v` less and releases `v`. -/
theorem inv_del {N : Nat} {s : St} (hI : Inv N s) {k : Nat} (hk : k < N) {x : Slot} {v : Option Nat}
    (hx : ∀ o, (s.slot k).own o = x.own o + ind v o) : Inv N ((s.setSlot k x).dec v) := by
  intro o
  have ho := owns_put s.slot o k x N hk
  have hx' := hx o
  refine good_dec (good_setSlot (good_congr rfl rfl rfl ?_ (hI o)))
  simp only [total, dec_slot, dec_raw, St.setSlot]
  omega

theorem inv_step {N : Nat} (s : St) (l : Lab) (s' : St) (hI : Inv N s)
    (hs : step N s l = some s') : Inv N s' := by
  cases l with
  | ctor k p =>
    simp only [step] at hs
    split at hs
    case isFalse => simp at hs
    rename_i h
    cases hs
    exact inv_add hI h.1 h.2.2 (fun o => by rw [h.2.1, own_rest, own_rest, ind_none]; omega)
  | copy k j =>
    simp only [step] at hs
    split at hs
    case h_2 => simp at hs
    rename_i v hj
    split at hs
    case isFalse => simp at hs
    rename_i h
    cases hs
    exact inv_add hI h.1 (usable_slot hI h.2.1 hj)
      (fun o => by rw [h.2.2, own_rest, own_rest, ind_none]; omega)
  | move k j =>
    simp only [step] at hs
    split at hs
    case h_2 => simp at hs
    rename_i v hj
    split at hs
    case isFalse => simp at hs
    rename_i h
    cases hs
    intro o
    have h1 := owns_put s.slot o j (.rest none) N h.2.1
    have h2 := owns_put (put s.slot j (.rest none)) o k (.rest v) N h.1
    refine good_congr (s := s) rfl rfl rfl ?_ (hI o)
    simp only [total, St.setSlot]
    rw [hj] at h1
    by_cases hkj : k = j
    · subst hkj
      rw [put_same] at h2
      simp only [own_rest, ind_none] at h1 h2
      omega
    · rw [put_ne _ _ hkj, h.2.2] at h2
      simp only [own_rest, ind_none] at h1 h2
      omega
  | dtor k =>
    simp only [step] at hs
    split at hs
    case h_2 => simp at hs
    rename_i v hk
    split at hs
    case isFalse => simp at hs
    rename_i h
    cases hs
    exact inv_del hI h (fun o => by rw [hk, own_rest, own_rest, ind_none]; omega)
  | assign k p =>
    simp only [step] at hs
    split at hs
    case h_2 => simp at hs
    rename_i v hk
    split at hs
    case isFalse => simp at hs
    rename_i h
    cases hs
    exact inv_add hI h.1 h.2 (fun o => by rw [hk, own_rest, own_added])
  | assignFrom k j =>
    simp only [step] at hs
    split at hs
    case h_2 => simp at hs
    rename_i v p hk hj
    split at hs
    case isFalse => simp at hs
    rename_i h
    cases hs
    exact inv_add hI h.1 (usable_slot hI h.2 hj) (fun o => by rw [hk, own_rest, own_added])
  | assignRel k =>
    simp only [step] at hs
    split at hs
    case h_2 => simp at hs
    rename_i v p hk
    split at hs
    case isFalse => simp at hs
    rename_i h
    cases hs
    exact inv_del hI h (fun o => by rw [hk, own_released, own_added]; omega)
  | assignSet k =>
    simp only [step] at hs
    split at hs
    case h_2 => simp at hs
    rename_i p hk
    split at hs
    case isFalse => simp at hs
    rename_i h
    cases hs
    intro o
    have h1 := owns_put s.slot o k (.rest p) N h
    rw [hk, own_rest, own_released] at h1
    refine good_congr (s := s) rfl rfl rfl ?_ (hI o)
    simp only [total, St.setSlot]
    omega
  | moveAssign k j =>
    simp only [step] at hs
    split at hs
    case h_2 => simp at hs
    rename_i v p hk hj
    split at hs
    case isFalse => simp at hs
    rename_i h
    split at hs
    · cases hs; exact hI
    · rename_i hkj
      cases hs
      intro o
      have h1 := owns_put s.slot o j (.rest none) N h.2
      have h2 := owns_put (put s.slot j (.rest none)) o k (.rest p) N h.1
      rw [put_ne _ _ hkj, hk] at h2
      rw [hj] at h1
      simp only [own_rest, ind_none] at h1 h2
      refine good_dec (good_setSlot (good_setSlot (good_congr rfl rfl rfl ?_ (hI o))))
      simp only [total, dec_slot, dec_raw, St.setSlot]
      omega
  | swap k j =>
    simp only [step] at hs
    split at hs
    case h_2 => simp at hs
    rename_i v p hk hj
    split at hs
    case isFalse => simp at hs
    rename_i h
    cases hs
    intro o
    have h1 := owns_put s.slot o j (.rest v) N h.2
    have h2 := owns_put (put s.slot j (.rest v)) o k (.rest p) N h.1
    rw [hj] at h1
    refine good_congr (s := s) rfl rfl rfl ?_ (hI o)
    simp only [total, St.setSlot]
    by_cases hkj : k = j
    · subst hkj
      rw [hk] at hj
      cases hj
      rw [put_same] at h2
      simp only [own_rest] at h1 h2
      omega
    · rw [put_ne _ _ hkj, hk] at h2
      simp only [own_rest] at h1 h2
      omega
  | release k =>
    simp only [step] at hs
    split at hs
    case h_2 => simp at hs
    rename_i v hk
    split at hs
    case isFalse => simp at hs
    rename_i h
    cases hs
    intro o
    have h1 := owns_put s.slot o k (.rest none) N h
    rw [hk, own_rest, own_rest, ind_none] at h1
    cases v with
    | none =>
      refine good_congr (s := s) rfl rfl rfl ?_ (hI o)
      simp only [ind_none] at h1
      simp only [total, St.setSlot, St.giveRaw]
      omega
    | some p =>
      refine good_congr (s := s) rfl rfl rfl ?_ (hI o)
      simp only [total, St.setSlot, St.giveRaw, St.setRaw]
      by_cases hp : o = p
      · subst hp; simp only [ind, if_true, put_same] at h1 ⊢; omega
      · have hi : ind (some p) o = 0 := by simp [ind, Ne.symm hp]
        rw [hi] at h1
        rw [put_ne _ _ hp]; omega
  | addRef p =>
    simp only [step] at hs
    split at hs
    case isFalse => simp at hs
    rename_i h
    cases hs
    intro o
    refine good_congr (s := s.inc (some p)) rfl rfl rfl ?_ (good_inc h (hI o))
    simp only [total, St.setRaw, inc_slot]
    by_cases hp : o = p
    · subst hp; simp [ind]; omega
    · have hi : ind (some p) o = 0 := by simp [ind, Ne.symm hp]
      rw [hi, put_ne _ _ hp]; simp
  | rawRelease p =>
    simp only [step] at hs
    split at hs
    case isFalse => simp at hs
    rename_i h
    cases hs
    intro o
    refine good_dec (good_congr (s := s) rfl rfl rfl ?_ (hI o))
    simp only [total, dec_slot, dec_raw, St.setRaw]
    by_cases hp : o = p
    · subst hp; simp [ind]; omega
    · have hi : ind (some p) o = 0 := by simp [ind, Ne.symm hp]
      rw [hi, put_ne _ _ hp]; simp

/-- States reachable with `N` smart pointers. -/
abbrev R (N : Nat) (s : St) : Prop := Reach (step N) init s

theorem inv_of_reach {N : Nat} {s : St} (h : R N s) : Inv N s := inv_reach (inv_init N) inv_step h

/-- **C83.** No use after free: the object a smart pointer refers to has not been deleted. -/
theorem c83_alive {N : Nat} {s : St} (h : R N s) {k o : Nat} (hk : k < N)
    (hv : s.slot k = .rest (some o)) : s.del o = 0 :=
  usable_of_own (inv_of_reach h) hk (by rw [hv]; simp [Slot.own])

/-- **C83.** Also the pointers an assignment is working with are to objects not deleted. -/
theorem c83_alive_assign {N : Nat} {s : St} (h : R N s) {k o : Nat} (hk : k < N)
    {a b : Option Nat} (hv : s.slot k = .added a b) (ho : a = some o ∨ b = some o) :
    s.del o = 0 := by
  refine usable_of_own (inv_of_reach h) hk ?_
  rw [hv]
  rcases ho with rfl | rfl
  · simp [Slot.own]; omega
  · simp [Slot.own]

/-- **C83.** No object is deleted twice. -/
theorem c83_once {N : Nat} {s : St} (h : R N s) (o : Nat) : s.del o ≤ 1 := by
  have hg := inv_of_reach h o
  by_cases h0 : total N s o = 0
  · rw [hg.dead h0]; split <;> omega
  · have := (hg.live (by omega)).1; omega

/-- **C83.** No leak: an object that has been referenced is deleted exactly when no smart pointer
and no plain reference is left. -/
theorem c83_deleted_iff {N : Nat} {s : St} (h : R N s) {o : Nat} (he : s.ever o = true) :
    s.del o = 1 ↔ total N s o = 0 := by
  have hg := inv_of_reach h o
  constructor
  · intro hd
    by_cases h0 : total N s o = 0
    · exact h0
    · have := (hg.live (by omega)).1; omega
  · intro h0; rw [hg.dead h0, he]; rfl

/-- **C83.** The count is the number of references, so `HasOneRef` (refcountedobject.h:49-51) is
true exactly when one reference is left. -/
theorem c83_count {N : Nat} {s : St} (h : R N s) (o : Nat) : s.rc o = total N s o :=
  (inv_of_reach h o).rc

/-- The hypotheses of C83 are met: object 7 is referenced by slots 0 and 1 and, through
`release()`, by a user; slot 1 is assigned object 8 while slot 0 is destroyed; the last reference
deletes object 7, once. -/
theorem w_c83 :
    ((runs (step 3) init [.ctor 0 7, .copy 1 0, .move 2 1, .assign 1 (some 8), .release 2,
        .dtor 0, .assignRel 1, .assignSet 1]).map
      fun s => (s.rc 7, s.del 7, s.rc 8, s.slot 1, s.raw 7)) = some (1, 0, 1, .rest (some 8), 1) ∧
    ((runs (step 3) init [.ctor 0 7, .copy 1 0, .move 2 1, .assign 1 (some 8), .release 2,
        .dtor 0, .assignRel 1, .assignSet 1, .rawRelease 7, .assignFrom 1 1, .assignRel 1,
        .assignSet 1]).map
      fun s => (s.rc 7, s.del 7, s.ever 7, s.rc 8, s.del 8)) = some (0, 1, true, 1, 0) := by
  decide

end Ltio.Sync.RefPtr
