import Verif.Sync.Basic

/-
Specification used for the free lists of base/lockfree: an atomic pool of nodes, and what it means
for a node chain to hold a list.  Nothing here mentions the code.
-/
namespace Ltio.Sync

/-- Operations of a free list. -/
inductive Op where
  | add (n : Nat)
  | get
deriving DecidableEq

/-- Results: `add` returns nothing, `try_get` a node or a null pointer. -/
inductive Res where
  | added
  | got (r : Option Nat)
deriving DecidableEq

/-- Visible events: a thread calls an operation, an operation returns. -/
inductive Vis where
  | call (t : Nat) (op : Op)
  | ret (t : Nat) (r : Res)
deriving DecidableEq

/-- A thread of the atomic stack: idle, called but not yet done, done but not yet returned. -/
inductive TS where
  | idle
  | pend (op : Op)
  | fin (r : Res)
deriving DecidableEq

/-- The atomic stack: every operation takes place at one moment between its call and its return. -/
structure Abs where
  stack : List Nat
  th : Nat → TS

/-- The empty stack. -/
def Abs.init : Abs := ⟨[], fun _ => .idle⟩

/-- Steps of the atomic stack. -/
inductive ALab where
  | vis (v : Vis)
  /-- the pending operation of this thread takes place -/
  | lin (t : Nat)
deriving DecidableEq

/-- The operation takes place. -/
def Abs.perform (a : Abs) (t : Nat) : Op → Abs
  | .add n => ⟨n :: a.stack, put a.th t (.fin .added)⟩
  | .get => ⟨a.stack.tail, put a.th t (.fin (.got a.stack.head?))⟩

/-- One step of the atomic stack. -/
def Abs.step (a : Abs) : ALab → Option Abs
  | .vis (.call t op) => if a.th t = .idle then some ⟨a.stack, put a.th t (.pend op)⟩ else none
  | .vis (.ret t r) => if a.th t = .fin r then some ⟨a.stack, put a.th t .idle⟩ else none
  | .lin t =>
    match a.th t with
    | .pend op => some (a.perform t op)
    | _ => none

/-- The visible part of a run of the atomic stack. -/
def visOf : List ALab → List Vis
  | [] => []
  | .vis v :: ls => v :: visOf ls
  | .lin _ :: ls => visOf ls

theorem visOf_append (a b : List ALab) : visOf (a ++ b) = visOf a ++ visOf b := by
  induction a with
  | nil => rfl
  | cons l a ih => cases l <;> simp [visOf, ih]

/-- The chain of nodes that begins with `h` and is linked by `next` is the list `L`. -/
def chain (next : Nat → Option Nat) : Option Nat → List Nat → Prop
  | none, [] => True
  | some p, n :: L => p = n ∧ chain next (next p) L
  | _, _ => False

theorem chain_put {next : Nat → Option Nat} {n : Nat} {v : Option Nat} :
    ∀ {h : Option Nat} {L : List Nat}, n ∉ L → chain next h L → chain (put next n v) h L := by
  intro h L
  induction L generalizing h with
  | nil => intro _ hc; cases h <;> simp_all [chain]
  | cons m L ih =>
    intro hn hc
    cases h with
    | none => simp [chain] at hc
    | some p =>
      obtain ⟨rfl, hc⟩ := hc
      have hp : p ≠ n := by rintro rfl; simp at hn
      refine ⟨rfl, ?_⟩
      rw [put_ne _ _ hp]
      exact ih (by simp at hn; exact hn.2) hc

theorem chain_none {next : Nat → Option Nat} {L : List Nat} (h : chain next none L) : L = [] := by
  cases L with
  | nil => rfl
  | cons => simp [chain] at h

theorem chain_some {next : Nat → Option Nat} {p : Nat} {L : List Nat} (h : chain next (some p) L) :
    ∃ L', L = p :: L' ∧ chain next (next p) L' := by
  cases L with
  | nil => simp [chain] at h
  | cons m L' => obtain ⟨rfl, h⟩ := h; exact ⟨L', rfl, h⟩

/-- A chain holds one list only. -/
theorem chain_unique {next : Nat → Option Nat} : ∀ {h : Option Nat} {L M : List Nat},
    chain next h L → chain next h M → L = M := by
  intro h L
  induction L generalizing h with
  | nil => intro M h1 h2; cases h with
    | none => exact (chain_none h2).symm
    | some p => simp [chain] at h1
  | cons n L ih =>
    intro M h1 h2
    cases h with
    | none => simp [chain] at h1
    | some p =>
      obtain ⟨rfl, h1⟩ := h1
      obtain ⟨M', rfl, h3⟩ := chain_some h2
      rw [ih h1 h3]

end Ltio.Sync
