import Verif.Sync.Basic

/-
Model of base/memory/defer.h and base/memory/scoped_guard.h (C84): `Defer`, `CancelableDefer` and
`ScopedGuard`, objects that run a function when they are destroyed.

A history is a list of operations on guards.  Guards and the functions given to them are numbered;
a number is used for one guard only.  A moved-from `std::function` is empty, as it is in libstdc++
and libc++ (the standard leaves it unspecified).  Calling an empty `std::function` throws, and a
throw out of a destructor ends the process.
-/
namespace Ltio.Guards
open Ltio.Sync

/-- The three classes. -/
inductive Kind where
  /-- `base::__detail__::Defer` (defer.h:9-19) -/
  | defer
  /-- `base::__detail__::CancelableDefer` (defer.h:21-41) -/
  | cancelable
  /-- `base::ScopedGuard` (scoped_guard.h:25-38) -/
  | scoped
deriving DecidableEq

/-- A guard object: its class, its `cancel`/`dismiss_` flag and its function (`none`: empty). -/
structure Obj where
  kind : Kind
  cancel : Bool
  fn : Option Nat
deriving DecidableEq

/-- What is done with guards. -/
inductive Op where
  /-- construction from a function (defer.h:11-12, 23-25; scoped_guard.h:27) -/
  | make (g : Nat) (k : Kind) (fn : Option Nat)
  /-- `Cancel` (defer.h:35) or `DisMiss` (scoped_guard.h:33) -/
  | cancel (g : Nat)
  /-- move construction of `d` from `g` (defer.h:13, 27); for `ScopedGuard`, which declares a
  destructor and so has no move constructor, this is a copy -/
  | move (g d : Nat)
  /-- copy construction of `d` from `g`: `ScopedGuard` only (implicit), the other two have a move
  constructor and therefore no copy constructor -/
  | copy (g d : Nat)
  /-- the destructor -/
  | destroy (g : Nat)
deriving DecidableEq

/-- The world: the guards that exist, the guard numbers used, the functions run, and whether the
process has been terminated. -/
structure St where
  obj : Nat → Option Obj
  used : Nat → Bool
  log : List Nat
  dead : Bool

/-- Nothing yet. -/
def init : St := ⟨fun _ => none, fun _ => false, [], false⟩

/-- A new guard object. -/
def St.new (s : St) (g : Nat) (o : Obj) : St := ⟨put s.obj g (some o), put s.used g true, s.log, s.dead⟩

/-- A changed guard object. -/
def St.upd (s : St) (g : Nat) (o : Option Obj) : St := ⟨put s.obj g o, s.used, s.log, s.dead⟩

/-- The new object made by a move construction (defer.h:13, 27): the function is taken over; the
`cancel` flag is not, the default initialiser of line 39 applies.  `ScopedGuard` copies all. -/
def moved (o : Obj) : Obj :=
  match o.kind with
  | .scoped => o
  | _ => ⟨o.kind, false, o.fn⟩

/-- What is left of the object moved from. -/
def movedFrom (o : Obj) : Obj :=
  match o.kind with
  | .scoped => o
  | _ => ⟨o.kind, o.cancel, none⟩

/-- What the destructor does (defer.h:14, 29-33; scoped_guard.h:28-32): the function to run, if any,
and whether the process is terminated. -/
def dtor (o : Obj) : Option Nat × Bool :=
  match o.kind with
  | .defer => (o.fn, o.fn.isNone)
  | .cancelable => if o.cancel then (none, false) else (o.fn, o.fn.isNone)
  | .scoped => if o.cancel then (none, false) else (o.fn, false)

/-- The destructor of guard `g`. -/
def St.destroy (s : St) (g : Nat) (o : Obj) : St :=
  ⟨put s.obj g none, s.used, s.log ++ (dtor o).1.toList, (dtor o).2⟩

/-- An operation on an existing guard. -/
def onObj (s : St) (op : Op) (o : Obj) : Option St :=
  match op with
  | .cancel g => if o.kind = .defer then none else some (s.upd g (some ⟨o.kind, true, o.fn⟩))
  | .move g d => if s.used d then none else some ((s.upd g (some (movedFrom o))).new d (moved o))
  | .copy _ d => if s.used d ∨ o.kind ≠ .scoped then none else some (s.new d o)
  | .destroy g => some (s.destroy g o)
  | .make .. => none

/-- The guard an operation works on. -/
def Op.src : Op → Nat
  | .make g .. => g
  | .cancel g => g
  | .move g _ => g
  | .copy g _ => g
  | .destroy g => g

/-- One operation; `none` if it is not possible (no such guard, number used, does not compile). -/
def step (s : St) (op : Op) : Option St :=
  if s.dead then none
  else match op with
    | .make g k fn => if s.used g then none else some (s.new g ⟨k, false, fn⟩)
    | op => (s.obj op.src).bind (onObj s op)

/-- No guard is moved or copied (a guard returned by `MakeDefer` is constructed in place by every
compiler's default, guaranteed from C++17 on). -/
def Plain (h : List Op) : Prop := ∀ op ∈ h, (∀ g d, op ≠ .move g d) ∧ ∀ g d, op ≠ .copy g d

/-- Every guard is given a function, and each its own. -/
def Distinct (h : List Op) : Prop :=
  (∀ g k, Op.make g k none ∉ h) ∧
  ∀ g g' k k' f, Op.make g k (some f) ∈ h → Op.make g' k' (some f) ∈ h → g = g'

theorem Plain.prefix {a b : List Op} (h : Plain (a ++ b)) : Plain a :=
  fun op ho => h op (List.mem_append_left _ ho)

theorem Distinct.prefix {a b : List Op} (h : Distinct (a ++ b)) : Distinct a :=
  ⟨fun g k hm => h.1 g k (List.mem_append_left _ hm),
   fun g g' k k' f h1 h2 => h.2 g g' k k' f (List.mem_append_left _ h1) (List.mem_append_left _ h2)⟩

/-- The invariant of plain histories. -/
structure Inv (h : List Op) (s : St) : Prop where
  used : ∀ g, s.used g = true ↔ ∃ k fn, Op.make g k fn ∈ h
  live : ∀ g o, s.obj g = some o → ∃ f, o.fn = some f ∧ Op.make g o.kind (some f) ∈ h ∧
    (o.cancel = true ↔ Op.cancel g ∈ h) ∧ Op.destroy g ∉ h
  nocancel : ∀ g o, s.obj g = some o → o.kind = .defer → o.cancel = false
  gone : ∀ g, s.obj g = none → s.used g = true → Op.destroy g ∈ h
  fresh : ∀ g, s.used g = false → s.obj g = none ∧ Op.destroy g ∉ h ∧ Op.cancel g ∉ h
  count : ∀ g k f, Op.make g k (some f) ∈ h →
    s.log.count f = if Op.destroy g ∈ h ∧ Op.cancel g ∉ h then 1 else 0
  log : ∀ f ∈ s.log, ∃ g k, Op.make g k (some f) ∈ h
  once : ∀ g k k' fn fn', Op.make g k fn ∈ h → Op.make g k' fn' ∈ h → fn = fn'
  dead : s.dead = false

theorem inv_init : Inv [] init where
  used g := by simp [init]
  live g o h := by simp [init] at h
  nocancel g o h := by simp [init] at h
  gone g _ h := by simp [init] at h
  fresh g _ := by simp [init]
  count g k f h := by simp at h
  log f h := by simp [init] at h
  once g k k' fn fn' h := by simp at h
  dead := rfl

theorem inv_make {h : List Op} {s : St} {g : Nat} {k : Kind} {f : Nat} (hi : Inv h s)
    (hd : Distinct (h ++ [.make g k (some f)])) (hu : s.used g = false) :
    Inv (h ++ [.make g k (some f)]) (s.new g ⟨k, false, some f⟩) where
  used x := by
    by_cases hx : x = g
    · subst hx; simp only [St.new, put_same, true_iff]; exact ⟨k, some f, by simp⟩
    · simp only [St.new, put_ne _ _ hx, hi.used, List.mem_append, List.mem_singleton, Op.make.injEq, hx,
        false_and, or_false]
  live x o ho := by
    by_cases hx : x = g
    · subst hx
      simp only [St.new, put_same, Option.some.injEq] at ho
      subst ho
      have := hi.fresh x hu
      refine ⟨f, rfl, by simp, ?_, ?_⟩
      · simp [this.2.2]
      · simp [this.2.1]
    · simp only [St.new, put_ne _ _ hx] at ho
      obtain ⟨f', h1, h2, h3, h4⟩ := hi.live x o ho
      exact ⟨f', h1, by simp [h2], by simp [h3], by simp [h4]⟩
  nocancel x o ho hk := by
    by_cases hx : x = g
    · subst hx
      simp only [St.new, put_same, Option.some.injEq] at ho
      subst ho; rfl
    · simp only [St.new, put_ne _ _ hx] at ho
      exact hi.nocancel x o ho hk
  gone x ho hx' := by
    by_cases hx : x = g
    · subst hx; simp [St.new] at ho
    · simp only [St.new, put_ne _ _ hx] at ho hx'
      simp [hi.gone x ho hx']
  fresh x hx' := by
    by_cases hx : x = g
    · subst hx; simp [St.new] at hx'
    · simp only [St.new, put_ne _ _ hx] at hx' ⊢
      have := hi.fresh x hx'
      exact ⟨this.1, by simp [this.2.1], by simp [this.2.2]⟩
  count x k' f' hm := by
    have hm' := hm
    simp only [List.mem_append, List.mem_singleton, Op.make.injEq, Option.some.injEq] at hm
    rcases hm with hm | ⟨rfl, rfl, rfl⟩
    · rw [show (s.new g ⟨k, false, some f⟩).log = s.log from rfl, hi.count x k' f' hm]
      simp
    · have := hi.fresh x hu
      have hn : f' ∉ s.log := by
        intro hf
        obtain ⟨g', k2, hg⟩ := hi.log f' hf
        have := hd.2 x g' k' k2 f' (by simp) (by simp [hg])
        subst this
        have := (hi.used x).2 ⟨k2, _, hg⟩
        simp [hu] at this
      rw [show (s.new x ⟨k', false, some f'⟩).log = s.log from rfl, List.count_eq_zero.2 hn]
      simp [this.2.1]
  log f' hf := by
    obtain ⟨g', k2, hg⟩ := hi.log f' hf
    exact ⟨g', k2, by simp [hg]⟩
  once x k1 k2 fn fn' h1 h2 := by
    simp only [List.mem_append, List.mem_singleton, Op.make.injEq] at h1 h2
    rcases h1 with h1 | ⟨rfl, rfl, rfl⟩
    · rcases h2 with h2 | ⟨rfl, rfl, rfl⟩
      · exact hi.once x k1 k2 fn fn' h1 h2
      · have := (hi.used x).2 ⟨_, _, h1⟩
        simp [hu] at this
    · rcases h2 with h2 | ⟨_, rfl, rfl⟩
      · have := (hi.used x).2 ⟨_, _, h2⟩
        simp [hu] at this
      · rfl
  dead := hi.dead

theorem inv_cancel {h : List Op} {s : St} {g : Nat} {o : Obj} (hi : Inv h s) (hg : s.obj g = some o)
    (hk : o.kind ≠ .defer) :
    Inv (h ++ [.cancel g]) (s.upd g (some ⟨o.kind, true, o.fn⟩)) := by
  obtain ⟨f, hf, hm, hc, hd⟩ := hi.live g o hg
  have hu : s.used g = true := (hi.used g).2 ⟨_, _, hm⟩
  constructor
  · intro x
    simp [St.upd, hi.used]
  · intro x o' ho
    by_cases hx : x = g
    · subst hx
      simp only [St.upd, put_same, Option.some.injEq] at ho
      subst ho
      exact ⟨f, hf, by simp [hm], by simp, by simp [hd]⟩
    · simp only [St.upd, put_ne _ _ hx] at ho
      obtain ⟨f', h1, h2, h3, h4⟩ := hi.live x o' ho
      exact ⟨f', h1, by simp [h2], by simp [h3, hx], by simp [h4]⟩
  · intro x o' ho hk'
    by_cases hx : x = g
    · subst hx
      simp only [St.upd, put_same, Option.some.injEq] at ho
      subst ho
      exact absurd hk' hk
    · simp only [St.upd, put_ne _ _ hx] at ho
      exact hi.nocancel x o' ho hk'
  · intro x ho hx'
    by_cases hx : x = g
    · subst hx; simp [St.upd] at ho
    · simp only [St.upd, put_ne _ _ hx] at ho hx'
      simp [hi.gone x ho hx']
  · intro x hx'
    have hx : x ≠ g := by rintro rfl; simp [St.upd, hu] at hx'
    have := hi.fresh x hx'
    exact ⟨by simp [St.upd, put_ne _ _ hx, this.1], by simp [this.2.1], by simp [this.2.2, hx]⟩
  · intro x k' f' hm'
    simp only [List.mem_append, List.mem_singleton, reduceCtorEq, or_false] at hm'
    rw [show (s.upd g (some ⟨o.kind, true, o.fn⟩)).log = s.log from rfl, hi.count x k' f' hm']
    by_cases hx : x = g
    · subst hx; simp [hd]
    · simp [hx]
  · intro f' hf'
    obtain ⟨g', k2, hg'⟩ := hi.log f' hf'
    exact ⟨g', k2, by simp [hg']⟩
  · intro x k1 k2 fn fn' h1 h2
    exact hi.once x k1 k2 fn fn' (by simpa using h1) (by simpa using h2)
  · exact hi.dead

/-- What the destructor of a guard with a function does. -/
theorem dtor_some {o : Obj} {f : Nat} (hf : o.fn = some f) (hk : o.kind = .defer → o.cancel = false) :
    dtor o = (if o.cancel then none else some f, false) := by
  rcases o with ⟨k, c, fn⟩
  simp only [] at hf hk
  subst hf
  cases k <;> cases c <;> simp_all [dtor]

theorem inv_destroy {h : List Op} {s : St} {g : Nat} {o : Obj} (hi : Inv h s)
    (hD : Distinct (h ++ [.destroy g])) (hg : s.obj g = some o) :
    Inv (h ++ [.destroy g]) (s.destroy g o) := by
  obtain ⟨f, hf, hm, hc, hd⟩ := hi.live g o hg
  have hu : s.used g = true := (hi.used g).2 ⟨_, _, hm⟩
  have hdt := dtor_some hf (hi.nocancel g o hg)
  constructor
  · intro x
    simp [St.destroy, hi.used]
  · intro x o' ho
    by_cases hx : x = g
    · subst hx; simp [St.destroy] at ho
    · simp only [St.destroy, put_ne _ _ hx] at ho
      obtain ⟨f', h1, h2, h3, h4⟩ := hi.live x o' ho
      exact ⟨f', h1, by simp [h2], by simp [h3], by simp [h4, hx]⟩
  · intro x o' ho hk'
    by_cases hx : x = g
    · subst hx; simp [St.destroy] at ho
    · simp only [St.destroy, put_ne _ _ hx] at ho
      exact hi.nocancel x o' ho hk'
  · intro x ho hx'
    by_cases hx : x = g
    · subst hx; simp
    · simp only [St.destroy, put_ne _ _ hx] at ho hx'
      simp [hi.gone x ho hx']
  · intro x hx'
    have hx : x ≠ g := by rintro rfl; simp [St.destroy, hu] at hx'
    have := hi.fresh x hx'
    exact ⟨by simp [St.destroy, put_ne _ _ hx, this.1], by simp [this.2.1, hx], by simp [this.2.2]⟩
  · intro x k' f' hm'
    simp only [List.mem_append, List.mem_singleton, reduceCtorEq, or_false] at hm'
    have hcount := hi.count x k' f' hm'
    simp only [St.destroy, hdt, List.count_append, hcount]
    by_cases hx : x = g
    · subst hx
      have hff : f' = f := Option.some.inj (hi.once x k' o.kind _ _ hm' hm)
      subst hff
      by_cases hcc : o.cancel = true
      · have := hc.1 hcc
        simp [hd, hcc, this]
      · have hcn : Op.cancel x ∉ h := fun hh => hcc (hc.2 hh)
        simp [hd, hcc, hcn]
    · have hff : f' ≠ f := by
        rintro rfl
        exact hx (hD.2 x g k' o.kind f' (by simp [hm']) (by simp [hm]))
      by_cases hcc : o.cancel = true
      · simp [hcc, hx]
      · simp [hcc, hx, Ne.symm hff]
  · intro f' hf'
    simp only [St.destroy, hdt, List.mem_append] at hf'
    rcases hf' with hf' | hf'
    · obtain ⟨g', k2, hg'⟩ := hi.log f' hf'
      exact ⟨g', k2, by simp [hg']⟩
    · by_cases hcc : o.cancel = true
      · simp [hcc] at hf'
      · simp [hcc] at hf'
        subst hf'
        exact ⟨g, o.kind, by simp [hm]⟩
  · intro x k1 k2 fn fn' h1 h2
    exact hi.once x k1 k2 fn fn' (by simpa using h1) (by simpa using h2)
  · simp [St.destroy, hdt]

theorem inv_plain (h : List Op) : ∀ (pre : List Op) (s s' : St), Inv pre s → Plain (pre ++ h) →
    Distinct (pre ++ h) → runs step s h = some s' → Inv (pre ++ h) s' := by
  induction h with
  | nil => intro pre s s' hi _ _ hr; simp only [runs, Option.some.injEq] at hr; subst hr; simpa using hi
  | cons op h ih =>
    intro pre s s' hi hp hd hr
    have e : pre ++ op :: h = pre ++ [op] ++ h := by simp
    rw [e] at hp hd ⊢
    simp only [runs] at hr
    cases hs : step s op with
    | none => simp [hs] at hr
    | some s1 =>
      simp only [hs, Option.bind_some] at hr
      refine ih (pre ++ [op]) s1 s' ?_ hp hd hr
      have hd' := hd.prefix
      have hp' := hp.prefix op (by simp)
      simp only [step, hi.dead, Bool.false_eq_true, if_false] at hs
      cases op with
      | make g k fn =>
        cases fn with
        | none => exact absurd (by simp) (hd'.1 g k)
        | some f =>
          simp only [] at hs
          split at hs
          · simp at hs
          · rename_i hu
            cases hs
            exact inv_make hi hd' (by simpa using hu)
      | move g d => exact absurd rfl (hp'.1 g d)
      | copy g d => exact absurd rfl (hp'.2 g d)
      | cancel g =>
        simp only [Op.src] at hs
        cases ho : s.obj g with
        | none => simp [ho] at hs
        | some o =>
          simp only [ho, Option.bind_some, onObj] at hs
          split at hs
          · simp at hs
          · rename_i hk; cases hs; exact inv_cancel hi ho hk
      | destroy g =>
        simp only [Op.src] at hs
        cases ho : s.obj g with
        | none => simp [ho] at hs
        | some o =>
          simp only [ho, Option.bind_some, onObj] at hs
          cases hs
          exact inv_destroy hi hd' ho

/-- **C84.** In every history in which no guard is moved or copied, the function of a guard has run
exactly once if the guard has been destroyed and was not cancelled before, and not at all
otherwise. -/
theorem c84_exactly_once {h : List Op} {s : St} (hr : runs step init h = some s) (hp : Plain h)
    (hd : Distinct h) {g : Nat} {k : Kind} {f : Nat} (hm : Op.make g k (some f) ∈ h) :
    s.log.count f = if Op.destroy g ∈ h ∧ Op.cancel g ∉ h then 1 else 0 :=
  (inv_plain h [] init s inv_init hp hd hr).count g k f hm

/-- **C84.** And the process is not terminated by a guard, and nothing else is run. -/
theorem c84_safe {h : List Op} {s : St} (hr : runs step init h = some s) (hp : Plain h)
    (hd : Distinct h) : s.dead = false ∧ ∀ f ∈ s.log, ∃ g k, Op.make g k (some f) ∈ h :=
  let hi := inv_plain h [] init s inv_init hp hd hr
  ⟨hi.dead, hi.log⟩

/-- **C84, violation.** Moving a `Defer` ends the process: the object moved from still calls its
function, which is empty now.  This is so for every history, function and pair of guards. -/
theorem c84_move_terminates {h : List Op} {s : St} (_ : runs step init h = some s) {g d f : Nat}
    {k : Kind} (hk : k ≠ .scoped) (ha : s.dead = false) (ho : s.obj g = some ⟨k, false, some f⟩)
    (hgd : d ≠ g) (hu : s.used d = false) :
    ∃ s', runs step s [.move g d, .destroy g] = some s' ∧ s'.dead = true := by
  cases k with
  | «scoped» => exact absurd rfl hk
  | defer =>
    refine ⟨((s.upd g (some ⟨.defer, false, none⟩)).new d ⟨.defer, false, some f⟩).destroy g
      ⟨.defer, false, none⟩, ?_, rfl⟩
    simp [runs, step, ha, ho, Op.src, onObj, hu, movedFrom, moved, St.new, St.upd, put, Ne.symm hgd]
  | cancelable =>
    refine ⟨((s.upd g (some ⟨.cancelable, false, none⟩)).new d ⟨.cancelable, false, some f⟩).destroy g
      ⟨.cancelable, false, none⟩, ?_, rfl⟩
    simp [runs, step, ha, ho, Op.src, onObj, hu, movedFrom, moved, St.new, St.upd, put, Ne.symm hgd]

/-- **C84, violation.** Moving a cancelled `CancelableDefer` revives it: the function runs although
it was cancelled. -/
theorem c84_move_uncancels :
    (runs step init [.make 0 .cancelable (some 7), .cancel 0, .move 0 1, .destroy 0, .destroy 1]).map
      (fun s => (s.log, s.dead)) = some ([7], false) := by decide

/-- **C84, violation.** A `ScopedGuard` can be copied or "moved", and the function runs twice. -/
theorem c84_copy_twice :
    (runs step init [.make 0 .scoped (some 7), .copy 0 1, .destroy 1, .destroy 0]).map
      (fun s => s.log) = some [7, 7] ∧
    (runs step init [.make 0 .scoped (some 7), .move 0 1, .destroy 1, .destroy 0]).map
      (fun s => s.log) = some [7, 7] := by decide

/-- The hypotheses of C84 are met: three guards, one of them cancelled, nested. -/
def wHist : List Op :=
  [.make 0 .defer (some 10), .make 1 .cancelable (some 11), .make 2 .scoped (some 12),
   .make 3 .cancelable (some 13), .cancel 1, .destroy 3, .destroy 2, .destroy 1, .destroy 0]

theorem w_c84 : (runs step init wHist).map (fun s => s.log) = some [13, 12, 10] ∧
    Plain wHist ∧ Distinct wHist := by
  refine ⟨by decide, ?_, ?_, ?_⟩
  · intro op ho
    simp only [wHist, List.mem_cons, List.not_mem_nil, or_false] at ho
    rcases ho with rfl | rfl | rfl | rfl | rfl | rfl | rfl | rfl | rfl <;> simp
  · intro g k; simp [wHist]
  · intro g g' k k' f h1 h2
    simp only [wHist, List.mem_cons, List.not_mem_nil, or_false, Op.make.injEq, Option.some.injEq,
      reduceCtorEq] at h1 h2
    omega

end Ltio.Guards
