/-
Model of the fd event registry `FdEventMgr` (base/message_loop/fdev_mgr.{h,cc}), of the registration
half of `IOMuxEpoll` (io_mux_epoll.cc:104-135) and `EventPump::InstallFdEvent/RemoveFdEvent/
InvokeFiredEvent` (event_pump.cc:82-102,137-147).

`FdEvent` objects are numbered; `fdOf e` is the immutable `fd_` of event `e` (fd_event.h:116).
The registry is process-global (fdev_mgr.cc:15-18 `Get`) and shared by all loops; loops (each with
its own mux) are numbered.  `epoll_ctl` is assumed to succeed.  `none` = a CHECK failure (abort).
-/
namespace Ltio.Loop.FdReg

/-- fdev_mgr.h:9-15 `Result`. -/
inductive Result where
  | success | invalidFd | duplicated | notExist
deriving DecidableEq, Repr

/-- `evs_` (fdev_mgr.h:30). -/
abbrev Reg := List (Option Nat)

/-- `FdEventMgr::FdEventMgr` (fdev_mgr.cc:22-26); `n` is RLIMIT_NOFILE. -/
def Reg.init (n : Nat) : Reg := List.replicate n none

/-- `fd < 0 || fd >= evs_.size()`. -/
def Reg.bad (r : Reg) (fd : Int) : Bool := decide (fd < 0) || decide ((r.length : Int) ≤ fd)

/-- `FdEventMgr::Add` (fdev_mgr.cc:28-44). -/
def Reg.add (fdOf : Nat → Int) (r : Reg) (e : Nat) : Reg × Result :=
  if r.bad (fdOf e) then (r, .invalidFd)
  else match r.getD (fdOf e).toNat none with
    | some _ => (r, .duplicated)
    | none => (r.set (fdOf e).toNat (some e), .success)

/-- `FdEventMgr::Remove` (fdev_mgr.cc:46-65). -/
def Reg.remove (fdOf : Nat → Int) (r : Reg) (e : Nat) : Reg × Result :=
  if r.bad (fdOf e) then (r, .invalidFd)
  else match r.getD (fdOf e).toNat none with
    | none => (r, .notExist)
    | some e' => if e' ≠ e then (r, .duplicated) else (r.set (fdOf e).toNat none, .success)

/-- `FdEventMgr::GetFdEvent` (fdev_mgr.cc:67-73). -/
def Reg.get (r : Reg) (fd : Int) : Option Nat :=
  if r.bad fd then none else r.getD fd.toNat none

/-! ### Loops sharing the registry -/

structure Sys where
  reg : Reg
  watcher : Nat → Option Nat     -- FdEvent::watcher_ (fd_event.h:128): which loop's mux

def Sys.init (n : Nat) : Sys := ⟨Reg.init n, fun _ => none⟩

def setW (w : Nat → Option Nat) (e : Nat) (v : Option Nat) : Nat → Option Nat :=
  fun x => if x = e then v else w x

/-- `EventPump::InstallFdEvent` (event_pump.cc:82-91) on loop `m`, with `IOMuxEpoll::AddFdEvent`
(io_mux_epoll.cc:104-113). -/
def Sys.install (fdOf : Nat → Int) (s : Sys) (m e : Nat) : Option (Sys × Bool) :=
  if s.watcher e ≠ none ∧ s.watcher e ≠ some m then some (s, false)
  else match s.reg.add fdOf e with
    | (r, .success) => some (⟨r, setW s.watcher e (some m)⟩, true)
    | _ => none

/-- `EventPump::RemoveFdEvent` (event_pump.cc:93-102), `IOMuxEpoll::DelFdEvent`
(io_mux_epoll.cc:115-124). -/
def Sys.remove (fdOf : Nat → Int) (s : Sys) (m e : Nat) : Option (Sys × Bool) :=
  if s.watcher e = none then some (s, false)
  else if s.watcher e ≠ some m then none
  else some (⟨(s.reg.remove fdOf e).1, setW s.watcher e none⟩, true)

/-- `FdEvent::notify_watcher` (fd_event.cc:86-90) and `IOMuxEpoll::UpdateFdEvent`
(io_mux_epoll.cc:126-135): Enable/DisableReading/Writing, SetEvent. -/
def Sys.update (fdOf : Nat → Int) (s : Sys) (e : Nat) : Sys :=
  if s.watcher e = none then s
  else match s.reg.get (fdOf e) with
    | some _ => s
    | none => { s with reg := (s.reg.add fdOf e).1 }

inductive Op where
  | install (m e : Nat)
  | remove (m e : Nat)
  | update (e : Nat)
deriving DecidableEq, Repr

def step (fdOf : Nat → Int) (s : Sys) : Op → Option Sys
  | .install m e => (s.install fdOf m e).map Prod.fst
  | .remove m e => (s.remove fdOf m e).map Prod.fst
  | .update e => some (s.update fdOf e)

def run (fdOf : Nat → Int) (s : Sys) : List Op → Option Sys
  | [] => some s
  | op :: ops => match step fdOf s op with
    | none => none
    | some s' => run fdOf s' ops

/-- `EventPump::InvokeFiredEvent` (event_pump.cc:137-147).  `fired` are the fds reported by the
poll; `acts e` are the registry operations performed (by this handler or meanwhile by other
threads) while the handler of event `e` runs.  Returns the events invoked, in order. -/
def invokeFired (fdOf : Nat → Int) (acts : Nat → List Op) : Sys → List Int → Option (Sys × List Nat)
  | s, [] => some (s, [])
  | s, fd :: fds =>
    match s.reg.get fd with
    | none => invokeFired fdOf acts s fds
    | some e =>
      match run fdOf s (acts e) with
      | none => none
      | some s' =>
        match invokeFired fdOf acts s' fds with
        | none => none
        | some (s'', l) => some (s'', e :: l)

/-! ### Specification: a partial map from fds `0 … n-1` to events -/

structure SpecMap where
  n : Nat
  m : Int → Option Nat

def SpecMap.add (fdOf : Nat → Int) (s : SpecMap) (e : Nat) : SpecMap × Result :=
  if fdOf e < 0 ∨ (s.n : Int) ≤ fdOf e then (s, .invalidFd)
  else if s.m (fdOf e) ≠ none then (s, .duplicated)
  else (⟨s.n, fun fd => if fd = fdOf e then some e else s.m fd⟩, .success)

def SpecMap.remove (fdOf : Nat → Int) (s : SpecMap) (e : Nat) : SpecMap × Result :=
  if fdOf e < 0 ∨ (s.n : Int) ≤ fdOf e then (s, .invalidFd)
  else if s.m (fdOf e) = none then (s, .notExist)
  else if s.m (fdOf e) ≠ some e then (s, .duplicated)
  else (⟨s.n, fun fd => if fd = fdOf e then none else s.m fd⟩, .success)

/-- What the registry represents. -/
def Reg.toSpec (r : Reg) : SpecMap := ⟨r.length, r.get⟩

/-! ### C25 -/

theorem bad_iff (r : Reg) (fd : Int) : r.bad fd = true ↔ (fd < 0 ∨ (r.length : Int) ≤ fd) := by
  simp [Reg.bad]

theorem get_set (r : Reg) (fd fd' : Int) (h : r.bad fd = false) (v : Option Nat) :
    Reg.get (r.set fd.toNat v) fd' = if fd' = fd then v else r.get fd' := by
  have hb : ¬ (fd < 0 ∨ (r.length : Int) ≤ fd) := by rw [← bad_iff, h]; simp
  unfold Reg.get
  have hbad : Reg.bad (r.set fd.toNat v) fd' = r.bad fd' := by simp [Reg.bad]
  rw [hbad]
  by_cases he : fd' = fd
  · subst he
    rw [h]
    have hlt : fd'.toNat < r.length := by omega
    simp [List.getD_eq_getElem?_getD, hlt]
  · rw [if_neg he]
    cases hbf : r.bad fd' with
    | true => simp
    | false =>
      have hb' : ¬ (fd' < 0 ∨ (r.length : Int) ≤ fd') := by rw [← bad_iff, hbf]; simp
      have hne : fd.toNat ≠ fd'.toNat := by omega
      simp [List.getD_eq_getElem?_getD, hne]

theorem getD_eq_get (r : Reg) (fd : Int) (h : r.bad fd = false) : r.getD fd.toNat none = r.get fd := by
  simp [Reg.get, h]

/-- C25: `Add` acts on the registry exactly as insertion into a partial map, with the result code
telling invalid fd, duplicate and success apart. -/
theorem c25_add (fdOf : Nat → Int) (r : Reg) (e : Nat) :
    ((r.add fdOf e).1.toSpec, (r.add fdOf e).2) = r.toSpec.add fdOf e := by
  unfold Reg.add SpecMap.add
  cases hb : r.bad (fdOf e) with
  | true => rw [if_pos rfl, if_pos (show fdOf e < 0 ∨ (r.toSpec.n : Int) ≤ fdOf e from (bad_iff _ _).1 hb)]
  | false =>
    have hb' : ¬ (fdOf e < 0 ∨ (r.toSpec.n : Int) ≤ fdOf e) := by
      show ¬ (fdOf e < 0 ∨ (r.length : Int) ≤ fdOf e)
      rw [← bad_iff, hb]; simp
    rw [if_neg (by simp), if_neg hb', getD_eq_get r _ hb]
    have hm : r.toSpec.m (fdOf e) = r.get (fdOf e) := rfl
    rw [hm]
    cases hg : r.get (fdOf e) with
    | some x => simp
    | none =>
      simp only [ne_eq, not_true_eq_false, if_false]
      congr 1
      unfold Reg.toSpec
      congr 1
      · simp
      · funext fd; exact get_set r _ _ hb _

/-- C25: `Remove` likewise; removing an unknown event or one that is not the registered one is
reported and changes nothing. -/
theorem c25_remove (fdOf : Nat → Int) (r : Reg) (e : Nat) :
    ((r.remove fdOf e).1.toSpec, (r.remove fdOf e).2) = r.toSpec.remove fdOf e := by
  unfold Reg.remove SpecMap.remove
  cases hb : r.bad (fdOf e) with
  | true => rw [if_pos rfl, if_pos (show fdOf e < 0 ∨ (r.toSpec.n : Int) ≤ fdOf e from (bad_iff _ _).1 hb)]
  | false =>
    have hb' : ¬ (fdOf e < 0 ∨ (r.toSpec.n : Int) ≤ fdOf e) := by
      show ¬ (fdOf e < 0 ∨ (r.length : Int) ≤ fdOf e)
      rw [← bad_iff, hb]; simp
    rw [if_neg (by simp), if_neg hb', getD_eq_get r _ hb]
    have hm : r.toSpec.m (fdOf e) = r.get (fdOf e) := rfl
    rw [hm]
    cases hg : r.get (fdOf e) with
    | none => simp
    | some x =>
      by_cases hx : x = e
      · subst hx
        simp only [ne_eq, not_true_eq_false, if_false, reduceCtorEq]
        congr 1
        unfold Reg.toSpec
        congr 1
        · simp
        · funext fd; exact get_set r _ _ hb _
      · simp [hx]

/-- C25: a fresh registry is empty, and lookups outside the table find nothing. -/
theorem c25_get (n : Nat) (r : Reg) (fd : Int) :
    (Reg.init n).get fd = none ∧ (fd < 0 ∨ (r.length : Int) ≤ fd → r.get fd = none) := by
  refine ⟨?_, ?_⟩
  · unfold Reg.get Reg.init
    split
    · rfl
    · simp [List.getD_eq_getElem?_getD, List.getElem?_replicate]
      split <;> simp
  · intro h
    unfold Reg.get
    rw [if_pos ((bad_iff _ _).2 h)]

/-- The registry and the events' watcher fields agree. -/
structure Inv (fdOf : Nat → Int) (s : Sys) : Prop where
  reg_to_w : ∀ fd e, s.reg.get fd = some e → fdOf e = fd ∧ s.watcher e ≠ none
  w_to_reg : ∀ e m, s.watcher e = some m → s.reg.get (fdOf e) = some e

theorem init_inv (fdOf : Nat → Int) (n : Nat) : Inv fdOf (Sys.init n) := by
  refine ⟨?_, by simp [Sys.init]⟩
  intro fd e h
  rw [show (Sys.init n).reg = Reg.init n from rfl, (c25_get n [] fd).1] at h
  simp at h

theorem add_success {fdOf : Nat → Int} {r r' : Reg} {e : Nat} (h : r.add fdOf e = (r', .success)) :
    r.get (fdOf e) = none ∧ ∀ fd, r'.get fd = if fd = fdOf e then some e else r.get fd := by
  unfold Reg.add at h
  split at h
  · simp at h
  · rename_i hb
    have hb : r.bad (fdOf e) = false := by simpa using hb
    rw [getD_eq_get r _ hb] at h
    split at h
    · simp at h
    · rename_i hg
      simp only [Prod.mk.injEq, and_true] at h
      subst h
      exact ⟨hg, fun fd => get_set r _ _ hb _⟩

theorem get_some_not_bad {r : Reg} {fd : Int} {e : Nat} (h : r.get fd = some e) : r.bad fd = false := by
  unfold Reg.get at h
  split at h
  · simp at h
  · rename_i hb; simpa using hb

theorem step_inv {fdOf : Nat → Int} {s s' : Sys} {op : Op} (i : Inv fdOf s)
    (h : step fdOf s op = some s') : Inv fdOf s' := by
  cases op with
  | install m e =>
    simp only [step, Sys.install] at h
    split at h
    · simp at h; subst h; exact i
    · rename_i hw
      split at h
      · rename_i r ha
        simp only [Option.map_some, Option.some.injEq] at h
        subst h
        obtain ⟨h1, h2⟩ := add_success ha
        refine ⟨?_, ?_⟩
        · intro fd e' hg
          simp only [h2] at hg
          split at hg
          · rename_i hfd
            simp only [Option.some.injEq] at hg
            subst hg
            exact ⟨hfd.symm, by simp [setW]⟩
          · obtain ⟨k1, k2⟩ := i.reg_to_w fd e' hg
            refine ⟨k1, ?_⟩
            simp only [setW]
            split <;> simp [k2]
        · intro e' m' hg
          simp only [setW] at hg
          simp only [h2]
          split at hg
          · rename_i he; subst he; simp
          · rename_i he
            have := i.w_to_reg e' m' hg
            split
            · rename_i hf; rw [hf, h1] at this; simp at this
            · exact this
      · simp at h
  | remove m e =>
    simp only [step, Sys.remove] at h
    split at h
    · simp at h; subst h; exact i
    · rename_i hw
      split at h
      · simp at h
      · rename_i hm
        simp only [Option.map_some, Option.some.injEq] at h
        subst h
        have hm' : s.watcher e = some m := by
          cases hx : s.watcher e with
          | none => exact absurd hx hw
          | some x => rw [hx] at hm; simpa using hm
        have hreg := i.w_to_reg e m hm'
        have hb := get_some_not_bad hreg
        have hrem : (s.reg.remove fdOf e).1 = s.reg.set (fdOf e).toNat none := by
          simp only [Reg.remove, hb, getD_eq_get s.reg _ hb, hreg]
          simp
        have hget : ∀ fd, ((s.reg.remove fdOf e).1).get fd = if fd = fdOf e then none else s.reg.get fd := by
          intro fd; rw [hrem]; exact get_set s.reg _ _ hb _
        refine ⟨?_, ?_⟩
        · intro fd e' hg
          simp only [hget] at hg
          split at hg
          · simp at hg
          · rename_i hfd
            obtain ⟨k1, k2⟩ := i.reg_to_w fd e' hg
            refine ⟨k1, ?_⟩
            simp only [setW]
            split
            · rename_i he; subst he; exact absurd k1.symm hfd
            · exact k2
        · intro e' m' hg
          simp only [setW] at hg
          simp only [hget]
          split at hg
          · simp at hg
          · rename_i he
            have := i.w_to_reg e' m' hg
            split
            · rename_i hf; rw [hf, hreg] at this; simp at this; exact absurd this.symm he
            · exact this
  | update e =>
    simp only [step, Option.some.injEq] at h
    subst h
    unfold Sys.update
    split
    · exact i
    · rename_i hw
      obtain ⟨m, hm⟩ : ∃ m, s.watcher e = some m := by
        cases hx : s.watcher e with
        | none => exact absurd hx hw
        | some x => exact ⟨x, rfl⟩
      rw [i.w_to_reg e m hm]
      exact i

theorem run_inv {fdOf : Nat → Int} (ops : List Op) : ∀ {s s' : Sys}, Inv fdOf s →
    run fdOf s ops = some s' → Inv fdOf s' := by
  induction ops with
  | nil => intro s s' i h; simp [run] at h; subst h; exact i
  | cons op ops ih =>
    intro s s' i h
    simp only [run] at h
    split at h
    · simp at h
    · rename_i s1 h1; exact ih (step_inv i h1) h

/-- C25 (all loops, any history): an fd has at most one event, namely an installed one for that
very fd; and every installed event is the one found under its fd. -/
theorem c25_registry_agrees (fdOf : Nat → Int) (n : Nat) (ops : List Op) (s : Sys)
    (h : run fdOf (Sys.init n) ops = some s) :
    (∀ fd e, s.reg.get fd = some e → fdOf e = fd ∧ s.watcher e ≠ none) ∧
    (∀ e, s.watcher e ≠ none → s.reg.get (fdOf e) = some e) := by
  have i := run_inv ops (init_inv fdOf n) h
  refine ⟨i.reg_to_w, ?_⟩
  intro e he
  cases hx : s.watcher e with
  | none => exact absurd hx he
  | some m => exact i.w_to_reg e m hx

/-- C25: after any history, installing an event aborts exactly when it is already installed on this
loop, its fd is out of range, or its fd is taken by another event; it is refused exactly when it is
installed on another loop; otherwise it becomes the event of its fd and nothing else changes. -/
theorem c25_install (fdOf : Nat → Int) (n : Nat) (ops : List Op) (s : Sys)
    (h : run fdOf (Sys.init n) ops = some s) (m e : Nat) :
    (s.install fdOf m e = none ↔ s.watcher e = some m ∨
      (s.watcher e = none ∧ (s.reg.bad (fdOf e) = true ∨ ∃ e', s.reg.get (fdOf e) = some e'))) ∧
    (∀ s' , s.install fdOf m e = some (s', false) → s' = s ∧ ∃ m', s.watcher e = some m' ∧ m' ≠ m) ∧
    (∀ s', s.install fdOf m e = some (s', true) →
      ∀ fd, s'.reg.get fd = if fd = fdOf e then some e else s.reg.get fd) := by
  have i := run_inv ops (init_inv fdOf n) h
  unfold Sys.install
  refine ⟨?_, ?_, ?_⟩
  · split
    · rename_i hw
      obtain ⟨w1, w2⟩ := hw
      simp [w1, w2]
    · rename_i hw
      have hcases : s.watcher e = none ∨ s.watcher e = some m := by
        by_cases hn : s.watcher e = none
        · exact Or.inl hn
        · right
          by_cases hm : s.watcher e = some m
          · exact hm
          · exact absurd ⟨hn, hm⟩ hw
      have hadd : (s.reg.add fdOf e).2 = .success ↔
          (s.reg.bad (fdOf e) = false ∧ s.reg.get (fdOf e) = none) := by
        unfold Reg.add
        cases hb : s.reg.bad (fdOf e) with
        | true => simp
        | false =>
          rw [if_neg (by simp), getD_eq_get _ _ hb]
          cases s.reg.get (fdOf e) <;> simp
      have hiff : (match s.reg.add fdOf e with
          | (r, .success) => some ((⟨r, setW s.watcher e (some m)⟩ : Sys), true)
          | _ => none) = none ↔ ¬ (s.reg.add fdOf e).2 = .success := by
        rcases s.reg.add fdOf e with ⟨r, res⟩
        cases res <;> simp
      rw [hiff, hadd]
      rcases hcases with hc | hc
      · rw [hc]
        cases hb : s.reg.bad (fdOf e) with
        | true => simp
        | false =>
          cases hg : s.reg.get (fdOf e) <;> simp
      · have := i.w_to_reg e m hc
        simp [hc, this]
  · intro s'
    split
    · rename_i hw
      intro he
      simp only [Option.some.injEq, Prod.mk.injEq, and_true] at he
      refine ⟨he.symm, ?_⟩
      cases hx : s.watcher e with
      | none => exact absurd hx hw.1
      | some m' => exact ⟨m', rfl, by intro hh; subst hh; exact hw.2 hx⟩
    · intro he
      split at he <;> simp at he
  · intro s'
    split
    · intro he; simp at he
    · intro he fd
      split at he
      · rename_i r ha
        simp only [Option.some.injEq, Prod.mk.injEq, and_true] at he
        subst he
        exact (add_success ha).2 fd
      · simp at he

/-- C25: after any history, removing an installed event on its own loop removes exactly it. -/
theorem c25_uninstall (fdOf : Nat → Int) (n : Nat) (ops : List Op) (s : Sys)
    (h : run fdOf (Sys.init n) ops = some s) (m e : Nat) (he : s.watcher e = some m) :
    ∃ s', s.remove fdOf m e = some (s', true) ∧ s'.watcher e = none ∧
      ∀ fd, s'.reg.get fd = if fd = fdOf e then none else s.reg.get fd := by
  have i := run_inv ops (init_inv fdOf n) h
  have hreg := i.w_to_reg e m he
  have hb := get_some_not_bad hreg
  have hrem : (s.reg.remove fdOf e).1 = s.reg.set (fdOf e).toNat none := by
    simp only [Reg.remove, hb, getD_eq_get s.reg _ hb, hreg]
    simp
  refine ⟨⟨(s.reg.remove fdOf e).1, setW s.watcher e none⟩, ?_, by simp [setW], ?_⟩
  · unfold Sys.remove; simp [he]
  · intro fd; simp only [hrem]; exact get_set s.reg _ _ hb _

/-- C25: changing the interest of an event never changes the registry. -/
theorem c25_update (fdOf : Nat → Int) (n : Nat) (ops : List Op) (s : Sys)
    (h : run fdOf (Sys.init n) ops = some s) (e : Nat) : s.update fdOf e = s := by
  have i := run_inv ops (init_inv fdOf n) h
  unfold Sys.update
  split
  · rfl
  · rename_i hw
    cases hx : s.watcher e with
    | none => exact absurd hx hw
    | some m => rw [i.w_to_reg e m hx]

/-! ### Dispatch (C44) -/

/-- What a handler may do without disturbing the rest of the batch: no installs. -/
def NoInstall (ops : List Op) : Prop := ∀ op ∈ ops, ∀ m e, op ≠ .install m e

theorem step_noinstall {fdOf : Nat → Int} {s s' : Sys} {op : Op} (_i : Inv fdOf s)
    (hop : ∀ m e, op ≠ .install m e) (h : step fdOf s op = some s') :
    ∀ e m, s'.watcher e = some m → s.watcher e = some m := by
  cases op with
  | install m e => exact absurd rfl (hop m e)
  | remove m e =>
    simp only [step, Sys.remove] at h
    split at h
    · simp at h; subst h; exact fun _ _ => id
    · split at h
      · simp at h
      · simp only [Option.map_some, Option.some.injEq] at h
        subst h
        intro e' m'
        simp only [setW]
        split <;> simp
  | update e =>
    simp only [step, Option.some.injEq] at h
    subst h
    unfold Sys.update
    split
    · exact fun _ _ => id
    · split <;> exact fun _ _ => id

theorem run_noinstall {fdOf : Nat → Int} (ops : List Op) : ∀ {s s' : Sys}, Inv fdOf s →
    NoInstall ops → run fdOf s ops = some s' → ∀ e m, s'.watcher e = some m → s.watcher e = some m := by
  induction ops with
  | nil => intro s s' _ _ h; simp [run] at h; subst h; exact fun _ _ => id
  | cons op ops ih =>
    intro s s' i hn h
    simp only [run] at h
    split at h
    · simp at h
    · rename_i s1 h1
      intro e m hw
      exact step_noinstall i (hn op (by simp)) h1 e m
        (ih (step_inv i h1) (fun o ho => hn o (List.mem_cons_of_mem _ ho)) h e m hw)

/-- C44: every event invoked by a batch is one whose fd was reported, and it is installed (never a
removed one) at the moment it is invoked.  (Stated for the first invocation and, by the recursion
of the batch, for each later one.) -/
theorem c44_invokes_installed (fdOf : Nat → Int) (n : Nat) (ops : List Op) (s : Sys)
    (h : run fdOf (Sys.init n) ops = some s) (acts : Nat → List Op) (fd : Int) (fds : List Int)
    (s' : Sys) (l : List Nat) (hi : invokeFired fdOf acts s (fd :: fds) = some (s', l)) :
    (s.reg.get fd = none ∧ invokeFired fdOf acts s fds = some (s', l)) ∨
    (∃ e s1 l1, s.reg.get fd = some e ∧ fdOf e = fd ∧ s.watcher e ≠ none ∧
      run fdOf (Sys.init n) (ops ++ acts e) = some s1 ∧
      invokeFired fdOf acts s1 fds = some (s', l1) ∧ l = e :: l1) := by
  have i := run_inv ops (init_inv fdOf n) h
  have run_append : ∀ (a b : List Op) (s0 s1 : Sys), run fdOf s0 a = some s1 →
      run fdOf s0 (a ++ b) = run fdOf s1 b := by
    intro a
    induction a with
    | nil => intro b s0 s1 h; simp [run] at h; subst h; rfl
    | cons x xs ih =>
      intro b s0 s1 h
      simp only [run, List.cons_append] at h ⊢
      cases hs : step fdOf s0 x with
      | none => rw [hs] at h; simp at h
      | some s2 => rw [hs] at h; exact ih b s2 s1 h
  simp only [invokeFired] at hi
  split at hi
  · rename_i hg; exact Or.inl ⟨hg, hi⟩
  · rename_i e hg
    right
    obtain ⟨k1, k2⟩ := i.reg_to_w fd e hg
    split at hi
    · simp at hi
    · rename_i s1 h1
      split at hi
      · simp at hi
      · rename_i s2 l1 h2
        simp only [Option.some.injEq, Prod.mk.injEq] at hi
        obtain ⟨rfl, rfl⟩ := hi
        exact ⟨e, s1, l1, hg, k1, k2, by rw [run_append _ _ _ _ h, h1], h2, rfl⟩

theorem right_handler_aux (fdOf : Nat → Int) (acts : Nat → List Op) (m : Nat)
    (hacts : ∀ e, NoInstall (acts e)) : ∀ (fds : List Int) (s : Sys), Inv fdOf s →
    (∀ fd ∈ fds, ∀ e, s.reg.get fd = some e → s.watcher e = some m) →
    ∀ s' l, invokeFired fdOf acts s fds = some (s', l) →
    ∀ e ∈ l, s.watcher e = some m ∧ fdOf e ∈ fds := by
  intro fds
  induction fds with
  | nil => intro s _ _ s' l h; simp [invokeFired] at h; simp [h.2]
  | cons fd fds ih =>
    intro s i hfd s' l h
    simp only [invokeFired] at h
    split at h
    · intro e he
      obtain ⟨a, b⟩ := ih s i (fun fd hf => hfd fd (List.mem_cons_of_mem _ hf)) s' l h e he
      exact ⟨a, List.mem_cons_of_mem _ b⟩
    · rename_i e0 hg
      split at h
      · simp at h
      · rename_i s1 h1
        split at h
        · simp at h
        · rename_i s2 l1 h2
          simp only [Option.some.injEq, Prod.mk.injEq] at h
          obtain ⟨rfl, rfl⟩ := h
          have i1 := run_inv (acts e0) i h1
          have back := run_noinstall (acts e0) i (hacts e0) h1
          have hfd1 : ∀ fd ∈ fds, ∀ e, s1.reg.get fd = some e → s1.watcher e = some m := by
            intro fd' hf e hge
            obtain ⟨k1, k2⟩ := i1.reg_to_w fd' e hge
            cases hx : s1.watcher e with
            | none => exact absurd hx k2
            | some m' =>
              have hw := back e m' hx
              have hr := i.w_to_reg e m' hw
              rw [k1] at hr
              have := hfd fd' (List.mem_cons_of_mem _ hf) e hr
              rw [hw] at this
              exact this
          intro e he
          rcases List.mem_cons.1 he with rfl | he
          · exact ⟨hfd fd (by simp) e hg, by rw [(i.reg_to_w fd e hg).1]; simp⟩
          · obtain ⟨a, b⟩ := ih s1 i1 hfd1 s2 l1 h2 e he
            exact ⟨back e m a, List.mem_cons_of_mem _ b⟩

/-- C44 (partial): if nothing is installed anywhere while a batch is being dispatched, every event
invoked by loop `m`'s batch was already installed on loop `m` when the batch was polled — the
reported fds being those of events watched by `m`.  What is missing: re-registration of an fd
number during the batch, see `c44_violation_fd_reuse`. -/
theorem c44_right_handler_partial (fdOf : Nat → Int) (n : Nat) (ops : List Op) (s : Sys)
    (h : run fdOf (Sys.init n) ops = some s) (m : Nat) (acts : Nat → List Op)
    (hacts : ∀ e, NoInstall (acts e)) (fds : List Int)
    (hfd : ∀ fd ∈ fds, ∀ e, s.reg.get fd = some e → s.watcher e = some m)
    (s' : Sys) (l : List Nat) (hi : invokeFired fdOf acts s fds = some (s', l)) :
    ∀ e ∈ l, s.watcher e = some m ∧ fdOf e ∈ fds :=
  right_handler_aux fdOf acts m hacts fds s (run_inv ops (init_inv fdOf n) h) hfd s' l hi

/-- C44 VIOLATION: loop 0 polls fds 3 and 4 (events 0 and 1).  While event 0's handler runs, event 1
is closed and another loop accepts a connection that gets fd 4 again (event 2, installed on loop 1).
Loop 0 then invokes event 2: a handler of another loop, for an event that was never reported. -/
theorem c44_violation_fd_reuse :
    let fdOf : Nat → Int := fun e => if e = 0 then 3 else 4
    let acts : Nat → List Op := fun e => if e = 0 then [.remove 0 1, .install 1 2] else []
    ∃ s s' l, run fdOf (Sys.init 8) [.install 0 0, .install 0 1] = some s ∧
      (∀ fd ∈ [(3 : Int), 4], ∀ e, s.reg.get fd = some e → s.watcher e = some 0) ∧
      invokeFired fdOf acts s [3, 4] = some (s', l) ∧ l = [0, 2] ∧ s'.watcher 2 = some 1 := by
  intro fdOf acts
  refine ⟨⟨[none, none, none, some 0, some 1, none, none, none],
      setW (setW (fun _ => none) 0 (some 0)) 1 (some 0)⟩,
    ⟨[none, none, none, some 0, some 2, none, none, none],
      setW (setW (setW (setW (fun _ => none) 0 (some 0)) 1 (some 0)) 1 none) 2 (some 1)⟩, [0, 2],
    rfl, ?_, rfl, rfl, by simp [setW]⟩
  intro fd hfd e
  rcases List.mem_cons.1 hfd with rfl | hfd
  · intro h; cases (Option.some.inj (show some 0 = some e from h)); simp [setW]
  · rcases List.mem_cons.1 hfd with rfl | hfd
    · intro h; cases (Option.some.inj (show some 1 = some e from h)); simp [setW]
    · simp at hfd

/-- Witness for the histories quantified over above: two loops, four registrations, one removal. -/
example : ∃ s, run (fun e => e) (Sys.init 8)
    [.install 0 3, .install 1 5, .update 3, .remove 0 3, .install 1 3] = some s ∧
    s.reg.get 3 = some 3 ∧ s.watcher 3 = some 1 := ⟨_, rfl, rfl, rfl⟩

end Ltio.Loop.FdReg
