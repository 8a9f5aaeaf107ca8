import Verif.Loop.FdReg
import Verif.Base64.Props
import Mathlib.Tactic.ByContra
/-
Model of what the kernel is asked to watch: `FdEvent` (base/message_loop/fd_event.{h,cc}) and
`IOMuxEpoll` (base/message_loop/io_mux_epoll.cc) with the epoll interest lists, on top of the
registry of `Verif.Loop.FdReg`.  Properties C139, C140, C141.

The kernel by contract (epoll_ctl(2)): ADD fails for a descriptor that is already in the list or
does not support polling (`pollable`), MOD and DEL fail for one that is not in the list; closing the
descriptor removes it from all lists (descriptors are not duplicated).
-/
namespace Ltio.Loop.Epoll
open FdReg

/-- sys/epoll.h -/
def EPOLLIN : BitVec 32 := BitVec.twoPow 32 0
def EPOLLOUT : BitVec 32 := BitVec.twoPow 32 2
def EPOLLERR : BitVec 32 := BitVec.twoPow 32 3
def EPOLLHUP : BitVec 32 := BitVec.twoPow 32 4
def EPOLLRDHUP : BitVec 32 := BitVec.twoPow 32 13
def EPOLLET : BitVec 32 := BitVec.twoPow 32 31

/-- event.h:34-39. -/
def READ : UInt8 := 0x01
def WRITE : UInt8 := 0x02
def ERROR : UInt8 := 0x04

/-- event.h:41-45, fd_event.h:98-99 `IsReadEnable`, `IsWriteEnable`. -/
def hasRead (ev : UInt8) : Bool := ev &&& READ != 0
def hasWrite (ev : UInt8) : Bool := ev &&& WRITE != 0
def hasError (ev : UInt8) : Bool := ev &&& ERROR != 0

/-- `IOMuxEpoll::ToEpollEvent` (io_mux_epoll.cc:88-98). -/
def toEpoll (ev : UInt8) : BitVec 32 :=
  ((if hasRead ev then EPOLLIN else 0) ||| (if hasWrite ev then EPOLLOUT else 0)) ||| EPOLLRDHUP

/-- `ev.events` of `IOMuxEpoll::EpollCtl` (io_mux_epoll.cc:142-146). -/
def ctlEvents (ev : UInt8) (et : Bool) : BitVec 32 := toEpoll ev ||| (if et then EPOLLET else 0)

/-- `IOMuxEpoll::ToLtEvent` (io_mux_epoll.cc:65-86). -/
def toLt (r : BitVec 32) : UInt8 :=
  (if r &&& (EPOLLHUP ||| EPOLLERR) ≠ 0 then READ ||| WRITE else 0) |||
  (if r &&& (EPOLLIN ||| EPOLLRDHUP) ≠ 0 then READ else 0) |||
  (if r &&& EPOLLOUT ≠ 0 then WRITE else 0)

/-- The registry and watcher fields, `event_` and `enable_et_` of every event, the interest lists. -/
structure St where
  sys : Sys
  mask : Nat → UInt8
  et : Nat → Bool
  ker : Nat → Int → Option (BitVec 32)

def setM (f : Nat → UInt8) (e : Nat) (v : UInt8) : Nat → UInt8 := fun x => if x = e then v else f x
def setE (f : Nat → Bool) (e : Nat) (v : Bool) : Nat → Bool := fun x => if x = e then v else f x
def setK (k : Nat → Int → Option (BitVec 32)) (m : Nat) (fd : Int) (v : Option (BitVec 32)) :
    Nat → Int → Option (BitVec 32) := fun m' fd' => if m' = m ∧ fd' = fd then v else k m' fd'

/-- fd_event.cc:36-41: `events e` is the event mask given to the constructor of event `e`. -/
def St.init (n : Nat) (events : Nat → UInt8) : St := ⟨Sys.init n, events, fun _ => false, fun _ _ => none⟩

/-- `epoll_ctl(EPOLL_CTL_ADD)` (the result is ignored, io_mux_epoll.cc:112). -/
def St.ctlAdd (fdOf : Nat → Int) (pollable : Int → Bool) (s : St) (m e : Nat) : St :=
  if pollable (fdOf e) = true ∧ s.ker m (fdOf e) = none then
    { s with ker := setK s.ker m (fdOf e) (some (ctlEvents (s.mask e) (s.et e))) }
  else s

/-- `epoll_ctl(EPOLL_CTL_DEL)` (the result is ignored, io_mux_epoll.cc:119). -/
def St.ctlDel (fdOf : Nat → Int) (s : St) (m e : Nat) : St := { s with ker := setK s.ker m (fdOf e) none }

/-- `EventPump::InstallFdEvent` (event_pump.cc:82-91), `IOMuxEpoll::AddFdEvent` (io_mux_epoll.cc:104-113). -/
def St.install (fdOf : Nat → Int) (pollable : Int → Bool) (s : St) (m e : Nat) : Option (St × Bool) :=
  match s.sys.install fdOf m e with
  | none => none
  | some (_, false) => some (s, false)
  | some (y, true) => some ({ s with sys := y }.ctlAdd fdOf pollable m e, true)

/-- `EventPump::RemoveFdEvent` (event_pump.cc:93-102), `IOMuxEpoll::DelFdEvent` (io_mux_epoll.cc:115-124). -/
def St.remove (fdOf : Nat → Int) (s : St) (m e : Nat) : Option (St × Bool) :=
  match s.sys.remove fdOf m e with
  | none => none
  | some (_, false) => some (s, false)
  | some (y, true) => some ({ s with sys := y }.ctlDel fdOf m e, true)

/-- `FdEvent::notify_watcher` (fd_event.cc:86-90), `IOMuxEpoll::UpdateFdEvent` (io_mux_epoll.cc:126-135). -/
def St.notify (fdOf : Nat → Int) (s : St) (e : Nat) : St :=
  match s.sys.watcher e with
  | none => s
  | some m =>
    if s.ker m (fdOf e) = none then s                 -- EPOLL_CTL_MOD fails, logged
    else { s with
      ker := setK s.ker m (fdOf e) (some (ctlEvents (s.mask e) (s.et e)))
      sys := s.sys.update fdOf e }

inductive Op where
  | install (m e : Nat)
  | remove (m e : Nat)
  | enableReading (e : Nat)
  | enableWriting (e : Nat)
  | disableReading (e : Nat)
  | disableWriting (e : Nat)
  | setEvent (e : Nat) (v : UInt8)       -- `DisableAll` is `SetEvent(NONE)` (fd_event.h:97)
  | setEdge (e : Nat) (b : Bool)         -- fd_event.h:91
  | close (fd : Int)                     -- the kernel: the descriptor is closed
deriving DecidableEq, Repr

/-- fd_event.cc:49-84. -/
def step (fdOf : Nat → Int) (pollable : Int → Bool) (s : St) : Op → Option St
  | .install m e => (s.install fdOf pollable m e).map Prod.fst
  | .remove m e => (s.remove fdOf m e).map Prod.fst
  | .enableReading e =>
    some (if hasRead (s.mask e) then s else { s with mask := setM s.mask e (s.mask e ||| READ) }.notify fdOf e)
  | .enableWriting e =>
    some (if hasWrite (s.mask e) then s else { s with mask := setM s.mask e (s.mask e ||| WRITE) }.notify fdOf e)
  | .disableReading e =>
    some (if !hasRead (s.mask e) then s else { s with mask := setM s.mask e (s.mask e &&& ~~~READ) }.notify fdOf e)
  | .disableWriting e =>
    some (if !hasWrite (s.mask e) then s else { s with mask := setM s.mask e (s.mask e &&& ~~~WRITE) }.notify fdOf e)
  | .setEvent e v => some ({ s with mask := setM s.mask e v }.notify fdOf e)
  | .setEdge e b => some { s with et := setE s.et e b }
  | .close fd => some { s with ker := fun m fd' => if fd' = fd then none else s.ker m fd' }

def run (fdOf : Nat → Int) (pollable : Int → Bool) (s : St) : List Op → Option St
  | [] => some s
  | op :: ops => match step fdOf pollable s op with
    | none => none
    | some s' => run fdOf pollable s' ops

/-! ### Specification: what the user asked for, read off the history -/

/-- reading was enabled last -/
def wantsRead (b : Bool) (e : Nat) : List Op → Bool
  | [] => b
  | .enableReading e' :: ops => wantsRead (if e' = e then true else b) e ops
  | .disableReading e' :: ops => wantsRead (if e' = e then false else b) e ops
  | .setEvent e' v :: ops => wantsRead (if e' = e then v.toBitVec.getLsbD 0 else b) e ops
  | _ :: ops => wantsRead b e ops

/-- writing was enabled last -/
def wantsWrite (b : Bool) (e : Nat) : List Op → Bool
  | [] => b
  | .enableWriting e' :: ops => wantsWrite (if e' = e then true else b) e ops
  | .disableWriting e' :: ops => wantsWrite (if e' = e then false else b) e ops
  | .setEvent e' v :: ops => wantsWrite (if e' = e then v.toBitVec.getLsbD 1 else b) e ops
  | _ :: ops => wantsWrite b e ops

/-- the edge-triggered mode set last -/
def wantsEdge (b : Bool) (e : Nat) : List Op → Bool
  | [] => b
  | .setEdge e' v :: ops => wantsEdge (if e' = e then v else b) e ops
  | _ :: ops => wantsEdge b e ops

/-- No installed event's descriptor is closed and no installed event's trigger mode is changed. -/
def okOp (fdOf : Nat → Int) (s : St) : Op → Prop
  | .close fd => ∀ e, s.sys.watcher e ≠ none → fdOf e ≠ fd
  | .setEdge e _ => s.sys.watcher e = none
  | _ => True

def Clean (fdOf : Nat → Int) (pollable : Int → Bool) : St → List Op → Prop
  | _, [] => True
  | s, op :: ops => okOp fdOf s op ∧ ∀ s', step fdOf pollable s op = some s' → Clean fdOf pollable s' ops

/-! ### Bits -/

theorem hr_bit (v : UInt8) : hasRead v = v.toBitVec.getLsbD 0 :=
  Base64.forall_byte (P := fun v => hasRead v = v.toBitVec.getLsbD 0) (by decide +kernel) v
theorem hw_bit (v : UInt8) : hasWrite v = v.toBitVec.getLsbD 1 :=
  Base64.forall_byte (P := fun v => hasWrite v = v.toBitVec.getLsbD 1) (by decide +kernel) v
theorem or_read (v : UInt8) : hasRead (v ||| READ) = true ∧ hasWrite (v ||| READ) = hasWrite v :=
  Base64.forall_byte (P := fun v => hasRead (v ||| READ) = true ∧ hasWrite (v ||| READ) = hasWrite v) (by decide +kernel) v
theorem or_write (v : UInt8) : hasWrite (v ||| WRITE) = true ∧ hasRead (v ||| WRITE) = hasRead v :=
  Base64.forall_byte (P := fun v => hasWrite (v ||| WRITE) = true ∧ hasRead (v ||| WRITE) = hasRead v) (by decide +kernel) v
theorem and_read (v : UInt8) : hasRead (v &&& ~~~READ) = false ∧ hasWrite (v &&& ~~~READ) = hasWrite v :=
  Base64.forall_byte (P := fun v => hasRead (v &&& ~~~READ) = false ∧ hasWrite (v &&& ~~~READ) = hasWrite v) (by decide +kernel) v
theorem and_write (v : UInt8) : hasWrite (v &&& ~~~WRITE) = false ∧ hasRead (v &&& ~~~WRITE) = hasRead v :=
  Base64.forall_byte (P := fun v => hasWrite (v &&& ~~~WRITE) = false ∧ hasRead (v &&& ~~~WRITE) = hasRead v) (by decide +kernel) v

theorem ctl_bits (v : UInt8) (b : Bool) :
    (ctlEvents v b).getLsbD 0 = hasRead v ∧ (ctlEvents v b).getLsbD 2 = hasWrite v ∧
    (ctlEvents v b).getLsbD 13 = true ∧ (ctlEvents v b).getLsbD 31 = b ∧
    ∀ i, i ≠ 0 → i ≠ 2 → i ≠ 13 → i ≠ 31 → (ctlEvents v b).getLsbD i = false := by
  unfold ctlEvents toEpoll
  cases hasRead v <;> cases hasWrite v <;> cases b <;>
    refine ⟨by decide, by decide, by decide, by decide, fun i h0 h2 h13 h31 => ?_⟩ <;>
    simp [EPOLLIN, EPOLLOUT, EPOLLRDHUP, EPOLLET, BitVec.getLsbD_twoPow, Ne.symm h0, Ne.symm h2,
      Ne.symm h13, Ne.symm h31]

/-! ### The invariant -/

/-- what list `m` should hold for `fd` -/
def expected (pollable : Int → Bool) (s : St) (m : Nat) (fd : Int) : Option (BitVec 32) :=
  match s.sys.reg.get fd with
  | none => none
  | some e => if s.sys.watcher e = some m ∧ pollable fd = true then some (ctlEvents (s.mask e) (s.et e)) else none

structure Inv (fdOf : Nat → Int) (pollable : Int → Bool) (s : St) : Prop where
  sys : FdReg.Inv fdOf s.sys
  ker : ∀ m fd, s.ker m fd = expected pollable s m fd

theorem inv_init (fdOf : Nat → Int) (pollable : Int → Bool) (n : Nat) (events : Nat → UInt8) :
    Inv fdOf pollable (St.init n events) := by
  refine ⟨init_inv fdOf n, ?_⟩
  intro m fd
  unfold expected
  rw [show (St.init n events).sys.reg = Reg.init n from rfl, (c25_get n [] fd).1]
  rfl

/-- in the invariant `UpdateFdEvent` does not touch the registry -/
theorem update_same {fdOf : Nat → Int} {y : Sys} (i : FdReg.Inv fdOf y) (e : Nat) : y.update fdOf e = y := by
  unfold Sys.update
  split
  · rfl
  · rename_i h
    cases hw : y.watcher e with
    | none => exact absurd hw h
    | some m => rw [i.w_to_reg e m hw]

theorem notify_inv {fdOf : Nat → Int} {pollable : Int → Bool} {s : St} (i : Inv fdOf pollable s) (e : Nat) (v : UInt8) :
    Inv fdOf pollable ({ s with mask := setM s.mask e v }.notify fdOf e) := by
  unfold St.notify
  simp only []
  split
  · rename_i hw
    refine ⟨i.sys, fun m fd => ?_⟩
    rw [i.ker m fd]
    unfold expected
    simp only []
    cases hg : s.sys.reg.get fd with
    | none => rfl
    | some e' =>
      simp only []
      by_cases he : e' = e
      · subst he; simp [hw]
      · simp [setM, he]
  · rename_i m hw
    have hr := i.sys.w_to_reg e m hw
    split
    · rename_i hk
      refine ⟨i.sys, fun m' fd => ?_⟩
      rw [i.ker m' fd]
      unfold expected
      simp only []
      cases hg : s.sys.reg.get fd with
      | none => rfl
      | some e' =>
        simp only []
        by_cases he : e' = e
        · subst he
          have hfd := (i.sys.reg_to_w fd e' hg).1
          rw [i.ker m (fdOf e')] at hk
          unfold expected at hk
          rw [hr] at hk
          simp only [hw, true_and] at hk
          have hp : ¬ pollable (fdOf e') = true := by
            intro h; simp [h] at hk
          rw [hfd] at hp
          simp [hp]
        · simp [setM, he]
    · rename_i hk
      rw [update_same (y := s.sys) i.sys e]
      refine ⟨i.sys, fun m' fd => ?_⟩
      unfold expected
      simp only [setK]
      have hp : pollable (fdOf e) = true := by
        rw [i.ker m (fdOf e)] at hk
        unfold expected at hk
        rw [hr] at hk
        simp only [hw, true_and] at hk
        by_contra h
        simp [h] at hk
      by_cases hfd : fd = fdOf e
      · subst hfd
        rw [hr]
        simp only [hw, hp, Option.some.injEq]
        by_cases hm : m' = m
        · subst hm; simp [setM]
        · rw [if_neg (by simp [hm]), if_neg (by simp [Ne.symm hm]), i.ker m' (fdOf e)]
          unfold expected
          rw [hr]
          simp [hw, Ne.symm hm]
      · rw [if_neg (by simp [hfd]), i.ker m' fd]
        unfold expected
        cases hg : s.sys.reg.get fd with
        | none => rfl
        | some e' =>
          have he : e' ≠ e := by
            rintro rfl
            exact hfd (i.sys.reg_to_w fd e' hg).1.symm
          simp [setM, he]


/-- the events' masks and trigger modes do not matter where the registry has nothing else -/
theorem step_sys {fdOf : Nat → Int} {pollable : Int → Bool} {s s' : St} {op : Op} (i : Inv fdOf pollable s)
    (hok : okOp fdOf s op) (h : step fdOf pollable s op = some s') : Inv fdOf pollable s' := by
  cases op with
  | install m e =>
    simp only [step, St.install] at h
    split at h
    · simp at h
    · simp at h; subst h; exact i
    · rename_i y hy
      simp at h; subst h
      have iy : FdReg.Inv fdOf y := step_inv (op := .install m e) i.sys (by simp [FdReg.step, hy])
      unfold Sys.install at hy
      split at hy
      · simp at hy
      · rename_i hwe
        split at hy
        · rename_i r hr
          simp only [Option.some.injEq, Prod.mk.injEq, and_true] at hy
          subst hy
          obtain ⟨hn, hg⟩ := add_success hr
          have hk0 : s.ker m (fdOf e) = none := by rw [i.ker]; unfold expected; rw [hn]
          have hwn : s.sys.watcher e = none := by
            cases hw : s.sys.watcher e with
            | none => rfl
            | some m' => have := i.sys.w_to_reg e m' hw; rw [hn] at this; simp at this
          have other : ∀ m' fd, fd ≠ fdOf e → s.ker m' fd =
              expected pollable { s with sys := ⟨r, setW s.sys.watcher e (some m)⟩ } m' fd := by
            intro m' fd hfd
            rw [i.ker m' fd]
            unfold expected
            simp only []
            rw [hg fd, if_neg hfd]
            cases hg' : s.sys.reg.get fd with
            | none => rfl
            | some e' =>
              have he : e' ≠ e := by rintro rfl; exact hfd (i.sys.reg_to_w fd e' hg').1.symm
              simp [setW, he]
          unfold St.ctlAdd
          simp only [hk0, and_true]
          split
          · rename_i hp
            refine ⟨iy, fun m' fd => ?_⟩
            simp only [setK]
            by_cases hfd : fd = fdOf e
            · subst hfd
              unfold expected
              simp only []
              rw [hg, if_pos rfl]
              simp only [setW, hp, and_true, if_true]
              by_cases hm : m' = m
              · subst hm; simp
              · have : s.ker m' (fdOf e) = none := by rw [i.ker]; unfold expected; rw [hn]
                simp [hm, this, Ne.symm hm]
            · rw [if_neg (by simp [hfd])]
              exact other m' fd hfd
          · rename_i hp
            refine ⟨iy, fun m' fd => ?_⟩
            by_cases hfd : fd = fdOf e
            · subst hfd
              have : s.ker m' (fdOf e) = none := by rw [i.ker]; unfold expected; rw [hn]
              simp only [this]
              unfold expected
              simp only []
              rw [hg, if_pos rfl]
              simp [hp]
            · exact other m' fd hfd
        · simp at hy
  | remove m e =>
    simp only [step, St.remove] at h
    split at h
    · simp at h
    · simp at h; subst h; exact i
    · rename_i y hy
      simp at h; subst h
      have iy : FdReg.Inv fdOf y := step_inv (op := .remove m e) i.sys (by simp [FdReg.step, hy])
      unfold Sys.remove at hy
      split at hy
      · simp at hy
      · split at hy
        · simp at hy
        · rename_i h1 h2
          have hw : s.sys.watcher e = some m := by simpa using h2
          simp only [Option.some.injEq, Prod.mk.injEq, and_true] at hy
          have hr := i.sys.w_to_reg e m hw
          have hb := get_some_not_bad hr
          have hrem : (s.sys.reg.remove fdOf e).1 = s.sys.reg.set (fdOf e).toNat none := by
            unfold Reg.remove
            rw [hb, getD_eq_get _ _ hb, hr]
            simp
          rw [hrem] at hy
          have hg : ∀ fd, y.reg.get fd = if fd = fdOf e then none else s.sys.reg.get fd := by
            intro fd; rw [← hy]; exact get_set s.sys.reg _ _ hb none
          have hyw : y.watcher = setW s.sys.watcher e none := by rw [← hy]
          refine ⟨iy, fun m' fd => ?_⟩
          unfold St.ctlDel expected
          simp only [setK]
          rw [hg fd]
          by_cases hfd : fd = fdOf e
          · subst hfd
            rw [if_pos rfl]
            simp only []
            by_cases hm : m' = m
            · simp [hm]
            · rw [if_neg (by simp [hm]), i.ker m' (fdOf e)]
              unfold expected
              rw [hr]
              simp [hw, Ne.symm hm]
          · rw [if_neg hfd, if_neg (by simp [hfd]), i.ker m' fd]
            unfold expected
            cases hg' : s.sys.reg.get fd with
            | none => rfl
            | some e' =>
              have he : e' ≠ e := by rintro rfl; exact hfd (i.sys.reg_to_w fd e' hg').1.symm
              simp [hyw, setW, he]
  | enableReading e =>
    simp only [step, Option.some.injEq] at h
    split at h
    · rw [← h]; exact i
    · rw [← h]; exact notify_inv i e _
  | enableWriting e =>
    simp only [step, Option.some.injEq] at h
    split at h
    · rw [← h]; exact i
    · rw [← h]; exact notify_inv i e _
  | disableReading e =>
    simp only [step, Option.some.injEq] at h
    split at h
    · rw [← h]; exact i
    · rw [← h]; exact notify_inv i e _
  | disableWriting e =>
    simp only [step, Option.some.injEq] at h
    split at h
    · rw [← h]; exact i
    · rw [← h]; exact notify_inv i e _
  | setEvent e v =>
    simp only [step, Option.some.injEq] at h
    rw [← h]; exact notify_inv i e _
  | setEdge e b =>
    simp only [step, Option.some.injEq] at h
    subst h
    have hok : s.sys.watcher e = none := hok
    refine ⟨i.sys, fun m fd => ?_⟩
    rw [show ({ s with et := setE s.et e b } : St).ker m fd = s.ker m fd from rfl, i.ker m fd]
    unfold expected
    simp only []
    cases hg : s.sys.reg.get fd with
    | none => rfl
    | some e' =>
      by_cases he : e' = e
      · subst he; simp [hok]
      · simp [setE, he]
  | close fd =>
    simp only [step, Option.some.injEq] at h
    subst h
    have hok : ∀ e, s.sys.watcher e ≠ none → fdOf e ≠ fd := hok
    refine ⟨i.sys, fun m fd' => ?_⟩
    simp only []
    by_cases hfd : fd' = fd
    · subst hfd
      rw [if_pos rfl]
      unfold expected
      simp only []
      cases hg : s.sys.reg.get fd' with
      | none => rfl
      | some e =>
        obtain ⟨h1, h2⟩ := i.sys.reg_to_w fd' e hg
        exact absurd h1 (hok e h2)
    · rw [if_neg hfd, i.ker m fd']
      rfl

theorem run_inv (ops : List Op) : ∀ {fdOf : Nat → Int} {pollable : Int → Bool} {s s' : St}, Inv fdOf pollable s →
    Clean fdOf pollable s ops → run fdOf pollable s ops = some s' → Inv fdOf pollable s' := by
  induction ops with
  | nil => intro fdOf pollable s s' i _ h; simp [run] at h; subst h; exact i
  | cons op ops ih =>
    intro fdOf pollable s s' i hc h
    simp only [run] at h
    split at h
    · simp at h
    · rename_i s1 h1
      exact ih (step_sys i hc.1 h1) (hc.2 s1 h1) h

theorem notify_mask (fdOf : Nat → Int) (s : St) (e : Nat) : (s.notify fdOf e).mask = s.mask ∧ (s.notify fdOf e).et = s.et := by
  unfold St.notify
  split
  · exact ⟨rfl, rfl⟩
  · split <;> exact ⟨rfl, rfl⟩

theorem add_mask (fdOf : Nat → Int) (pollable : Int → Bool) (s : St) (m e : Nat) :
    (s.ctlAdd fdOf pollable m e).mask = s.mask ∧ (s.ctlAdd fdOf pollable m e).et = s.et := by
  unfold St.ctlAdd; split <;> exact ⟨rfl, rfl⟩

/-- the masks follow the history, whatever happens -/
theorem wants_run (ops : List Op) : ∀ {fdOf : Nat → Int} {pollable : Int → Bool} {s s' : St} (e : Nat),
    run fdOf pollable s ops = some s' →
    hasRead (s'.mask e) = wantsRead (hasRead (s.mask e)) e ops ∧
    hasWrite (s'.mask e) = wantsWrite (hasWrite (s.mask e)) e ops ∧
    s'.et e = wantsEdge (s.et e) e ops := by
  induction ops with
  | nil => intro fdOf pollable s s' e h; simp [run] at h; subst h; exact ⟨rfl, rfl, rfl⟩
  | cons op ops ih =>
    intro fdOf pollable s s' e h
    simp only [run] at h
    split at h
    · simp at h
    · rename_i s1 h1
      obtain ⟨a, b, c⟩ := ih e h
      rw [a, b, c]
      cases op with
      | install m e' =>
        simp only [step, St.install] at h1
        split at h1
        · simp at h1
        · simp at h1; subst h1; exact ⟨rfl, rfl, rfl⟩
        · simp at h1; subst h1
          rename_i y _
          have := add_mask fdOf pollable { s with sys := y } m e'
          rw [this.1, this.2]; exact ⟨rfl, rfl, rfl⟩
      | remove m e' =>
        simp only [step, St.remove] at h1
        split at h1
        · simp at h1
        · simp at h1; subst h1; exact ⟨rfl, rfl, rfl⟩
        · simp at h1; subst h1; exact ⟨rfl, rfl, rfl⟩
      | enableReading e' =>
        simp only [step, Option.some.injEq] at h1
        subst h1
        simp only [wantsRead, wantsWrite, wantsEdge]
        by_cases he : e' = e
        · subst he
          by_cases hr : hasRead (s.mask e') = true
          · simp [hr]
          · rw [if_neg hr, (notify_mask fdOf _ e').1, (notify_mask fdOf _ e').2]
            simp [setM, or_read]
        · split
          · simp
          · rw [(notify_mask fdOf _ e').1, (notify_mask fdOf _ e').2]
            simp [setM, Ne.symm he]
      | enableWriting e' =>
        simp only [step, Option.some.injEq] at h1
        subst h1
        simp only [wantsRead, wantsWrite, wantsEdge]
        by_cases he : e' = e
        · subst he
          by_cases hr : hasWrite (s.mask e') = true
          · simp [hr]
          · rw [if_neg hr, (notify_mask fdOf _ e').1, (notify_mask fdOf _ e').2]
            simp [setM, or_write]
        · split
          · simp
          · rw [(notify_mask fdOf _ e').1, (notify_mask fdOf _ e').2]
            simp [setM, Ne.symm he]
      | disableReading e' =>
        simp only [step, Option.some.injEq] at h1
        subst h1
        simp only [wantsRead, wantsWrite, wantsEdge]
        by_cases he : e' = e
        · subst he
          by_cases hr : hasRead (s.mask e') = false
          · simp [hr]
          · rw [if_neg (by simpa using hr), (notify_mask fdOf _ e').1, (notify_mask fdOf _ e').2]
            simp [setM, and_read]
        · split
          · simp
          · rw [(notify_mask fdOf _ e').1, (notify_mask fdOf _ e').2]
            simp [setM, Ne.symm he]
      | disableWriting e' =>
        simp only [step, Option.some.injEq] at h1
        subst h1
        simp only [wantsRead, wantsWrite, wantsEdge]
        by_cases he : e' = e
        · subst he
          by_cases hr : hasWrite (s.mask e') = false
          · simp [hr]
          · rw [if_neg (by simpa using hr), (notify_mask fdOf _ e').1, (notify_mask fdOf _ e').2]
            simp [setM, and_write]
        · split
          · simp
          · rw [(notify_mask fdOf _ e').1, (notify_mask fdOf _ e').2]
            simp [setM, Ne.symm he]
      | setEvent e' v =>
        simp only [step, Option.some.injEq] at h1
        subst h1
        simp only [wantsRead, wantsWrite, wantsEdge]
        rw [(notify_mask fdOf _ e').1, (notify_mask fdOf _ e').2]
        by_cases he : e' = e
        · subst he; simp [setM, hr_bit, hw_bit]
        · simp [setM, he, Ne.symm he]
      | setEdge e' v =>
        simp only [step, Option.some.injEq] at h1
        subst h1
        simp only [wantsRead, wantsWrite, wantsEdge]
        by_cases he : e' = e
        · subst he; simp [setE]
        · simp [setE, he, Ne.symm he]
      | close fd =>
        simp only [step, Option.some.injEq] at h1
        subst h1; exact ⟨rfl, rfl, rfl⟩

/-- **C139.** After every history in which no installed event's descriptor is closed and no
installed event's trigger mode changed: for an event installed in loop `m` on a descriptor that can
be polled, the kernel list of `m` asks for input exactly if reading was enabled last, for output
exactly if writing was, for the peer's shutdown always, edge-triggered exactly if that mode is set,
and for nothing else. -/
theorem c139_interest (fdOf : Nat → Int) (pollable : Int → Bool) (n : Nat) (events : Nat → UInt8) (ops : List Op)
    (s : St) (hc : Clean fdOf pollable (St.init n events) ops)
    (h : run fdOf pollable (St.init n events) ops = some s) (m e : Nat) (hw : s.sys.watcher e = some m)
    (hp : pollable (fdOf e) = true) :
    ∃ x, s.ker m (fdOf e) = some x ∧
      x.getLsbD 0 = wantsRead ((events e).toBitVec.getLsbD 0) e ops ∧
      x.getLsbD 2 = wantsWrite ((events e).toBitVec.getLsbD 1) e ops ∧
      x.getLsbD 13 = true ∧ x.getLsbD 31 = wantsEdge false e ops ∧
      ∀ i, i ≠ 0 → i ≠ 2 → i ≠ 13 → i ≠ 31 → x.getLsbD i = false := by
  have i := run_inv ops (inv_init fdOf pollable n events) hc h
  obtain ⟨a, b, c⟩ := wants_run ops e h
  refine ⟨ctlEvents (s.mask e) (s.et e), ?_, ?_⟩
  · rw [i.ker]; unfold expected; rw [i.sys.w_to_reg e m hw]; simp [hw, hp]
  · obtain ⟨b0, b2, b13, b31, bo⟩ := ctl_bits (s.mask e) (s.et e)
    refine ⟨?_, ?_, b13, ?_, bo⟩
    · rw [b0, a, ← hr_bit]; rfl
    · rw [b2, b, ← hw_bit]; rfl
    · rw [b31, c]; rfl

/-- **C139.** ... and the kernel watches nothing but installed events: a descriptor in the list of
loop `m` is that of an event installed in `m`. -/
theorem c139_only_installed (fdOf : Nat → Int) (pollable : Int → Bool) (n : Nat) (events : Nat → UInt8) (ops : List Op)
    (s : St) (hc : Clean fdOf pollable (St.init n events) ops)
    (h : run fdOf pollable (St.init n events) ops = some s) (m : Nat) (fd : Int) (hk : s.ker m fd ≠ none) :
    ∃ e, fdOf e = fd ∧ s.sys.watcher e = some m := by
  have i := run_inv ops (inv_init fdOf pollable n events) hc h
  rw [i.ker] at hk
  unfold expected at hk
  split at hk
  · exact absurd rfl hk
  · rename_i e hg
    refine ⟨e, (i.sys.reg_to_w fd e hg).1, ?_⟩
    by_contra hn
    simp [hn] at hk

/-- **C139.** What installing and removing answer: `true` exactly if the event is now installed in that loop, or is no
longer; a refused call changes nothing. -/
theorem c139_answers (fdOf : Nat → Int) (pollable : Int → Bool) (s s' : St) (m e : Nat) (b : Bool) :
    (s.install fdOf pollable m e = some (s', b) →
      (b = true ∧ s'.sys.watcher e = some m) ∨ (b = false ∧ s' = s ∧ s.sys.watcher e ≠ none ∧ s.sys.watcher e ≠ some m)) ∧
    (s.remove fdOf m e = some (s', b) →
      (b = true ∧ s.sys.watcher e = some m ∧ s'.sys.watcher e = none) ∨ (b = false ∧ s' = s ∧ s.sys.watcher e = none)) := by
  constructor
  · intro h
    unfold St.install at h
    unfold Sys.install at h
    by_cases hw : s.sys.watcher e ≠ none ∧ s.sys.watcher e ≠ some m
    · rw [if_pos hw] at h
      simp only [Option.some.injEq, Prod.mk.injEq] at h
      exact .inr ⟨h.2.symm, h.1.symm, hw⟩
    · rw [if_neg hw] at h
      rcases ha : s.sys.reg.add fdOf e with ⟨r, res⟩
      rw [ha] at h
      cases res <;> simp only [Option.some.injEq, Prod.mk.injEq, reduceCtorEq] at h
      refine .inl ⟨h.2.symm, ?_⟩
      rw [← h.1]
      unfold St.ctlAdd
      split <;> simp [setW]
  · intro h
    unfold St.remove at h
    unfold Sys.remove at h
    by_cases hn : s.sys.watcher e = none
    · rw [if_pos hn] at h
      simp only [Option.some.injEq, Prod.mk.injEq] at h
      exact .inr ⟨h.2.symm, h.1.symm, hn⟩
    · rw [if_neg hn] at h
      by_cases hm : s.sys.watcher e ≠ some m
      · rw [if_pos hm] at h; cases h
      · rw [if_neg hm] at h
        simp only [Option.some.injEq, Prod.mk.injEq] at h
        refine .inl ⟨h.2.symm, not_not.1 hm, ?_⟩
        rw [← h.1]
        simp [St.ctlDel, setW]

/-- A history of the kind quantified over: install, change, remove, close, reuse by another event. -/
example : ∃ s, run (fun e => (e : Int) % 3) (fun _ => true) (St.init 8 (fun _ => 1))
      [.setEdge 0 true, .install 1 0, .enableWriting 0, .disableReading 0, .remove 1 0, .close 0, .install 2 3] = some s ∧
      s.ker 1 0 = none ∧ s.ker 2 0 = some 0x2001#32 := by
  exact ⟨_, rfl, by decide, by decide⟩

/-- **C140 violation.** Installing an event whose descriptor cannot be polled (a regular file)
reports success, but nothing is watched: epoll's refusal is ignored. -/
theorem c140_install_violated (fdOf : Nat → Int) (pollable : Int → Bool) (n : Nat) (events : Nat → UInt8) (m e : Nat)
    (h1 : 0 ≤ fdOf e) (h2 : fdOf e < n) (hp : pollable (fdOf e) = false) :
    ∃ s, (St.init n events).install fdOf pollable m e = some (s, true) ∧ s.sys.watcher e = some m ∧
      ∀ fd, s.ker m fd = none := by
  have hb : (Reg.init n).bad (fdOf e) = false := by
    unfold Reg.bad Reg.init; simp; omega
  have hg : (Reg.init n).getD (fdOf e).toNat none = none := by
    rw [getD_eq_get _ _ hb, (c25_get n [] _).1]
  have : (Sys.init n).install fdOf m e = some (⟨(Reg.init n).set (fdOf e).toNat (some e), setW (fun _ => none) e (some m)⟩, true) := by
    unfold Sys.install Reg.add Sys.init
    simp only [hb, hg]
    simp
  refine ⟨{ St.init n events with
      sys := ⟨(Reg.init n).set (fdOf e).toNat (some e), setW (fun _ => none) e (some m)⟩ }, ?_, ?_, ?_⟩
  · unfold St.install
    rw [show (St.init n events).sys = Sys.init n from rfl, this]
    unfold St.ctlAdd
    simp [hp]
  · simp [setW]
  · intro fd; rfl

/-- **C140 violation.** Changing the trigger mode of an installed event has no effect on the kernel:
after any such history, an installed event in level-triggered mode stays so in the kernel although it
says that it is edge-triggered. -/
theorem c140_edge_violated (fdOf : Nat → Int) (pollable : Int → Bool) (n : Nat) (events : Nat → UInt8) (ops : List Op)
    (s : St) (hc : Clean fdOf pollable (St.init n events) ops)
    (h : run fdOf pollable (St.init n events) ops = some s) (m e : Nat) (hw : s.sys.watcher e = some m)
    (hp : pollable (fdOf e) = true) (hl : wantsEdge false e ops = false) :
    ∃ s' x, step fdOf pollable s (.setEdge e true) = some s' ∧ s'.et e = true ∧ s'.ker m (fdOf e) = some x ∧
      x.getLsbD 31 = false := by
  obtain ⟨x, hx, _, _, _, h31, _⟩ := c139_interest fdOf pollable n events ops s hc h m e hw hp
  exact ⟨_, x, rfl, by simp [setE], hx, by rw [h31, hl]⟩

/-- **C140 violation.** If the descriptor of an installed event is closed and its number given out
again, everything enabled on the event is lost: whatever is then enabled, disabled or set, the
kernel watches nothing, although the event counts as installed. -/
theorem c140_closed_violated (fdOf : Nat → Int) (pollable : Int → Bool) (s : St) (m e : Nat) (op : Op)
    (hw : s.sys.watcher e = some m)
    (hop : op = .enableReading e ∨ op = .enableWriting e ∨ op = .disableReading e ∨ op = .disableWriting e ∨ ∃ v, op = .setEvent e v) :
    ∃ s', run fdOf pollable s [.close (fdOf e), op] = some s' ∧ s'.sys.watcher e = some m ∧ s'.ker m (fdOf e) = none := by
  have hn : ∀ f : St → St, (∀ t, (f t).sys = t.sys ∧ (f t).ker = t.ker) →
      ((f { s with ker := fun m fd' => if fd' = fdOf e then none else s.ker m fd' }).notify fdOf e).sys.watcher e = some m ∧
      ((f { s with ker := fun m fd' => if fd' = fdOf e then none else s.ker m fd' }).notify fdOf e).ker m (fdOf e) = none := by
    intro f hf
    unfold St.notify
    rw [(hf _).1, (hf _).2]
    simp only [hw, if_true]
    rw [(hf _).1, (hf _).2]
    exact ⟨hw, by simp⟩
  have h0 : ({ s with ker := fun m fd' => if fd' = fdOf e then none else s.ker m fd' } : St).sys.watcher e = some m ∧
      ({ s with ker := fun m fd' => if fd' = fdOf e then none else s.ker m fd' } : St).ker m (fdOf e) = none := ⟨hw, by simp⟩
  rcases hop with rfl | rfl | rfl | rfl | ⟨v, rfl⟩
  · refine ⟨_, rfl, ?_⟩
    split
    · exact h0
    · exact hn (fun t => { t with mask := setM t.mask e (t.mask e ||| READ) }) (fun _ => ⟨rfl, rfl⟩)
  · refine ⟨_, rfl, ?_⟩
    split
    · exact h0
    · exact hn (fun t => { t with mask := setM t.mask e (t.mask e ||| WRITE) }) (fun _ => ⟨rfl, rfl⟩)
  · refine ⟨_, rfl, ?_⟩
    split
    · exact h0
    · exact hn (fun t => { t with mask := setM t.mask e (t.mask e &&& ~~~READ) }) (fun _ => ⟨rfl, rfl⟩)
  · refine ⟨_, rfl, ?_⟩
    split
    · exact h0
    · exact hn (fun t => { t with mask := setM t.mask e (t.mask e &&& ~~~WRITE) }) (fun _ => ⟨rfl, rfl⟩)
  · exact ⟨_, rfl, hn (fun t => { t with mask := setM t.mask e v }) (fun _ => ⟨rfl, rfl⟩)⟩

/-! ### What is reported -/

theorem and2 (r : BitVec 32) (a b : Nat) (ha : a < 32) (hb : b < 32) :
    (r &&& (BitVec.twoPow 32 a ||| BitVec.twoPow 32 b) ≠ 0) ↔ (r.getLsbD a = true ∨ r.getLsbD b = true) := by
  constructor
  · intro h
    by_contra hn
    apply h
    apply BitVec.eq_of_getLsbD_eq
    intro i hi
    simp only [not_or, Bool.not_eq_true] at hn
    simp only [BitVec.getLsbD_and, BitVec.getLsbD_or, BitVec.getLsbD_twoPow, BitVec.ofNat_eq_ofNat, BitVec.getLsbD_zero]
    by_cases h1 : a = i
    · subst h1; simp [hn.1]
    · by_cases h2 : b = i
      · subst h2; simp [hn.2]
      · simp [h1, h2]
  · intro h e
    have e1 : ∀ i, (r &&& (BitVec.twoPow 32 a ||| BitVec.twoPow 32 b)).getLsbD i = false := by intro i; rw [e]; simp
    have ea := e1 a; have eb := e1 b
    simp only [BitVec.getLsbD_and, BitVec.getLsbD_or, BitVec.getLsbD_twoPow, ha, hb, decide_true, Bool.true_and, Bool.true_or, Bool.or_true, Bool.and_true] at ea eb
    rcases h with h | h
    · rw [h] at ea; exact absurd ea (by simp)
    · rw [h] at eb; exact absurd eb (by simp)

theorem and1 (r : BitVec 32) (a : Nat) (ha : a < 32) : (r &&& BitVec.twoPow 32 a ≠ 0) ↔ r.getLsbD a = true := by
  have := and2 r a a ha ha
  simpa using this

theorem toLt_bits (r : BitVec 32) :
    hasRead (toLt r) = (r.getLsbD 4 || r.getLsbD 3 || r.getLsbD 0 || r.getLsbD 13) ∧
    hasWrite (toLt r) = (r.getLsbD 4 || r.getLsbD 3 || r.getLsbD 2) ∧
    hasError (toLt r) = false := by
  unfold toLt
  rw [show (EPOLLHUP ||| EPOLLERR) = BitVec.twoPow 32 4 ||| BitVec.twoPow 32 3 from rfl,
    show (EPOLLIN ||| EPOLLRDHUP) = BitVec.twoPow 32 0 ||| BitVec.twoPow 32 13 from rfl,
    show EPOLLOUT = BitVec.twoPow 32 2 from rfl]
  simp only [and2 r 4 3 (by decide) (by decide), and2 r 0 13 (by decide) (by decide), and1 r 2 (by decide)]
  cases r.getLsbD 4 <;> cases r.getLsbD 3 <;> cases r.getLsbD 0 <;> cases r.getLsbD 13 <;> cases r.getLsbD 2 <;> decide

/-- **C141.** The handler is told to read exactly if the kernel reports input, the peer's shutdown,
a hang-up or an error, and to write exactly if it reports room, a hang-up or an error. -/
theorem c141_reported (r : BitVec 32) :
    (hasRead (toLt r) = true ↔ (r.getLsbD 0 = true ∨ r.getLsbD 13 = true ∨ r.getLsbD 4 = true ∨ r.getLsbD 3 = true)) ∧
    (hasWrite (toLt r) = true ↔ (r.getLsbD 2 = true ∨ r.getLsbD 4 = true ∨ r.getLsbD 3 = true)) := by
  obtain ⟨a, b, _⟩ := toLt_bits r
  rw [a, b]
  simp only [Bool.or_eq_true]
  constructor <;> constructor <;> intro h <;> rcases h with h | h <;> (try rcases h with h | h) <;> (try rcases h with h | h) <;> simp [h]

/-- What the kernel may report for an interest `x` (epoll_wait(2)): something; only what was asked
for, errors and hang-ups. -/
def Reported (x r : BitVec 32) : Prop :=
  (r.getLsbD 0 = true → x.getLsbD 0 = true) ∧ (r.getLsbD 2 = true → x.getLsbD 2 = true) ∧
  (r.getLsbD 13 = true → x.getLsbD 13 = true) ∧ (∃ i ∈ [0, 2, 3, 4, 13], r.getLsbD i = true)

/-- **C141.** The handler is always told something; without a shutdown of the peer, hang-up or error
only what is enabled. -/
theorem c141_enabled (v : UInt8) (b : Bool) (r : BitVec 32) (h : Reported (ctlEvents v b) r) :
    (hasRead (toLt r) = true ∨ hasWrite (toLt r) = true) ∧
    ((r.getLsbD 3 = false ∧ r.getLsbD 4 = false ∧ r.getLsbD 13 = false) →
      (hasRead (toLt r) = true → hasRead v = true) ∧ (hasWrite (toLt r) = true → hasWrite v = true)) := by
  obtain ⟨h0, h2, h13, i, hi, hr⟩ := h
  obtain ⟨b0, b2, _⟩ := ctl_bits v b
  rw [b0] at h0; rw [b2] at h2
  have hx := c141_reported r
  refine ⟨?_, ?_⟩
  · rw [hx.1, hx.2]
    simp only [List.mem_cons, List.not_mem_nil, or_false] at hi
    rcases hi with rfl | rfl | rfl | rfl | rfl <;> simp [hr]
  · rintro ⟨e3, e4, e13⟩
    rw [hx.1, hx.2, e3, e4, e13]
    simp only [Bool.false_eq_true, or_false]
    exact ⟨h0, h2⟩

example : Reported (ctlEvents 1 true) 0x2001#32 := ⟨by decide, by decide, by decide, 0, by decide, by decide⟩

/-- **C140 violation.** No handler is ever told of an error: whatever the kernel reports, the error
flag of the event handed to the handler is clear. -/
theorem c140_error_violated (r : BitVec 32) : hasError (toLt r) = false := (toLt_bits r).2.2

/-- **C140 violation.** A handler is called for events that are not enabled: with everything
disabled, the peer's shutdown is reported as something to read, and a hang-up as something to read
and to write, as often as the loop polls (the interest is level-triggered unless set otherwise). -/
theorem c140_disabled_violated (v : UInt8) (hv : hasRead v = false ∧ hasWrite v = false) :
    Reported (ctlEvents v false) EPOLLRDHUP ∧ hasRead (toLt EPOLLRDHUP) = true ∧
    Reported (ctlEvents v false) EPOLLHUP ∧ hasRead (toLt EPOLLHUP) = true ∧ hasWrite (toLt EPOLLHUP) = true ∧
    (ctlEvents v false).getLsbD 31 = false := by
  obtain ⟨_, _, b13, b31, _⟩ := ctl_bits v false
  refine ⟨⟨fun h => absurd h (by decide), fun h => absurd h (by decide), fun _ => b13, 13, by decide, by decide⟩, by decide,
    ⟨fun h => absurd h (by decide), fun h => absurd h (by decide), fun h => absurd h (by decide), 4, by decide, by decide⟩, by decide, by decide, b31⟩

/-- The result of `IOEvent::HandleEvent` (base/coroutine/io_event.cc:81-88): `true` is `Ok`. -/
def ioOk (monitor fired : UInt8) : Bool := monitor &&& fired != 0

/-- **C141.** A coroutine waiting for a descriptor is told `Ok` exactly if what fired has reading and it waits for
reading, or has writing and it waits for writing. -/
theorem c141_wait (v : UInt8) (r : BitVec 32) :
    ioOk v (toLt r) = true ↔ (hasRead v = true ∧ hasRead (toLt r) = true) ∨ (hasWrite v = true ∧ hasWrite (toLt r) = true) := by
  have e : toLt r = 0 ∨ toLt r = 1 ∨ toLt r = 2 ∨ toLt r = 3 := by
    unfold toLt
    split <;> split <;> split <;> decide
  rcases e with e | e | e | e <;> rw [e] <;> revert v <;>
    exact Base64.forall_byte (by decide +kernel)

/-- **C140 violation.** A coroutine waiting for a descriptor is told `Ok` at every error and
hang-up, whichever of reading and writing it waits for. -/
theorem c140_wait_violated (v : UInt8) (hv : hasRead v = true ∨ hasWrite v = true) (r : BitVec 32)
    (hr : r.getLsbD 3 = true ∨ r.getLsbD 4 = true) : ioOk v (toLt r) = true := by
  obtain ⟨a, b, _⟩ := toLt_bits r
  have e : toLt r = 3 := by
    unfold toLt
    rw [show (EPOLLHUP ||| EPOLLERR) = BitVec.twoPow 32 4 ||| BitVec.twoPow 32 3 from rfl,
      if_pos ((and2 r 4 3 (by decide) (by decide)).2 hr.symm)]
    split <;> split <;> decide
  rw [e]
  revert hv
  exact Base64.forall_byte (P := fun v => (hasRead v = true ∨ hasWrite v = true) → ioOk v 3 = true) (by decide +kernel) v

end Ltio.Loop.Epoll
