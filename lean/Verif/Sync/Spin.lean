import Verif.Sync.Basic

/-
Model of base/memory/spin_lock.cc (C79): `lock`, `try_lock`, `unlock` and `SpinLockGuard` called
by any number of threads, every atomic access of the flag being one step.

The memory order arguments are not modelled: steps interleave (sequential consistency of the one
flag; the acquire/release pair orders the protected accesses).
-/
namespace Ltio.Sync.Spin

/-- Where a thread is. -/
inductive PC where
  /-- outside -/
  | idle
  /-- in `lock`, before the exchange of line 14 -/
  | exch
  /-- in `lock`, before the load of line 17 -/
  | load1
  /-- in `lock`, before the load of line 20 -/
  | load2
  /-- `lock` or a successful `try_lock` has returned; the protected code runs -/
  | held
  /-- inside the protected code, after reading the protected variable -/
  | read (v : Nat)
deriving DecidableEq

/-- The flag, the threads, and a variable that is only used under the lock: an update reads it and
stores the value plus one, in two steps. -/
structure St where
  flag : Bool
  pc : Nat → PC
  var : Nat
  /-- number of completed updates (ghost) -/
  done : Nat

/-- A new lock (spin_lock.cc:8-10). -/
def init : St := ⟨false, fun _ => .idle, 0, 0⟩

/-- What a thread does next. -/
inductive Lab where
  /-- call `lock` (also `SpinLockGuard`, spin_lock.cc:36-38) -/
  | lock (t : Nat)
  /-- call `try_lock` -/
  | tryLock (t : Nat)
  /-- the next access of the flag inside `lock` -/
  | go (t : Nat)
  /-- call `unlock` (also `~SpinLockGuard`, spin_lock.cc:40-42) -/
  | unlock (t : Nat)
  /-- read the protected variable -/
  | read (t : Nat)
  /-- store the value read plus one -/
  | write (t : Nat)
deriving DecidableEq

/-- A step to `q` of thread `t`. -/
def St.to (s : St) (t : Nat) (q : PC) : St := ⟨s.flag, put s.pc t q, s.var, s.done⟩

/-- An exchange of the flag with `true` by thread `t`, which goes to `q` if the flag was set. -/
def St.xchg (s : St) (t : Nat) (q : PC) : St :=
  ⟨true, put s.pc t (if s.flag then q else .held), s.var, s.done⟩

/-- A store of `false` in the flag (spin_lock.cc:32-34). -/
def St.clear (s : St) (t : Nat) : St := ⟨false, put s.pc t .idle, s.var, s.done⟩

/-- A store in the protected variable. -/
def St.store (s : St) (t v : Nat) : St := ⟨s.flag, put s.pc t .held, v, s.done + 1⟩

/-- One step (spin_lock.cc:12-34).  A thread only calls `lock` or `try_lock` when it does not hold
the lock, and only calls `unlock` when it does (the user's obligation). -/
def step (s : St) : Lab → Option St
  | .lock t =>
    match s.pc t with
    | .idle => some (s.to t .exch)
    | _ => none
  | .tryLock t =>
    match s.pc t with
    | .idle => some (s.xchg t .idle)
    | _ => none
  | .go t =>
    match s.pc t with
    | .exch => some (s.xchg t .load1)
    | .load1 => some (s.to t (if s.flag then .load2 else .exch))
    | .load2 => some (s.to t (if s.flag then .load1 else .exch))
    | _ => none
  | .unlock t =>
    match s.pc t with
    | .held => some (s.clear t)
    | _ => none
  | .read t =>
    match s.pc t with
    | .held => some (s.to t (.read s.var))
    | _ => none
  | .write t =>
    match s.pc t with
    | .read v => some (s.store t (v + 1))
    | _ => none

/-- Thread `t` is between the return of `lock` (or of a successful `try_lock`) and `unlock`. -/
def Holds (s : St) (t : Nat) : Prop := s.pc t = .held ∨ ∃ v, s.pc t = .read v

/-- Thread `t` is inside `lock`. -/
def InLock (s : St) (t : Nat) : Prop := s.pc t = .exch ∨ s.pc t = .load1 ∨ s.pc t = .load2

/-- The invariant: the flag is set exactly when somebody holds the lock, and there is one holder at
most; a value read by the holder is still the value of the variable. -/
structure Inv (s : St) : Prop where
  one : ∀ t u, Holds s t → Holds s u → t = u
  flag : s.flag = true ↔ ∃ t, Holds s t
  cur : ∀ t v, s.pc t = .read v → v = s.var
  cnt : s.var = s.done

theorem inv_init : Inv init := by
  refine ⟨?_, ?_, ?_, rfl⟩
  · intro t u h; rcases h with h | ⟨v, h⟩ <;> simp [init] at h
  · simp [init, Holds]
  · intro t v h; simp [init] at h

theorem holds_put_ne {s : St} {f : Bool} {q : PC} {x d t u : Nat} (h : u ≠ t) :
    Holds ⟨f, put s.pc t q, x, d⟩ u ↔ Holds s u := by
  simp [Holds, put, h]

/-- A step of a thread that neither held the lock nor holds it afterwards keeps the invariant. -/
theorem inv_neutral {s : St} (hI : Inv s) {t : Nat} {q : PC} (hn : ¬ Holds s t)
    (hq : q ≠ .held) (hq' : ∀ v, q ≠ .read v) : Inv (s.to t q) := by
  have hh : ∀ u, Holds (s.to t q) u ↔ Holds s u := by
    intro u
    by_cases hu : u = t
    · subst hu
      constructor
      · intro h; rcases h with h | ⟨v, h⟩
        · simp [St.to] at h; exact absurd h hq
        · simp [St.to] at h; exact absurd h (hq' v)
      · intro h; exact absurd h hn
    · exact holds_put_ne hu
  refine ⟨?_, ?_, ?_, hI.cnt⟩
  · intro a b ha hb; exact hI.one a b ((hh a).1 ha) ((hh b).1 hb)
  · show s.flag = true ↔ _
    rw [hI.flag]
    exact ⟨fun ⟨u, h⟩ => ⟨u, (hh u).2 h⟩, fun ⟨u, h⟩ => ⟨u, (hh u).1 h⟩⟩
  · intro u v h
    by_cases hu : u = t
    · subst hu; simp [St.to] at h; exact absurd h (hq' v)
    · apply hI.cur u v; simpa [St.to, put, hu] using h

theorem inv_xchg {s : St} (hI : Inv s) {t : Nat} {q : PC} (hn : ¬ Holds s t)
    (hq : q ≠ .held) (hq' : ∀ v, q ≠ .read v) : Inv (s.xchg t q) := by
  by_cases hf : s.flag = true
  · have : s.xchg t q = s.to t q := by simp [St.xchg, St.to, hf]
    rw [this]; exact inv_neutral hI hn hq hq'
  · have hnone : ∀ u, ¬ Holds s u := fun u hu => hf (hI.flag.2 ⟨u, hu⟩)
    have he : s.xchg t q = ⟨true, put s.pc t .held, s.var, s.done⟩ := by simp [St.xchg, hf]
    rw [he]
    refine ⟨?_, ?_, ?_, hI.cnt⟩
    · have : ∀ u, Holds ⟨true, put s.pc t .held, s.var, s.done⟩ u → u = t := by
        intro u hu
        by_cases h : u = t
        · exact h
        · exact absurd ((holds_put_ne h).1 hu) (hnone u)
      intro a b ha hb; rw [this a ha, this b hb]
    · exact ⟨fun _ => ⟨t, Or.inl (by simp)⟩, fun _ => rfl⟩
    · intro u v h
      by_cases hu : u = t
      · subst hu; simp at h
      · apply hI.cur u v; simpa [put, hu] using h

theorem inv_clear {s : St} (hI : Inv s) {t : Nat} (hh : Holds s t) : Inv (s.clear t) := by
  have hnone : ∀ u, ¬ Holds (s.clear t) u := by
    intro u hu
    by_cases h : u = t
    · subst h; rcases hu with h | ⟨v, h⟩ <;> simp [St.clear] at h
    · exact h (hI.one u t ((holds_put_ne h).1 hu) hh)
  refine ⟨fun a b ha _ => absurd ha (hnone a), ?_, ?_, hI.cnt⟩
  · simp only [St.clear, Bool.false_eq_true, false_iff]
    exact fun ⟨u, hu⟩ => hnone u hu
  · intro u v h; exact absurd (Or.inr ⟨v, h⟩) (hnone u)

theorem holds_keep {s : St} {t : Nat} {q : PC} {x d : Nat} (hh : Holds s t)
    (hq : q = .held ∨ ∃ v, q = .read v) (u : Nat) :
    Holds ⟨s.flag, put s.pc t q, x, d⟩ u ↔ Holds s u := by
  by_cases h : u = t
  · subst h
    simp only [hh, iff_true]
    rcases hq with rfl | ⟨v, rfl⟩
    · exact Or.inl (by simp)
    · exact Or.inr ⟨v, by simp⟩
  · exact holds_put_ne h

theorem inv_step (s : St) (l : Lab) (s' : St) (hI : Inv s) (hs : step s l = some s') : Inv s' := by
  cases l with
  | lock t =>
    simp only [step] at hs
    split at hs
    · rename_i h
      cases hs
      exact inv_neutral hI (by simp [Holds, h]) (by simp) (by simp)
    · simp at hs
  | tryLock t =>
    simp only [step] at hs
    split at hs
    · rename_i h
      cases hs
      exact inv_xchg hI (by simp [Holds, h]) (by simp) (by simp)
    · simp at hs
  | go t =>
    simp only [step] at hs
    split at hs
    · rename_i h
      cases hs
      exact inv_xchg hI (by simp [Holds, h]) (by simp) (by simp)
    · rename_i h
      cases hs
      exact inv_neutral hI (by simp [Holds, h]) (by split <;> simp) (by intro v; split <;> simp)
    · rename_i h
      cases hs
      exact inv_neutral hI (by simp [Holds, h]) (by split <;> simp) (by intro v; split <;> simp)
    · simp at hs
  | unlock t =>
    simp only [step] at hs
    split at hs
    · rename_i h
      cases hs
      exact inv_clear hI (Or.inl h)
    · simp at hs
  | read t =>
    simp only [step] at hs
    split at hs
    · rename_i h
      cases hs
      have hh := holds_keep (x := s.var) (d := s.done) (q := .read s.var) (Or.inl h : Holds s t)
        (Or.inr ⟨_, rfl⟩)
      refine ⟨fun a b ha hb => hI.one a b ((hh a).1 ha) ((hh b).1 hb), ?_, ?_, hI.cnt⟩
      · show s.flag = true ↔ _
        rw [hI.flag]
        exact ⟨fun ⟨u, h⟩ => ⟨u, (hh u).2 h⟩, fun ⟨u, h⟩ => ⟨u, (hh u).1 h⟩⟩
      · intro u v hv
        by_cases hu : u = t
        · subst hu; simp [St.to] at hv; exact hv.symm
        · apply hI.cur u v; simpa [St.to, put, hu] using hv
    · simp at hs
  | write t =>
    simp only [step] at hs
    split at hs
    · rename_i v h
      cases hs
      have ht : Holds s t := Or.inr ⟨v, h⟩
      have hh := holds_keep (x := v + 1) (d := s.done + 1) (q := .held) ht (Or.inl rfl)
      have hv := hI.cur t v h
      have hc := hI.cnt
      refine ⟨fun a b ha hb => hI.one a b ((hh a).1 ha) ((hh b).1 hb), ?_, ?_, ?_⟩
      · show s.flag = true ↔ _
        rw [hI.flag]
        exact ⟨fun ⟨u, h⟩ => ⟨u, (hh u).2 h⟩, fun ⟨u, h⟩ => ⟨u, (hh u).1 h⟩⟩
      · intro u w hw
        by_cases hu : u = t
        · subst hu; simp [St.store] at hw
        · have : Holds s u := Or.inr ⟨w, by simpa [St.store, put, hu] using hw⟩
          exact absurd (hI.one u t this ht) hu
      · show v + 1 = s.done + 1
        omega
    · simp at hs

/-- Reachable states. -/
abbrev R (s : St) : Prop := Reach step init s

theorem inv_of_reach {s : St} (h : R s) : Inv s := inv_reach inv_init inv_step h

/-- **C79.** Two threads never hold the lock at the same time, whatever the schedule. -/
theorem c79_exclusion {s : St} (h : R s) {t u : Nat} (ht : Holds s t) (hu : Holds s u) : t = u :=
  (inv_of_reach h).one t u ht hu

/-- **C79.** Updates made under the lock are not lost: after any schedule the protected variable
counts exactly the completed updates, although each reads and stores in separate steps. -/
theorem c79_no_lost_update {s : St} (h : R s) : s.var = s.done := (inv_of_reach h).cnt

/-- **C79.** `try_lock` gets the lock exactly when nobody holds it, and otherwise changes nothing. -/
theorem c79_trylock {s s' : St} (h : R s) {t : Nat} (hs : step s (.tryLock t) = some s') :
    (Holds s' t ↔ ∀ u, ¬ Holds s u) ∧
    ((∃ u, Holds s u) → s'.flag = s.flag ∧ ∀ u, s'.pc u = s.pc u) := by
  have hI := inv_of_reach h
  simp only [step] at hs
  split at hs
  case h_2 => simp at hs
  rename_i hp
  cases hs
  have hxf : ∀ q, (Holds (s.xchg t q) t ↔ (if s.flag then q else PC.held) = .held ∨
      ∃ v, (if s.flag then q else PC.held) = .read v) := by
    intro q; simp [Holds, St.xchg]
  by_cases hf : s.flag = true
  · obtain ⟨w, hw⟩ := hI.flag.1 hf
    refine ⟨?_, ?_⟩
    · rw [hxf]; simp [hf]; exact ⟨w, hw⟩
    · intro _
      refine ⟨by simp [St.xchg, hf], ?_⟩
      intro u
      by_cases hu : u = t
      · subst hu; simp [St.xchg, hf, hp]
      · simp [St.xchg, put, hu]
  · have hn : ∀ u, ¬ Holds s u := fun u hu => hf (hI.flag.2 ⟨u, hu⟩)
    refine ⟨?_, fun ⟨u, hu⟩ => absurd hu (hn u)⟩
    rw [hxf]; simp [hf]; exact hn

/-- **C79.** No lock is left behind: in every reachable state in which nobody holds the lock, each
thread inside `lock` obtains it with at most two steps of its own. -/
theorem c79_progress {s : St} (h : R s) (hn : ∀ u, ¬ Holds s u) {t : Nat} (ht : InLock s t) :
    ∃ k s', k ≤ 2 ∧ runs step s (List.replicate k (.go t)) = some s' ∧ Holds s' t := by
  have hI := inv_of_reach h
  have hf : s.flag = false := by
    cases hc : s.flag with
    | false => rfl
    | true => obtain ⟨u, hu⟩ := hI.flag.1 hc; exact absurd hu (hn u)
  rcases ht with h | h | h
  · refine ⟨1, s.xchg t .load1, by omega, ?_, Or.inl ?_⟩
    · simp [runs, step, h]
    · simp [St.xchg, hf]
  · refine ⟨2, (s.to t .exch).xchg t .load1, by omega, ?_, Or.inl ?_⟩
    · simp [runs, step, h, hf, St.to, St.xchg, List.replicate]
    · simp [St.xchg, hf, St.to]
  · refine ⟨2, (s.to t .exch).xchg t .load1, by omega, ?_, Or.inl ?_⟩
    · simp [runs, step, h, hf, St.to, St.xchg, List.replicate]
    · simp [St.xchg, hf, St.to]

/-- **C79.** A thread inside `lock` always has a next step, so it is never stuck other than by
spinning. -/
theorem c79_live {s : St} {t : Nat} (ht : InLock s t) : ∃ s', step s (.go t) = some s' := by
  rcases ht with h | h | h <;> simp [step, h]

/-- A schedule in which two threads contend for the lock and both update the variable. -/
def wSched : List Lab :=
  [.lock 1, .lock 2, .go 1, .go 2, .read 1, .go 2, .go 2, .write 1, .tryLock 3, .unlock 1,
   .go 2, .go 2, .read 2, .write 2]

/-- The hypotheses of C79 are met: after this schedule thread 2 holds the lock and both updates
have been made; in the middle of it thread 2 was inside `lock` while thread 1 held the lock. -/
theorem w_c79 :
    ((runs step init wSched).map fun s => (s.flag, s.pc 2, s.pc 1, s.var))
      = some (true, .held, .idle, 2) ∧
    ((runs step init (wSched.take 7)).map fun s => (s.flag, s.pc 1, s.pc 2))
      = some (true, .read 0, .load1) := by
  decide

end Ltio.Sync.Spin
