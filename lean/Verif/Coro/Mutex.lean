import Verif.Coro.WaitGroup

/-
Model of base/coroutine/co_mutex.cc (C50) and base/coroutine/io_event.cc (C51).

The spin lock makes `lock`, `unlock` and `try_lock` atomic.  A coroutine waiting for the mutex is
woken by the closure it left in the queue (C28: also when it has not yielded yet, and from any
thread); label `stray` is a wake-up by another closure made in the same running period.
-/
namespace Ltio.Coro.Mutex

/-- A coroutine's relation to the mutex. -/
inductive Ph where
  /-- not in `lock`, does not hold it -/
  | out
  /-- in `lock`, its closure is queued -/
  | waiting
  /-- in `lock`, its closure has been called -/
  | granted
  /-- `lock` has returned -/
  | inside
deriving DecidableEq

/-- The mutex (co_mutex.h:23-27) and the coroutines. -/
structure St where
  locked : Bool
  waiters : List Nat
  ph : Nat → Ph
  /-- order in which coroutines arrived at a locked mutex, and were granted it (ghosts) -/
  arrived : List Nat
  served : List Nat

/-- A new mutex (co_mutex.cc:8). -/
def init : St := ⟨false, [], fun _ => .out, [], []⟩

/-- Assign one entry. -/
def put (f : Nat → Ph) (c : Nat) (v : Ph) : Nat → Ph := fun k => if k = c then v else f k

/-- What can happen. -/
inductive Lab where
  | lock (c : Nat)
  | tryLock (c : Nat)
  | unlock (c : Nat)
  /-- the runner resumes a coroutine whose closure was called -/
  | resume (c : Nat)
  /-- a waiting coroutine is resumed by another closure of the same period -/
  | stray (c : Nat)
deriving DecidableEq

/-- One step (co_mutex.cc:11-44); only a coroutine that is outside locks and only one that is
inside unlocks (the user's obligation). -/
def step (s : St) : Lab → Option St
  | .lock c =>
    if s.ph c = .out then
      if s.locked then
        some { s with waiters := s.waiters ++ [c], ph := put s.ph c .waiting, arrived := s.arrived ++ [c] }
      else some { s with locked := true, ph := put s.ph c .inside }
    else none
  | .tryLock c =>
    if s.ph c = .out then
      if s.locked then some s else some { s with locked := true, ph := put s.ph c .inside }
    else none
  | .unlock c =>
    if s.ph c = .inside then
      match s.waiters with
      | [] => some { s with locked := false, ph := put s.ph c .out }
      | w :: rest =>
        some { s with waiters := rest, served := s.served ++ [w],
                      ph := if (put s.ph c .out) w = .waiting then put (put s.ph c .out) w .granted
                            else put s.ph c .out }
    else none
  | .resume c => if s.ph c = .granted then some { s with ph := put s.ph c .inside } else none
  | .stray c => if s.ph c = .waiting then some { s with ph := put s.ph c .inside } else none

/-- A schedule. -/
def runLabs (s : St) : List Lab → Option St
  | [] => some s
  | l :: ls => (step s l).bind (fun s' => runLabs s' ls)

/-- Executions in which waiting coroutines are only woken by the mutex. -/
inductive Reach : St → Prop where
  | init : Reach init
  | step {s s' : St} (l : Lab) : Reach s → (∀ c, l ≠ .stray c) → step s l = some s' → Reach s'

/-- Owns the mutex: has returned from `lock`, or has been handed it. -/
abbrev owns (s : St) (c : Nat) : Prop := s.ph c = .inside ∨ s.ph c = .granted

structure Inv (s : St) : Prop where
  one : ∀ c d, owns s c → owns s d → c = d
  held : s.locked = true → ∃ c, owns s c
  free : s.locked = false → (∀ c, ¬ owns s c) ∧ s.waiters = []
  wait : ∀ c, c ∈ s.waiters ↔ s.ph c = .waiting
  nodup : s.waiters.Nodup
  fifo : s.served ++ s.waiters = s.arrived

theorem put_same (f : Nat → Ph) (c : Nat) (v : Ph) : put f c v c = v := by simp [put]
theorem put_other (f : Nat → Ph) (c : Nat) (v : Ph) (k : Nat) (h : k ≠ c) : put f c v k = f k := by
  simp [put, h]

theorem inv_take {s : St} (h : Inv s) (c : Nat) (ho : s.ph c = .out) (hl : s.locked = false) :
    Inv { s with locked := true, ph := put s.ph c .inside } := by
  obtain ⟨hf, hw⟩ := h.free hl
  have hown : ∀ k, owns { s with locked := true, ph := put s.ph c .inside } k → k = c := by
    intro k hk
    by_cases hkc : k = c
    · exact hkc
    · simp only [owns, put_other _ _ _ _ hkc] at hk
      exact absurd hk (hf k)
  refine ⟨fun a b ha hb => (hown a ha).trans (hown b hb).symm, fun _ => ⟨c, Or.inl (put_same _ _ _)⟩,
    by simp, ?_, h.nodup, h.fifo⟩
  intro k
  by_cases hkc : k = c
  · subst hkc
    have := h.wait k
    rw [ho] at this
    simp only [put_same]
    simpa using this
  · simp only [put_other _ _ _ _ hkc]; exact h.wait k

theorem inv_step {s s' : St} (h : Inv s) (l : Lab) (hl : ∀ c, l ≠ .stray c)
    (hs : step s l = some s') : Inv s' := by
  cases l with
  | lock c =>
    simp only [step] at hs
    split at hs
    · rename_i ho
      split at hs
      · rename_i hlk
        simp only [Option.some.injEq] at hs; subst hs
        have hown : ∀ k, owns { s with waiters := s.waiters ++ [c], ph := put s.ph c .waiting, arrived := s.arrived ++ [c] } k ↔ owns s k := by
          intro k
          by_cases hkc : k = c
          · subst hkc; simp [owns, put_same, ho]
          · simp [owns, put_other _ _ _ _ hkc]
        have hcw : c ∉ s.waiters := by
          intro hc; have := (h.wait c).1 hc; rw [ho] at this; simp at this
        refine ⟨fun a b ha hb => h.one a b ((hown a).1 ha) ((hown b).1 hb), ?_, ?_, ?_, ?_, ?_⟩
        · intro _
          obtain ⟨k, hk⟩ := h.held hlk
          exact ⟨k, (hown k).2 hk⟩
        · intro e
          have e' : s.locked = false := e
          rw [hlk] at e'; simp at e'
        · intro k
          by_cases hkc : k = c
          · subst hkc; simp [put_same]
          · simp only [put_other _ _ _ _ hkc, List.mem_append, List.mem_singleton, hkc, or_false]
            exact h.wait k
        · show (s.waiters ++ [c]).Nodup
          rw [List.nodup_append]
          refine ⟨h.nodup, by simp, ?_⟩
          intro a ha b hb hab
          simp only [List.mem_singleton] at hb
          exact hcw (hb ▸ hab ▸ ha)
        · show s.served ++ (s.waiters ++ [c]) = s.arrived ++ [c]
          rw [← h.fifo, List.append_assoc]
      · rename_i hlk
        simp only [Option.some.injEq] at hs; subst hs
        exact inv_take h c ho (by simpa using hlk)
    · simp at hs
  | tryLock c =>
    simp only [step] at hs
    split at hs
    · rename_i ho
      split at hs
      · simp only [Option.some.injEq] at hs; subst hs; exact h
      · rename_i hlk
        simp only [Option.some.injEq] at hs; subst hs
        exact inv_take h c ho (by simpa using hlk)
    · simp at hs
  | unlock c =>
    simp only [step] at hs
    split at hs
    · rename_i ho
      have hlk : s.locked = true := by
        cases hl' : s.locked with
        | true => rfl
        | false => exact absurd (Or.inl ho) ((h.free hl').1 c)
      have honly : ∀ k, owns s k → k = c := fun k hk => h.one k c hk (Or.inl ho)
      split at hs
      · rename_i hw
        simp only [Option.some.injEq] at hs; subst hs
        have hno : ∀ k, ¬ owns { s with locked := false, ph := put s.ph c .out } k := by
          intro k hk
          by_cases hkc : k = c
          · subst hkc; simp [owns, put_same] at hk
          · simp only [owns, put_other _ _ _ _ hkc] at hk
            exact hkc (honly k hk)
        refine ⟨fun a b ha => absurd ha (hno a), by simp, fun _ => ⟨hno, hw⟩, ?_, h.nodup, h.fifo⟩
        intro k
        by_cases hkc : k = c
        · subst hkc
          have := h.wait k
          rw [ho] at this
          simp only [put_same]
          simpa using this
        · simp only [put_other _ _ _ _ hkc]; exact h.wait k
      · rename_i w rest hw
        simp only [Option.some.injEq] at hs; subst hs
        have hww : s.ph w = .waiting := (h.wait w).1 (by simp [hw])
        have hwc : w ≠ c := by rintro rfl; rw [ho] at hww; simp at hww
        have hwr : w ∉ rest := by
          have := h.nodup; rw [hw] at this; exact (List.nodup_cons.1 this).1
        rw [if_pos (by rw [put_other _ _ _ _ hwc]; exact hww)]
        have hown : ∀ k, owns { s with waiters := rest, served := s.served ++ [w], ph := put (put s.ph c .out) w .granted } k → k = w := by
          intro k hk
          by_cases hkw : k = w
          · exact hkw
          · simp only [owns, put_other _ _ _ _ hkw] at hk
            by_cases hkc : k = c
            · subst hkc; simp [put_same] at hk
            · simp only [put_other _ _ _ _ hkc] at hk
              exact absurd (honly k hk) hkc
        refine ⟨fun a b ha hb => (hown a ha).trans (hown b hb).symm,
          fun _ => ⟨w, Or.inr (put_same _ _ _)⟩, ?_, ?_, ?_, ?_⟩
        · intro e
          have e' : s.locked = false := e
          rw [hlk] at e'; simp at e'
        · intro k
          show k ∈ rest ↔ put (put s.ph c .out) w .granted k = .waiting
          by_cases hkw : k = w
          · subst hkw; simp [put_same, hwr]
          · rw [put_other _ _ _ _ hkw]
            have := h.wait k
            rw [hw] at this
            simp only [List.mem_cons, hkw, false_or] at this
            by_cases hkc : k = c
            · subst hkc; simp only [put_same]; rw [ho] at this; simpa using this
            · rw [put_other _ _ _ _ hkc]; exact this
        · have := h.nodup
          rw [hw] at this; exact (List.nodup_cons.1 this).2
        · show (s.served ++ [w]) ++ rest = s.arrived
          rw [← h.fifo, hw]; simp
    · simp at hs
  | resume c =>
    simp only [step] at hs
    split at hs
    · rename_i ho
      simp only [Option.some.injEq] at hs; subst hs
      have hown : ∀ k, owns { s with ph := put s.ph c .inside } k ↔ owns s k := by
        intro k
        by_cases hkc : k = c
        · subst hkc; simp [owns, put_same, ho]
        · simp [owns, put_other _ _ _ _ hkc]
      refine ⟨fun a b ha hb => h.one a b ((hown a).1 ha) ((hown b).1 hb), ?_, ?_, ?_, h.nodup, h.fifo⟩
      · intro hlk
        obtain ⟨k, hk⟩ := h.held hlk
        exact ⟨k, (hown k).2 hk⟩
      · intro hlk
        obtain ⟨h1, h2⟩ := h.free hlk
        exact ⟨fun k hk => h1 k ((hown k).1 hk), h2⟩
      · intro k
        by_cases hkc : k = c
        · subst hkc
          have := h.wait k
          rw [ho] at this
          simp only [put_same]
          simpa using this
        · simp only [put_other _ _ _ _ hkc]; exact h.wait k
    · simp at hs
  | stray c => exact absurd rfl (hl c)

theorem inv_reach {s : St} (h : Reach s) : Inv s := by
  induction h with
  | init => exact ⟨by simp [init, owns], by simp [init], by simp [init, owns], by simp [init], by simp [init],
      by simp [init]⟩
  | step l _ hl hs ih => exact inv_step ih l hl hs

/-- **C50 (mutual exclusion).**  At no time are two coroutines between `lock` and `unlock`. -/
theorem c50_exclusion {s : St} (h : Reach s) (c d : Nat) (hc : s.ph c = .inside)
    (hd : s.ph d = .inside) : c = d := (inv_reach h).one c d (Or.inl hc) (Or.inl hd)

/-- **C50 (nobody is forgotten).**  While a coroutine waits, another one is inside or has been
handed the mutex; when nobody is, nobody waits and the next `lock` or `try_lock` succeeds. -/
theorem c50_no_lost {s : St} (h : Reach s) :
    (∀ c, s.ph c = .waiting → ∃ d, s.ph d = .inside ∨ s.ph d = .granted) ∧
    ((∀ d, s.ph d ≠ .inside ∧ s.ph d ≠ .granted) → ∀ c, s.ph c = .out ∧
      (step s (.lock c)).map (fun s' => s'.ph c) = some .inside ∧
      (step s (.tryLock c)).map (fun s' => s'.ph c) = some .inside) := by
  have hi := inv_reach h
  constructor
  · intro c hc
    cases hl : s.locked with
    | true => exact hi.held hl
    | false =>
      have := (hi.free hl).2
      have hm := (hi.wait c).2 hc
      rw [this] at hm; simp at hm
  · intro hno c
    have hl : s.locked = false := by
      cases hl : s.locked with
      | false => rfl
      | true =>
        obtain ⟨d, hd⟩ := hi.held hl
        rcases hd with hd | hd
        · exact absurd hd (hno d).1
        · exact absurd hd (hno d).2
    have hout : s.ph c = .out := by
      cases hp : s.ph c with
      | out => rfl
      | inside => exact absurd hp (hno c).1
      | granted => exact absurd hp (hno c).2
      | waiting =>
        have hm := (hi.wait c).2 hp
        rw [(hi.free hl).2] at hm; simp at hm
    refine ⟨hout, ?_, ?_⟩ <;> simp [step, hout, hl, put_same]

/-- **C50 (first come, first served).**  Coroutines are handed the mutex in the order in which they
arrived. -/
theorem c50_fifo {s : St} (h : Reach s) : s.served <+: s.arrived ∧ s.served ++ s.waiters = s.arrived :=
  ⟨⟨s.waiters, (inv_reach h).fifo⟩, (inv_reach h).fifo⟩

/-- **C50 (hand-over).**  Unlocking with waiters hands the mutex to the first one, which enters when
it is resumed. -/
theorem c50_handover {s : St} (h : Reach s) (c w : Nat) (rest : List Nat) (hc : s.ph c = .inside)
    (hw : s.waiters = w :: rest) :
    ∃ s1 s2, step s (.unlock c) = some s1 ∧ s1.ph c = .out ∧ s1.ph w = .granted ∧ s1.waiters = rest ∧
      step s1 (.resume w) = some s2 ∧ s2.ph w = .inside := by
  have hi := inv_reach h
  have hww : s.ph w = .waiting := (hi.wait w).1 (by simp [hw])
  have hwc : w ≠ c := by rintro rfl; rw [hc] at hww; simp at hww
  have h1 : step s (.unlock c) = some { s with waiters := rest, served := s.served ++ [w], ph := put (put s.ph c .out) w .granted } := by
    simp only [step, hc, if_true, hw]
    rw [if_pos (by rw [put_other _ _ _ _ hwc]; exact hww)]
  refine ⟨_, _, h1, ?_, put_same _ _ _, rfl, by simp only [step]; rw [if_pos (put_same _ _ _)], put_same _ _ _⟩
  show put (put s.ph c .out) w .granted c = .out
  rw [put_other _ _ _ _ hwc.symm, put_same]

/-- **C50 violated: a stray wake-up.**  A coroutine that made a resume closure for something else
before calling `lock` enters when that closure is called, while another one is inside. -/
theorem c50_violation_stray :
    (runLabs init [.lock 1, .lock 2, .stray 2]).map (fun s => (s.ph 1, s.ph 2)) =
      some (.inside, .inside) := by
  decide +kernel

/-- Three coroutines take turns. -/
theorem c50_witness :
    (runLabs init [.lock 1, .lock 2, .tryLock 4, .lock 3, .unlock 1, .resume 2, .unlock 2, .resume 3]).map
      (fun s => (s.ph 1, s.ph 2, s.ph 3, s.ph 4, s.served)) = some (.out, .out, .inside, .out, [2, 3]) := by
  decide +kernel

end Ltio.Coro.Mutex
