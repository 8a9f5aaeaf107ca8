import Verif.Coro.Runner
/-
Further properties of the coroutine runner (base/coroutine/co_runner.cc) for the model in Verif/Coro/Runner.lean: reuse of
finished coroutines.
-/
namespace Ltio.Coro

/-- Executions in which no coroutine takes a second task without being released in between. -/
inductive ReachFresh : St → Prop where
  | init : ReachFresh init
  | step {s s' : St} (l : Lab) : ReachFresh s → l ≠ .next → step s l = some s' → ReachFresh s'

theorem ReachFresh.reach {s : St} (h : ReachFresh s) : Reach s := by
  induction h with
  | init => exact .init
  | step l _ _ hs ih => exact .step l ih hs

/-- Task numbers of resume closures against the coroutine's. -/
def TaskInv (s : St) : Prop :=
  ∀ t ∈ s.made, t.2.2 ≤ s.task t.1 ∧ (t.2.2 < s.task t.1 → t.2.1 < s.id t.1)

theorem doResume_same (s : St) (c i : Nat) : (doResume s c i).made = s.made ∧ (doResume s c i).task = s.task ∧
    (doResume s c i).id = s.id := by
  unfold doResume
  split
  · exact ⟨rfl, rfl, rfl⟩
  · split <;> exact ⟨rfl, rfl, rfl⟩

theorem taskInv_step {s s' : St} (hi : Inv s) (h : TaskInv s) (l : Lab) (hl : l ≠ .next) (hs : step s l = some s') :
    TaskInv s' := by
  cases l with
  | spawn =>
    simp only [step] at hs
    split at hs
    · simp only [Option.some.injEq] at hs; subst hs
      unfold spawn
      split
      · rename_i c rest hf
        intro t ht
        have h1 := h t ht
        have h2 := (hi.madeId t ht).2
        show t.2.2 ≤ upd s.task c (s.task c + 1) t.1 ∧ (t.2.2 < upd s.task c (s.task c + 1) t.1 → t.2.1 < upd s.id c (s.id c + 1) t.1)
        by_cases hc : t.1 = c
        · rw [hc] at h1 h2 ⊢
          rw [upd_same, upd_same]
          omega
        · rw [upd_other _ _ _ _ hc, upd_other _ _ _ _ hc]; exact h1
      · intro t ht
        have h1 := h t ht
        show t.2.2 ≤ s.task t.1 ∧ (t.2.2 < s.task t.1 → t.2.1 < upd s.id s.n (s.id s.n + 1) t.1)
        refine ⟨h1.1, fun hlt => ?_⟩
        have := h1.2 hlt
        by_cases hc : t.1 = s.n
        · rw [hc] at this ⊢; rw [upd_same]; omega
        · rw [upd_other _ _ _ _ hc]; exact this
    · simp at hs
  | wake =>
    simp only [step] at hs
    split at hs
    · simp only [Option.some.injEq] at hs; subst hs
      rename_i c rest _ _ _
      intro t ht
      have h1 := h t ht
      show t.2.2 ≤ s.task t.1 ∧ (t.2.2 < s.task t.1 → t.2.1 < upd s.id c (s.id c + 1) t.1)
      refine ⟨h1.1, fun hlt => ?_⟩
      have := h1.2 hlt
      by_cases hc : t.1 = c
      · rw [hc] at this ⊢; rw [upd_same]; omega
      · rw [upd_other _ _ _ _ hc]; exact this
    · simp at hs
  | mk =>
    simp only [step] at hs
    split at hs
    · simp only [Option.some.injEq] at hs; subst hs
      intro t ht
      rcases List.mem_cons.1 ht with rfl | ht
      · exact ⟨Nat.le_refl _, fun hlt => absurd hlt (Nat.lt_irrefl _)⟩
      · exact h t ht
    · simp at hs
  | yield =>
    simp only [step] at hs
    split at hs
    · simp only [Option.some.injEq] at hs; subst hs; exact h
    · simp at hs
  | next => exact absurd rfl hl
  | exit =>
    simp only [step] at hs
    split at hs
    · simp only [Option.some.injEq] at hs; subst hs
      unfold exitCo
      split
      · exact h
      · split <;> exact h
    · simp at hs
  | callHere c i =>
    simp only [step] at hs
    split at hs
    · simp only [Option.some.injEq] at hs; subst hs
      obtain ⟨e1, e2, e3⟩ := doResume_same s c i
      unfold TaskInv; rw [e1, e2, e3]; exact h
    · simp at hs
  | callThere c i =>
    simp only [step] at hs
    split at hs
    · simp only [Option.some.injEq] at hs; subst hs; exact h
    · simp at hs
  | runQueued c i =>
    simp only [step] at hs
    split at hs
    · simp only [Option.some.injEq] at hs; subst hs
      obtain ⟨e1, e2, e3⟩ := doResume_same { s with remote := s.remote.erase (c, i) } c i
      unfold TaskInv; rw [e1, e2, e3]; exact h
    · simp at hs
  | sweep =>
    simp only [step] at hs
    split at hs
    · simp only [Option.some.injEq] at hs; subst hs; exact h
    · simp at hs
  | tune k =>
    simp only [step] at hs
    split at hs
    · simp only [Option.some.injEq] at hs; subst hs; exact h
    · simp at hs

/-- **C28 (reuse).** As long as coroutines are released between tasks, a resume closure made in an earlier task of a
coroutine is inert for a later one: calling it changes nothing but the record of the call. -/
theorem c28_reuse_partial {s : St} (h : ReachFresh s) (c i k : Nat) (hm : (c, i, k) ∈ s.made) (hk : k ≠ s.task c) :
    k < s.task c ∧ doResume s c i = { s with ran := (c, i) :: s.ran } := by
  have hi : TaskInv s := by
    induction h with
    | init => intro t ht; simp [init] at ht
    | @step s s' l hr hl hs ih =>
      by_cases hq : (c, i, k) ∈ s.made ∧ k ≠ s.task c
      · exact taskInv_step (inv_reach hr.reach) (ih hq.1 hq.2) l hl hs
      · clear ih hm hk hq
        have : ∀ s, ReachFresh s → TaskInv s := by
          intro s h
          induction h with
          | init => intro t ht; simp [init] at ht
          | step l hr hl hs ih => exact taskInv_step (inv_reach hr.reach) ih l hl hs
        exact this s' (.step l hr hl hs)
  have h1 := hi _ hm
  simp only [] at h1
  have hlt : k < s.task c := by omega
  exact ⟨hlt, c28_stale c i (Or.inl (by have := h1.2 hlt; omega))⟩

/-- **C28 (reuse).** A coroutine taken from the pool starts a task of its own: no resume closure made before belongs to
it, or can wake it. -/
theorem c28_spawn_reuse {s : St} (h : ReachFresh s) (c : Nat) (rest : List Nat) (hf : s.free = c :: rest) :
    (spawn s).cur = some c ∧ (spawn s).free = rest ∧
    ∀ t ∈ s.made, t.1 = c → t.2.2 < (spawn s).task c ∧ t.2.1 < (spawn s).id c := by
  have hi : TaskInv s := by
    induction h with
    | init => intro t ht; simp [init] at ht
    | @step s s' l hr hl hs ih =>
      have : ∀ s, ReachFresh s → TaskInv s := by
        intro s h
        induction h with
        | init => intro t ht; simp [init] at ht
        | step l hr hl hs ih => exact taskInv_step (inv_reach hr.reach) ih l hl hs
      exact this s' (.step l hr hl hs)
  have hid := (inv_reach h.reach).madeId
  unfold spawn
  rw [hf]
  refine ⟨rfl, rfl, ?_⟩
  intro t ht hc
  show t.2.2 < upd s.task c (s.task c + 1) c ∧ t.2.1 < upd s.id c (s.id c + 1) c
  rw [upd_same, upd_same]
  have h1 := (hi t ht).1
  have h2 := (hid t ht).2
  rw [hc] at h1 h2
  omega

/-- **C28 (the pool).** A coroutine that ends is kept for reuse exactly if fewer than `max_reuse_co_` are kept, else set
aside; the next sweep, possible whenever no coroutine runs, destroys exactly those set aside. -/
theorem c28_pool {s s' : St} (hs : step s .exit = some s') (ha : s'.aborted = false) :
    ∃ c, s.cur = some c ∧ s'.cur = none ∧
    (s.free.length < s.maxReuse → s'.free = s.free ++ [c] ∧ s'.gc = s.gc) ∧
    (s.maxReuse ≤ s.free.length → s'.free = s.free ∧ s'.gc = s.gc ++ [c]) ∧
    (s.free.length ≤ s.maxReuse → s'.free.length ≤ s.maxReuse) ∧
    ∃ s'', step s' .sweep = some s'' ∧ s''.gc = [] ∧ s''.free = s'.free ∧ s''.dead = s'.gc ++ s'.dead := by
  simp only [step] at hs
  split at hs
  · rename_i c hna hcur
    simp only [Option.some.injEq] at hs
    have hsw : ∀ t : St, t.aborted = false → t.cur = none →
        ∃ s'', step t .sweep = some s'' ∧ s''.gc = [] ∧ s''.free = t.free ∧ s''.dead = t.gc ++ t.dead := by
      intro t h1 h2
      exact ⟨{ t with gc := [], dead := t.gc ++ t.dead }, by simp only [step]; rw [if_pos ⟨h1, h2⟩], rfl, rfl, rfl⟩
    unfold exitCo at hs
    split at hs
    · subst hs; simp at ha
    · split at hs
      · rename_i hlt
        subst hs
        refine ⟨c, hcur, rfl, fun _ => ⟨rfl, rfl⟩, fun hle => by omega, fun _ => ?_, hsw _ ha rfl⟩
        simp only [List.length_append, List.length_cons, List.length_nil]; omega
      · rename_i hge
        subst hs
        exact ⟨c, hcur, rfl, fun hlt => by omega, fun _ => ⟨rfl, rfl⟩, fun h => h, hsw _ ha rfl⟩
  · simp at hs

theorem dead_step {s s' : St} (l : Lab) (hs : step s l = some s') (c : Nat) (hd : c ∈ s.dead) : c ∈ s'.dead := by
  have hdo : ∀ (t : St) (k i : Nat), c ∈ t.dead → c ∈ (doResume t k i).dead := by
    intro t k i h
    unfold doResume
    split
    · exact h
    · split <;> exact h
  cases l <;> simp only [step] at hs
  case spawn =>
    split at hs <;> simp only [Option.some.injEq, reduceCtorEq] at hs
    subst hs
    unfold spawn
    split <;> exact hd
  case exit =>
    split at hs <;> simp only [Option.some.injEq, reduceCtorEq] at hs
    subst hs
    unfold exitCo
    split
    · exact hd
    · split <;> exact hd
  case callHere k i =>
    split at hs <;> simp only [Option.some.injEq, reduceCtorEq] at hs
    subst hs
    exact hdo _ _ _ hd
  case runQueued k i =>
    split at hs <;> simp only [Option.some.injEq, reduceCtorEq] at hs
    subst hs
    exact hdo _ _ _ hd
  case sweep =>
    split at hs <;> simp only [Option.some.injEq, reduceCtorEq] at hs
    subst hs
    exact List.mem_append_right _ hd
  all_goals
    split at hs <;> simp only [Option.some.injEq, reduceCtorEq] at hs
    subst hs
    exact hd

/-- **C28 (destroyed coroutines).**  A coroutine that has been destroyed is never touched again: in every later state it is destroyed, does not run,
is not suspended, and is in none of the lists, whatever resume closures are still called. -/
theorem c28_freed {s s' : St} (h : Reach s) (ls : List Lab) (hs : runLabs s ls = some s') (c : Nat) (hd : c ∈ s.dead) :
    c ∈ s'.dead ∧ s'.cur ≠ some c ∧ c ∉ s'.susp ∧ c ∉ s'.ready ++ s'.free ++ s'.gc := by
  have hd' : c ∈ s'.dead := by
    clear h
    induction ls generalizing s with
    | nil => simp only [runLabs, Option.some.injEq] at hs; exact hs ▸ hd
    | cons l ls ih =>
      simp only [runLabs, Option.bind_eq_some_iff] at hs
      obtain ⟨s1, h1, h2⟩ := hs
      exact ih h2 (dead_step l h1 c hd)
  have h' := reach_run h ls hs
  have hp := (inv_reach h').places
  simp only [List.nodup_append, List.mem_append, Option.mem_toList] at hp
  obtain ⟨-, -, p8⟩ := hp
  exact ⟨hd', fun e => p8 c (.inl (.inl (.inl e))) c hd' rfl, fun e => p8 c (.inl (.inl (.inr e))) c hd' rfl,
    fun e => (c28_lists h').2 c e hd'⟩

/-- 65 coroutines wait at the same time and then end: 64 are kept, the last one is destroyed. -/
def crowd : List Lab :=
  (List.range 65).flatMap (fun _ => [.spawn, .mk, .yield]) ++ (List.range 65).flatMap (fun c => [.callHere c 1, .wake, .exit]) ++ [.sweep]

theorem w_c28_freed : ∃ s, Reach s ∧ s.dead = [64] ∧ s.free.length = 64 := by
  have h : (runLabs init crowd).map (fun s => (s.dead, s.free.length)) = some ([64], 64) := by decide +kernel
  rw [Option.map_eq_some_iff] at h
  obtain ⟨s, h1, h2⟩ := h
  exact ⟨s, reach_run .init _ h1, congrArg Prod.fst h2, congrArg Prod.snd h2⟩

example : ∃ s, ReachFresh s ∧ (0, 1, 0) ∈ s.made ∧ s.task 0 = 1 ∧ s.cur = some 0 := by
  refine ⟨_, .step .spawn (.step .exit (.step .mk (.step .spawn .init (by simp) rfl) (by simp) rfl) (by simp) rfl) (by simp) rfl, ?_, ?_, ?_⟩ <;>
    decide +kernel

end Ltio.Coro
