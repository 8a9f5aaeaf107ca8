import Mathlib.Data.List.Perm.Basic
import Mathlib.Data.List.Nodup
import Mathlib.Tactic.ByContra
/-
Model of how the coroutine runner schedules tasks (base/coroutine/co_runner.cc, co_runner.h): `CO_GO f`, `CO_GO loop << f`, `Run`.
Suspension and wake-up of single coroutines is in Verif/Coro/Runner.lean (C28, C64); here a suspended task is just
waiting until somebody makes it ready.

Tasks are numbered in the order of their submission.  The concurrent queues (`base::TaskQueue`) hand out any of their elements,
`size_approx` is exact (no operation of another thread is half done); null tasks do not occur (`CreateClosure`).
-/
namespace Ltio.Coro.Sched

/-- Where `Run` is (co_runner.cc:250-301). -/
inductive Phase | idle | ready0 | remote | nested | steal | ready1
deriving DecidableEq, Repr

/-- What runs: the main coroutine, a coroutine between two tasks (`CoroMain`, co_runner.cc:168-176), or a task. -/
inductive Cur | main | top | inTask (t : Nat)
deriving DecidableEq, Repr

structure St where
  /-- tasks submitted so far -/
  n : Nat
  /-- `remote_sched_` -/
  remote : List Nat
  /-- `sched_tasks_` -/
  sched : List Nat
  /-- `g_remote`, shared with the other runners -/
  glob : List Nat
  /-- `run_.tasks` from `task_idx` on -/
  run : List Nat
  /-- `run_.max_dequeue` -/
  quota : Nat
  /-- `run_.tsk_queue`: the shared one? -/
  fromGlob : Bool
  phase : Phase
  cur : Cur
  /-- tasks that have yielded -/
  parked : List Nat
  /-- `ready_list_` -/
  ready : List Nat
  /-- tasks this runner has started, in order (ghost) -/
  started : List Nat
  /-- tasks other runners took (ghost) -/
  others : List Nat
  /-- tasks that were put into each queue (ghosts) -/
  intoRemote : List Nat
  intoSched : List Nat
  intoGlob : List Nat

def init : St := ⟨0, [], [], [], [], 0, false, .idle, .main, [], [], [], [], [], [], []⟩

/-- `OneRunContext::Remain` (co_runner.cc:66). -/
def remain (s : St) : Nat := s.run.length + s.quota

inductive Lab where
  /-- the loop calls `Run` (message_loop.cc:303-305) -/
  | begin
  /-- `Run` goes on to its next part -/
  | next
  /-- the first of `ready_list_` is switched to (co_runner.cc:254-259, 288-293) -/
  | wake
  /-- `SwitchContext(Spawn())` (co_runner.cc:264-268) -/
  | spawn
  /-- `PopTask` (co_runner.cc:50-64); a queue hands out its `k`-th element -/
  | pop (k : Nat)
  /-- the running task returns -/
  | finish
  /-- the running task waits -/
  | yield
  /-- a waiting task is made ready (C64) -/
  | resume (t : Nat)
  /-- `AppendTask` on the loop's thread (co_runner.cc:446-449): `CO_GO loop << f`, `Sched` -/
  | append
  /-- `ScheduleTask` or a resume closure on another thread (co_runner.cc:216, 438-444) -/
  | enqueue
  /-- `Publish` (co_runner.cc:427-429): `CO_GO f`, anywhere -/
  | publish
  /-- another runner takes the `k`-th task of the shared queue -/
  | other (k : Nat)

/-- `PopTask` when no list is left: from the queue (co_runner.cc:56-62). -/
def popQueue (s : St) (k : Nat) : St :=
  if s.quota = 0 then { s with cur := .main }
  else if s.fromGlob = true then
    match s.glob[k % s.glob.length]? with
    | none => { s with quota := 0, cur := .main }
    | some t => { s with glob := s.glob.eraseIdx (k % s.glob.length), quota := s.quota - 1, cur := .inTask t, started := s.started ++ [t] }
  else
    match s.remote[k % s.remote.length]? with
    | none => { s with quota := 0, cur := .main }
    | some t => { s with remote := s.remote.eraseIdx (k % s.remote.length), quota := s.quota - 1, cur := .inTask t, started := s.started ++ [t] }

/-- The next part of `Run` (co_runner.cc:250-301). -/
def nextPhase (s : St) : Option St :=
  match s.phase with
  | .idle => none
  | .ready0 => if s.ready = [] then some { s with phase := .remote, run := [], fromGlob := false, quota := s.remote.length } else none
  | .remote => if remain s = 0 then some { s with phase := .nested, run := s.sched, sched := [], quota := 0 } else none
  | .nested => if remain s = 0 then some { s with phase := .steal, run := [], fromGlob := true, quota := s.glob.length } else none
  | .steal => if remain s = 0 then some { s with phase := .ready1 } else none
  | .ready1 => if s.ready = [] then some { s with phase := .idle } else none

/-- One step; `none`: not possible now. -/
def step (s : St) : Lab → Option St
  | .begin => if s.phase = .idle ∧ s.cur = .main then some { s with phase := .ready0 } else none
  | .next => if s.cur = .main then nextPhase s else none
  | .wake =>
    if (s.phase = .ready0 ∨ s.phase = .ready1) ∧ s.cur = .main then
      match s.ready with
      | [] => none
      | t :: r => some { s with ready := r, cur := .inTask t }
    else none
  | .spawn =>
    if (s.phase = .remote ∨ s.phase = .nested ∨ s.phase = .steal) ∧ s.cur = .main ∧ remain s ≠ 0 then some { s with cur := .top } else none
  | .pop k =>
    if s.cur = .top then
      match s.run with
      | t :: r => some { s with run := r, cur := .inTask t, started := s.started ++ [t] }
      | [] => some (popQueue s k)
    else none
  | .finish =>
    match s.cur with
    | .inTask _ => some { s with cur := .top }
    | _ => none
  | .yield =>
    match s.cur with
    | .inTask t => some { s with cur := .main, parked := s.parked ++ [t] }
    | _ => none
  | .resume t => if t ∈ s.parked then some { s with parked := s.parked.erase t, ready := s.ready ++ [t] } else none
  | .append => if s.phase = .idle ∨ s.cur ≠ .main then
      some { s with n := s.n + 1, sched := s.sched ++ [s.n], intoSched := s.intoSched ++ [s.n] } else none
  | .enqueue => some { s with n := s.n + 1, remote := s.remote ++ [s.n], intoRemote := s.intoRemote ++ [s.n] }
  | .publish => some { s with n := s.n + 1, glob := s.glob ++ [s.n], intoGlob := s.intoGlob ++ [s.n] }
  | .other k =>
    match s.glob[k]? with
    | none => none
    | some t => some { s with glob := s.glob.eraseIdx k, others := s.others ++ [t] }

/-- A whole history. -/
def exec (s : St) : List Lab → Option St
  | [] => some s
  | l :: t => (step s l).bind (fun s' => exec s' t)

/-! ### Every task exactly once -/

/-- Where tasks can be. -/
def places (s : St) : List Nat := s.started ++ s.run ++ s.remote ++ s.sched ++ s.glob ++ s.others

structure Inv (s : St) : Prop where
  perm : (places s).Perm (List.range s.n)
  runPhase : s.phase ≠ .nested → s.run = []
  idleQuota : s.phase = .idle ∨ s.phase = .ready0 ∨ s.phase = .ready1 ∨ s.phase = .nested → s.quota = 0
  /-- only this runner takes from its own queue -/
  quotaRemote : s.phase = .remote → s.fromGlob = false ∧ s.quota ≤ s.remote.length
  stealGlob : s.phase = .steal → s.fromGlob = true
  topPhase : s.cur ≠ .main → s.phase ≠ .idle
  order : s.started.filter (fun t => decide (t ∈ s.intoSched)) ++ s.run ++ s.sched = s.intoSched
  sub : ∀ t, t ∈ s.intoSched ∨ t ∈ s.intoRemote ∨ t ∈ s.intoGlob ↔ t < s.n
  schedNot : ∀ t ∈ s.intoSched, t ∉ s.intoRemote ∧ t ∉ s.intoGlob
  inRemote : ∀ t ∈ s.remote, t ∈ s.intoRemote
  inGlob : ∀ t ∈ s.glob, t ∈ s.intoGlob

theorem perm_swap_end (a b : List Nat) (t : Nat) : (a ++ t :: b).Perm (t :: (a ++ b)) := List.perm_middle

theorem erase_perm {l : List Nat} {k t : Nat} (h : l[k]? = some t) : l.Perm (t :: l.eraseIdx k) := by
  have hk : k < l.length := by
    rcases Nat.lt_or_ge k l.length with h' | h'
    · exact h'
    · rw [List.getElem?_eq_none h'] at h; simp at h
  have ht : l[k] = t := by
    rw [List.getElem?_eq_getElem hk] at h
    simpa using h
  have := (List.getElem_cons_eraseIdx_perm hk).symm
  rw [ht] at this
  exact this

theorem inv_init : Inv init := by
  constructor <;> simp [init, places]

/-- A list of tasks one longer. -/
theorem perm_new {l : List Nat} {n : Nat} {l' : List Nat} (h : l.Perm (List.range n)) (h' : l'.Perm (n :: l)) :
    l'.Perm (List.range (n + 1)) := by
  rw [List.range_succ]
  exact (h'.trans (h.cons n)).trans (List.perm_append_singleton n (List.range n)).symm

theorem count_places (s : St) (a : Nat) :
    (places s).count a = s.started.count a + s.run.count a + s.remote.count a + s.sched.count a + s.glob.count a + s.others.count a := by
  simp only [places, List.count_append]

theorem perm_of_count {s s' : St} (hn : s'.n = s.n) (h : (places s).Perm (List.range s.n))
    (hc : ∀ a, (places s').count a = (places s).count a) : (places s').Perm (List.range s'.n) := by
  rw [hn]
  exact (List.perm_iff_count.2 hc).trans h

theorem perm_of_count_new {s s' : St} (hn : s'.n = s.n + 1) (h : (places s).Perm (List.range s.n))
    (hc : ∀ a, (places s').count a = (s.n :: places s).count a) : (places s').Perm (List.range s'.n) := by
  rw [hn]
  exact perm_new h (List.perm_iff_count.2 hc)

theorem mem_places_lt {s : St} (h : Inv s) {t : Nat} (ht : t ∈ places s) : t < s.n := List.mem_range.1 (h.perm.subset ht)

theorem started_lt {s : St} (h : Inv s) {t : Nat} (ht : t ∈ s.started) : t < s.n := mem_places_lt h (by simp [places, ht])

theorem run_lt {s : St} (h : Inv s) {t : Nat} (ht : t ∈ s.run) : t < s.n := mem_places_lt h (by simp [places, ht])

theorem sched_lt {s : St} (h : Inv s) {t : Nat} (ht : t ∈ s.intoSched) : t < s.n := (h.sub t).1 (Or.inl ht)

theorem filter_fresh {l m : List Nat} {n : Nat} (h : n ∉ l) :
    l.filter (fun t => decide (t ∈ m ++ [n])) = l.filter (fun t => decide (t ∈ m)) := by
  apply List.filter_congr
  intro t ht
  have hne : t ≠ n := fun e => h (by rw [← e]; exact ht)
  simp [hne]

theorem inv_popQueue {s : St} (h : Inv s) (k : Nat) : Inv (popQueue s k) := by
  unfold popQueue
  by_cases hq : s.quota = 0
  · rw [if_pos hq]
    exact ⟨h.perm, h.runPhase, h.idleQuota, h.quotaRemote, h.stealGlob, by simp, h.order, h.sub, h.schedNot, h.inRemote, h.inGlob⟩
  · rw [if_neg hq]
    have hph : s.phase = .remote ∨ s.phase = .steal := by
      have h1 := h.idleQuota
      cases hp : s.phase <;> simp_all
    by_cases hg : s.fromGlob = true
    · rw [if_pos hg]
      have hst : s.phase = .steal := by
        rcases hph with hp | hp
        · exact absurd (h.quotaRemote hp).1 (by rw [hg]; decide)
        · exact hp
      cases hk : s.glob[k % s.glob.length]? with
      | none => exact ⟨h.perm, h.runPhase, fun _ => rfl, by simp [hst], h.stealGlob, by simp, h.order, h.sub, h.schedNot, h.inRemote, h.inGlob⟩
      | some t =>
        have hp := erase_perm hk
        have htg : t ∈ s.intoGlob := h.inGlob t (hp.symm.subset (by simp))
        have hts : t ∉ s.intoSched := fun hc => (h.schedNot t hc).2 htg
        refine ⟨?_, h.runPhase, by simp [hst], by simp [hst], h.stealGlob, by simp [hst], ?_, h.sub, h.schedNot, h.inRemote,
          fun x hx => h.inGlob x (List.mem_of_mem_eraseIdx hx)⟩
        · refine perm_of_count (s := s) rfl h.perm (fun a => ?_)
          simp only [count_places]
          have := hp.count_eq a
          rw [List.count_append]
          rw [List.count_cons] at this
          rw [List.count_singleton]
          omega
        · have := h.order
          simp only [List.filter_append, List.filter_cons, hts, decide_false, List.filter_nil]
          simpa using this
    · rw [if_neg hg]
      have hst : s.phase = .remote := by
        rcases hph with hp | hp
        · exact hp
        · exact absurd (h.stealGlob hp) hg
      have hql := (h.quotaRemote hst).2
      cases hk : s.remote[k % s.remote.length]? with
      | none => exact ⟨h.perm, h.runPhase, fun _ => rfl, by simp [hst]; simpa using hg, h.stealGlob, by simp, h.order, h.sub, h.schedNot, h.inRemote, h.inGlob⟩
      | some t =>
        have hp := erase_perm hk
        have htg : t ∈ s.intoRemote := h.inRemote t (hp.symm.subset (by simp))
        have hts : t ∉ s.intoSched := fun hc => (h.schedNot t hc).1 htg
        refine ⟨?_, h.runPhase, by simp [hst], ?_, by simp [hst], by simp [hst], ?_, h.sub, h.schedNot, 
          fun x hx => h.inRemote x (List.mem_of_mem_eraseIdx hx), h.inGlob⟩
        · refine perm_of_count (s := s) rfl h.perm (fun a => ?_)
          simp only [count_places]
          have := hp.count_eq a
          rw [List.count_append]
          rw [List.count_cons] at this
          rw [List.count_singleton]
          omega
        · intro _
          have := hp.length_eq
          simp only [List.length_cons] at this
          exact ⟨by simpa using hg, by simp only; omega⟩
        · have := h.order
          simp only [List.filter_append, List.filter_cons, hts, decide_false, List.filter_nil]
          simpa using this

theorem inv_next {s s' : St} (h : Inv s) (hs : nextPhase s = some s') (hm : s.cur = .main) : Inv s' := by
  unfold nextPhase at hs
  cases hp : s.phase <;> rw [hp] at hs <;> simp only at hs
  case idle => simp at hs
  case ready0 =>
    split at hs
    · simp only [Option.some.injEq] at hs; subst hs
      have hr := h.runPhase (by rw [hp]; decide)
      refine ⟨?_, fun _ => rfl, by simp, fun _ => ⟨rfl, Nat.le_refl _⟩, by simp, by simp [hm], ?_, h.sub, h.schedNot, h.inRemote, h.inGlob⟩
      · have := h.perm; simp only [places, hr] at this ⊢; exact this
      · have := h.order; rw [hr] at this; exact this
    · simp at hs
  case remote =>
    split at hs
    · simp only [Option.some.injEq] at hs; subst hs
      have hr := h.runPhase (by rw [hp]; decide)
      refine ⟨?_, by simp, by simp, by simp, by simp, by simp [hm], ?_, h.sub, h.schedNot, h.inRemote, h.inGlob⟩
      · refine perm_of_count (s := s) rfl h.perm (fun a => ?_)
        simp only [count_places, hr, List.count_nil]
        omega
      · have := h.order; rw [hr] at this; simpa using this
    · simp at hs
  case nested =>
    split at hs
    · rename_i h0
      simp only [Option.some.injEq] at hs; subst hs
      have hr : s.run = [] := by
        have : s.run.length = 0 := by unfold remain at h0; omega
        exact List.eq_nil_of_length_eq_zero this
      refine ⟨?_, fun _ => rfl, by simp, by simp, by simp, by simp [hm], ?_, h.sub, h.schedNot, h.inRemote, h.inGlob⟩
      · have := h.perm; simp only [places, hr] at this ⊢; exact this
      · have := h.order; rw [hr] at this; exact this
    · simp at hs
  case steal =>
    split at hs
    · rename_i h0
      simp only [Option.some.injEq] at hs; subst hs
      have hr := h.runPhase (by rw [hp]; decide)
      exact ⟨h.perm, fun _ => hr, fun _ => (by unfold remain at h0; simp only; omega), by simp, by simp, by simp, h.order, h.sub, h.schedNot, h.inRemote, h.inGlob⟩
    · simp at hs
  case ready1 =>
    split at hs
    · simp only [Option.some.injEq] at hs; subst hs
      have hr := h.runPhase (by rw [hp]; decide)
      have hq := h.idleQuota (by simp [hp])
      exact ⟨h.perm, fun _ => hr, fun _ => hq, by simp, by simp, by simp [hm], h.order, h.sub, h.schedNot, h.inRemote, h.inGlob⟩
    · simp at hs

theorem inv_step {s s' : St} (h : Inv s) {l : Lab} (hs : step s l = some s') : Inv s' := by
  cases l with
  | begin =>
    simp only [step] at hs
    split at hs
    · rename_i hc
      simp only [Option.some.injEq] at hs; subst hs
      have hr := h.runPhase (by rw [hc.1]; decide)
      have hq := h.idleQuota (by simp [hc.1])
      exact ⟨h.perm, fun _ => hr, fun _ => hq, by simp, by simp, by simp, h.order, h.sub, h.schedNot, h.inRemote, h.inGlob⟩
    · simp at hs
  | next =>
    simp only [step] at hs
    split at hs
    · rename_i hc; exact inv_next h hs hc
    · simp at hs
  | wake =>
    simp only [step] at hs
    split at hs
    · rename_i hc
      split at hs
      · simp at hs
      · simp only [Option.some.injEq] at hs; subst hs
        refine ⟨h.perm, h.runPhase, h.idleQuota, h.quotaRemote, h.stealGlob, ?_, h.order, h.sub, h.schedNot, h.inRemote, h.inGlob⟩
        intro _ he
        have he : s.phase = .idle := he
        rcases hc.1 with x | x <;> rw [he] at x <;> exact absurd x (by decide)
    · simp at hs
  | spawn =>
    simp only [step] at hs
    split at hs
    · rename_i hc
      simp only [Option.some.injEq] at hs; subst hs
      refine ⟨h.perm, h.runPhase, h.idleQuota, h.quotaRemote, h.stealGlob, ?_, h.order, h.sub, h.schedNot, h.inRemote, h.inGlob⟩
      intro _ he
      have he : s.phase = .idle := he
      rcases hc.1 with x | x | x <;> rw [he] at x <;> exact absurd x (by decide)
    · simp at hs
  | pop k =>
    simp only [step] at hs
    split at hs
    · cases hr : s.run with
      | nil =>
        rw [hr] at hs
        simp only [Option.some.injEq] at hs; subst hs
        exact inv_popQueue h k
      | cons t r =>
        rw [hr] at hs
        simp only [Option.some.injEq] at hs; subst hs
        have hn : s.phase = .nested := by
          by_contra hne
          rw [h.runPhase hne] at hr; simp at hr
        have hts : t ∈ s.intoSched := by
          rw [← h.order, hr]; simp
        refine ⟨?_, fun hne => absurd hn hne, h.idleQuota, h.quotaRemote, h.stealGlob, by simp [hn], ?_, h.sub, h.schedNot, h.inRemote, h.inGlob⟩
        · refine perm_of_count (s := s) rfl h.perm (fun a => ?_)
          simp only [count_places, hr, List.count_append, List.count_cons, List.count_nil]
          omega
        · have := h.order
          rw [hr] at this
          simp only [List.filter_append, List.filter_cons, hts, decide_true, List.filter_nil, if_true]
          simpa using this
    · simp at hs
  | finish =>
    simp only [step] at hs
    split at hs
    · simp only [Option.some.injEq] at hs; subst hs
      refine ⟨h.perm, h.runPhase, h.idleQuota, h.quotaRemote, h.stealGlob, fun _ => h.topPhase (by simp [*]), h.order, h.sub, h.schedNot, h.inRemote, h.inGlob⟩
    · simp at hs
  | yield =>
    simp only [step] at hs
    split at hs
    · simp only [Option.some.injEq] at hs; subst hs
      exact ⟨h.perm, h.runPhase, h.idleQuota, h.quotaRemote, h.stealGlob, by simp, h.order, h.sub, h.schedNot, h.inRemote, h.inGlob⟩
    · simp at hs
  | resume t =>
    simp only [step] at hs
    split at hs
    · simp only [Option.some.injEq] at hs; subst hs
      exact ⟨h.perm, h.runPhase, h.idleQuota, h.quotaRemote, h.stealGlob, h.topPhase, h.order, h.sub, h.schedNot, h.inRemote, h.inGlob⟩
    · simp at hs
  | append =>
    simp only [step] at hs
    split at hs
    · simp only [Option.some.injEq] at hs; subst hs
      have hnr : s.n ∉ s.intoRemote := fun hc => Nat.lt_irrefl _ ((h.sub _).1 (Or.inr (Or.inl hc)))
      have hng : s.n ∉ s.intoGlob := fun hc => Nat.lt_irrefl _ ((h.sub _).1 (Or.inr (Or.inr hc)))
      refine ⟨?_, h.runPhase, h.idleQuota, h.quotaRemote, h.stealGlob, h.topPhase, ?_, ?_, ?_, h.inRemote, h.inGlob⟩
      · refine perm_of_count_new (s := s) rfl h.perm (fun a => ?_)
        simp only [count_places, List.count_append, List.count_cons, List.count_nil]
        omega
      · simp only
        rw [filter_fresh (fun hc => Nat.lt_irrefl _ (started_lt h hc)), ← List.append_assoc, h.order]
      · intro t
        simp only [List.mem_append, List.mem_singleton]
        have := h.sub t
        constructor
        · rintro ((hh | hh) | hh)
          · have := this.1 (Or.inl hh); omega
          · omega
          · have := this.1 (Or.inr hh); omega
        · intro hh
          rcases Nat.lt_or_ge t s.n with h1 | h1
          · rcases this.2 h1 with h2 | h2
            · exact Or.inl (Or.inl h2)
            · exact Or.inr h2
          · exact Or.inl (Or.inr (by omega))
      · intro t ht
        simp only [List.mem_append, List.mem_singleton] at ht
        rcases ht with ht | rfl
        · exact h.schedNot t ht
        · exact ⟨hnr, hng⟩
    · simp at hs
  | enqueue =>
    simp only [step, Option.some.injEq] at hs; subst hs
    have hns : s.n ∉ s.intoSched := fun hc => Nat.lt_irrefl _ (sched_lt h hc)
    refine ⟨?_, h.runPhase, h.idleQuota, ?_, h.stealGlob, h.topPhase, h.order, ?_, ?_, ?_, h.inGlob⟩
    · refine perm_of_count_new (s := s) rfl h.perm (fun a => ?_)
      simp only [count_places, List.count_append, List.count_cons, List.count_nil]
      omega
    · intro hp
      obtain ⟨h1, h2⟩ := h.quotaRemote hp
      exact ⟨h1, by simp only [List.length_append, List.length_singleton]; omega⟩
    · intro t
      simp only [List.mem_append, List.mem_singleton]
      have := h.sub t
      constructor
      · rintro (hh | (hh | hh) | hh)
        · have := this.1 (Or.inl hh); omega
        · have := this.1 (Or.inr (Or.inl hh)); omega
        · omega
        · have := this.1 (Or.inr (Or.inr hh)); omega
      · intro hh
        rcases Nat.lt_or_ge t s.n with h1 | h1
        · rcases this.2 h1 with h2 | h2 | h2
          · exact Or.inl h2
          · exact Or.inr (Or.inl (Or.inl h2))
          · exact Or.inr (Or.inr h2)
        · exact Or.inr (Or.inl (Or.inr (by omega)))
    · intro t ht
      refine ⟨?_, (h.schedNot t ht).2⟩
      simp only [List.mem_append, List.mem_singleton]
      rintro (hh | rfl)
      · exact (h.schedNot t ht).1 hh
      · exact hns ht
    · intro t ht
      simp only [List.mem_append, List.mem_singleton] at ht ⊢
      rcases ht with ht | ht
      · exact Or.inl (h.inRemote t ht)
      · exact Or.inr ht
  | publish =>
    simp only [step, Option.some.injEq] at hs; subst hs
    have hns : s.n ∉ s.intoSched := fun hc => Nat.lt_irrefl _ (sched_lt h hc)
    refine ⟨?_, h.runPhase, h.idleQuota, h.quotaRemote, h.stealGlob, h.topPhase, h.order, ?_, ?_, h.inRemote, ?_⟩
    · refine perm_of_count_new (s := s) rfl h.perm (fun a => ?_)
      simp only [count_places, List.count_append, List.count_cons, List.count_nil]
      omega
    · intro t
      simp only [List.mem_append, List.mem_singleton]
      have := h.sub t
      constructor
      · rintro (hh | hh | (hh | hh))
        · have := this.1 (Or.inl hh); omega
        · have := this.1 (Or.inr (Or.inl hh)); omega
        · have := this.1 (Or.inr (Or.inr hh)); omega
        · omega
      · intro hh
        rcases Nat.lt_or_ge t s.n with h1 | h1
        · rcases this.2 h1 with h2 | h2 | h2
          · exact Or.inl h2
          · exact Or.inr (Or.inl h2)
          · exact Or.inr (Or.inr (Or.inl h2))
        · exact Or.inr (Or.inr (Or.inr (by omega)))
    · intro t ht
      refine ⟨(h.schedNot t ht).1, ?_⟩
      simp only [List.mem_append, List.mem_singleton]
      rintro (hh | rfl)
      · exact (h.schedNot t ht).2 hh
      · exact hns ht
    · intro t ht
      simp only [List.mem_append, List.mem_singleton] at ht ⊢
      rcases ht with ht | ht
      · exact Or.inl (h.inGlob t ht)
      · exact Or.inr ht
  | other k =>
    simp only [step] at hs
    split at hs
    · simp at hs
    · rename_i t hk
      simp only [Option.some.injEq] at hs; subst hs
      refine ⟨?_, h.runPhase, h.idleQuota, h.quotaRemote, h.stealGlob, h.topPhase, h.order, h.sub, h.schedNot, h.inRemote,
        fun x hx => h.inGlob x (List.mem_of_mem_eraseIdx hx)⟩
      refine perm_of_count (s := s) rfl h.perm (fun a => ?_)
      simp only [count_places, List.count_append, List.count_cons, List.count_nil]
      have := (erase_perm hk).count_eq a
      rw [List.count_cons] at this
      omega

theorem inv_exec {s s' : St} (h : Inv s) {ls : List Lab} (hs : exec s ls = some s') : Inv s' := by
  induction ls generalizing s with
  | nil => simp only [exec, Option.some.injEq] at hs; subst hs; exact h
  | cons l t ih =>
    simp only [exec] at hs
    cases h1 : step s l with
    | none => rw [h1] at hs; simp at hs
    | some s1 => rw [h1] at hs; exact ih (inv_step h h1) hs

/-- A state that occurs. -/
def Reach (s : St) : Prop := ∃ ls, exec init ls = some s

theorem reach_inv {s : St} (h : Reach s) : Inv s := by
  obtain ⟨ls, h⟩ := h
  exact inv_exec inv_init h

/-- C161: a submitted task is started exactly once, or still waits in exactly one queue, or another runner has taken it; nothing else is
ever started. -/
theorem c161_once {s : St} (h : Reach s) :
    (s.started ++ s.run ++ s.remote ++ s.sched ++ s.glob ++ s.others).Nodup ∧
    (∀ t, t ∈ s.started ++ s.run ++ s.remote ++ s.sched ++ s.glob ++ s.others ↔ t < s.n) := by
  have hp := (reach_inv h).perm
  refine ⟨hp.nodup_iff.2 List.nodup_range, fun t => ?_⟩
  exact (hp.mem_iff (a := t)).trans (by simp)

/-- C161: tasks a loop's own thread appends are started in the order of appending. -/
theorem c161_order {s : St} (h : Reach s) :
    (s.started.filter (fun t => decide (t ∈ s.intoSched))) <+: s.intoSched := by
  refine ⟨s.run ++ s.sched, ?_⟩
  have := (reach_inv h).order
  rw [List.append_assoc] at this
  exact this

/-! ### One call of `Run` -/

/-- No new call of `Run` begins. -/
def sameRun : List Lab → Prop
  | [] => True
  | .begin :: _ => False
  | _ :: t => sameRun t

/-- Tasks other threads gave to this runner. -/
def enqueues : List Lab → Nat
  | [] => 0
  | .enqueue :: t => enqueues t + 1
  | _ :: t => enqueues t

/-- Tasks put into the shared queue. -/
def publishes : List Lab → Nat
  | [] => 0
  | .publish :: t => publishes t + 1
  | _ :: t => publishes t

/-- What holds during a call of `Run` that began when `sched` was `q`, after `e` enqueues and `p` publications. -/
structure Round (q : List Nat) (e p : Nat) (s : St) : Prop where
  early : ∀ t ∈ q, t ∈ s.started ∨ t ∈ s.run ∨ t ∈ s.sched
  mid : s.phase = .nested → ∀ t ∈ q, t ∈ s.started ∨ t ∈ s.run
  late : s.phase = .steal ∨ s.phase = .ready1 ∨ s.phase = .idle → ∀ t ∈ q, t ∈ s.started
  rem : s.phase ≠ .ready0 → s.phase ≠ .remote → s.remote.length ≤ e
  rem1 : s.phase = .remote → s.remote.length ≤ s.quota + e
  gl : s.phase = .ready1 ∨ s.phase = .idle → s.glob.length ≤ p
  gl1 : s.phase = .steal → s.glob.length ≤ s.quota + p

theorem mod_some {l : List Nat} (h : l ≠ []) (k : Nat) : l[k % l.length]? ≠ none := by
  have : 0 < l.length := List.length_pos_of_ne_nil h
  simp only [ne_eq, List.getElem?_eq_none_iff, Nat.not_le]
  exact Nat.mod_lt k this

theorem round_popQueue {q : List Nat} {e p : Nat} {s : St} (hi : Inv s) (h : Round q e p s) (k : Nat) : Round q e p (popQueue s k) := by
  unfold popQueue
  by_cases hq : s.quota = 0
  · rw [if_pos hq]
    exact ⟨h.early, h.mid, h.late, h.rem, h.rem1, h.gl, h.gl1⟩
  · rw [if_neg hq]
    have hph : s.phase = .remote ∨ s.phase = .steal := by
      have h1 := hi.idleQuota
      cases hp : s.phase <;> simp_all
    by_cases hg : s.fromGlob = true
    · rw [if_pos hg]
      have hst : s.phase = .steal := by
        rcases hph with hp | hp
        · exact absurd (hi.quotaRemote hp).1 (by rw [hg]; decide)
        · exact hp
      cases hk : s.glob[k % s.glob.length]? with
      | none =>
        have h0 : s.glob = [] := by
          by_contra hne
          exact mod_some hne k hk
        exact ⟨h.early, h.mid, h.late, h.rem, by simp [hst], h.gl, by simp [h0]⟩
      | some t =>
        have hl := (erase_perm hk).length_eq
        simp only [List.length_cons] at hl
        refine ⟨fun x hx => ?_, by simp [hst], fun _ x hx => ?_, h.rem, by simp [hst], by simp [hst], fun _ => ?_⟩
        · rcases h.early x hx with hh | hh
          · exact Or.inl (List.mem_append_left _ hh)
          · exact Or.inr hh
        · exact List.mem_append_left _ (h.late (Or.inl hst) x hx)
        · have := h.gl1 hst
          simp only; omega
    · rw [if_neg hg]
      have hst : s.phase = .remote := by
        rcases hph with hp | hp
        · exact hp
        · exact absurd (hi.stealGlob hp) hg
      have hql := (hi.quotaRemote hst).2
      cases hk : s.remote[k % s.remote.length]? with
      | none =>
        have h0 : s.remote = [] := by
          by_contra hne
          exact mod_some hne k hk
        rw [h0] at hql
        simp only [List.length_nil] at hql
        exact absurd (by omega) hq
      | some t =>
        have hl := (erase_perm hk).length_eq
        simp only [List.length_cons] at hl
        refine ⟨fun x hx => ?_, by simp [hst], by simp [hst], by simp [hst], fun _ => ?_, by simp [hst], by simp [hst]⟩
        · rcases h.early x hx with hh | hh
          · exact Or.inl (List.mem_append_left _ hh)
          · exact Or.inr hh
        · have := h.rem1 hst
          simp only; omega

theorem round_next {q : List Nat} {e p : Nat} {s s' : St} (hi : Inv s) (h : Round q e p s) (hs : nextPhase s = some s') : Round q e p s' := by
  unfold nextPhase at hs
  cases hp : s.phase <;> rw [hp] at hs <;> simp only at hs
  case idle => simp at hs
  case ready0 =>
    split at hs
    · simp only [Option.some.injEq] at hs; subst hs
      have hr := hi.runPhase (by rw [hp]; decide)
      refine ⟨?_, by simp, by simp, by simp, fun _ => (by simp only; omega), by simp, by simp⟩
      have := h.early
      rw [hr] at this
      exact this
    · simp at hs
  case remote =>
    split at hs
    · rename_i h0
      simp only [Option.some.injEq] at hs; subst hs
      have hr := hi.runPhase (by rw [hp]; decide)
      have hq : s.quota = 0 := by unfold remain at h0; omega
      have h1 := h.rem1 hp
      have he := h.early
      rw [hr] at he
      refine ⟨fun x hx => ?_, fun _ x hx => ?_, by simp, fun _ _ => (by simp only; omega), by simp, by simp, by simp⟩
      · rcases he x hx with hh | hh | hh
        · exact Or.inl hh
        · simp at hh
        · exact Or.inr (Or.inl hh)
      · rcases he x hx with hh | hh | hh
        · exact Or.inl hh
        · simp at hh
        · exact Or.inr hh
    · simp at hs
  case nested =>
    split at hs
    · rename_i h0
      simp only [Option.some.injEq] at hs; subst hs
      have hr : s.run = [] := by
        have : s.run.length = 0 := by unfold remain at h0; omega
        exact List.eq_nil_of_length_eq_zero this
      have hm := h.mid hp
      rw [hr] at hm
      have h1 := h.rem (by rw [hp]; decide) (by rw [hp]; decide)
      refine ⟨fun x hx => ?_, by simp, fun _ x hx => ?_, fun _ _ => h1, by simp, by simp, fun _ => (by simp only; omega)⟩
      · rcases hm x hx with hh | hh
        · exact Or.inl hh
        · simp at hh
      · rcases hm x hx with hh | hh
        · exact hh
        · simp at hh
    · simp at hs
  case steal =>
    split at hs
    · rename_i h0
      simp only [Option.some.injEq] at hs; subst hs
      have h1 := h.rem (by rw [hp]; decide) (by rw [hp]; decide)
      have h2 := h.gl1 hp
      have hq : s.quota = 0 := by unfold remain at h0; omega
      exact ⟨h.early, by simp, fun _ => h.late (Or.inl hp), fun _ _ => h1, by simp, fun _ => (by simp only; omega), by simp⟩
    · simp at hs
  case ready1 =>
    split at hs
    · simp only [Option.some.injEq] at hs; subst hs
      have h1 := h.rem (by rw [hp]; decide) (by rw [hp]; decide)
      exact ⟨h.early, by simp, fun _ => h.late (Or.inr (Or.inl hp)), fun _ _ => h1, by simp, fun _ => h.gl (Or.inl hp), by simp⟩
    · simp at hs

theorem round_step {q : List Nat} {e p : Nat} {s s' : St} {l : Lab} (hi : Inv s) (h : Round q e p s) (hs : step s l = some s')
    (hb : sameRun [l]) : Round q (e + enqueues [l]) (p + publishes [l]) s' := by
  cases l with
  | begin => exact hb.elim
  | next =>
    simp only [step] at hs
    split at hs
    · exact round_next hi h hs
    · simp at hs
  | wake =>
    simp only [step] at hs
    split at hs
    · split at hs
      · simp at hs
      · simp only [Option.some.injEq] at hs; subst hs
        exact ⟨h.early, h.mid, h.late, h.rem, h.rem1, h.gl, h.gl1⟩
    · simp at hs
  | spawn =>
    simp only [step] at hs
    split at hs
    · simp only [Option.some.injEq] at hs; subst hs
      exact ⟨h.early, h.mid, h.late, h.rem, h.rem1, h.gl, h.gl1⟩
    · simp at hs
  | pop k =>
    simp only [step] at hs
    split at hs
    · cases hr : s.run with
      | nil =>
        rw [hr] at hs
        simp only [Option.some.injEq] at hs; subst hs
        exact round_popQueue hi h k
      | cons t r =>
        rw [hr] at hs
        simp only [Option.some.injEq] at hs; subst hs
        have hn : s.phase = .nested := by
          by_contra hne
          rw [hi.runPhase hne] at hr; simp at hr
        have he := h.early
        have hm := h.mid hn
        rw [hr] at he hm
        refine ⟨fun x hx => ?_, fun _ x hx => ?_, by simp [hn], h.rem, h.rem1, h.gl, h.gl1⟩
        · rcases he x hx with hh | hh | hh
          · exact Or.inl (List.mem_append_left _ hh)
          · rcases List.mem_cons.1 hh with rfl | hh
            · exact Or.inl (by simp)
            · exact Or.inr (Or.inl hh)
          · exact Or.inr (Or.inr hh)
        · rcases hm x hx with hh | hh
          · exact Or.inl (List.mem_append_left _ hh)
          · rcases List.mem_cons.1 hh with rfl | hh
            · exact Or.inl (by simp)
            · exact Or.inr hh
    · simp at hs
  | finish =>
    simp only [step] at hs
    split at hs
    · simp only [Option.some.injEq] at hs; subst hs
      exact ⟨h.early, h.mid, h.late, h.rem, h.rem1, h.gl, h.gl1⟩
    · simp at hs
  | yield =>
    simp only [step] at hs
    split at hs
    · simp only [Option.some.injEq] at hs; subst hs
      exact ⟨h.early, h.mid, h.late, h.rem, h.rem1, h.gl, h.gl1⟩
    · simp at hs
  | resume t =>
    simp only [step] at hs
    split at hs
    · simp only [Option.some.injEq] at hs; subst hs
      exact ⟨h.early, h.mid, h.late, h.rem, h.rem1, h.gl, h.gl1⟩
    · simp at hs
  | append =>
    simp only [step] at hs
    split at hs
    · simp only [Option.some.injEq] at hs; subst hs
      refine ⟨fun x hx => ?_, h.mid, h.late, h.rem, h.rem1, h.gl, h.gl1⟩
      rcases h.early x hx with hh | hh | hh
      · exact Or.inl hh
      · exact Or.inr (Or.inl hh)
      · exact Or.inr (Or.inr (List.mem_append_left _ hh))
    · simp at hs
  | enqueue =>
    simp only [step, Option.some.injEq] at hs; subst hs
    refine ⟨h.early, h.mid, h.late, fun h1 h2 => ?_, fun h1 => ?_, h.gl, h.gl1⟩
    · have := h.rem h1 h2
      simp only [List.length_append, List.length_singleton, enqueues]; omega
    · have := h.rem1 h1
      simp only [List.length_append, List.length_singleton, enqueues]; omega
  | publish =>
    simp only [step, Option.some.injEq] at hs; subst hs
    refine ⟨h.early, h.mid, h.late, h.rem, h.rem1, fun h1 => ?_, fun h1 => ?_⟩
    · have := h.gl h1
      simp only [List.length_append, List.length_singleton, publishes]; omega
    · have := h.gl1 h1
      simp only [List.length_append, List.length_singleton, publishes]; omega
  | other k =>
    simp only [step] at hs
    split at hs
    · simp at hs
    · rename_i t hk
      simp only [Option.some.injEq] at hs; subst hs
      have hl := (erase_perm hk).length_eq
      simp only [List.length_cons] at hl
      refine ⟨h.early, h.mid, h.late, h.rem, h.rem1, fun h1 => ?_, fun h1 => ?_⟩
      · have := h.gl h1
        simp only [publishes]; omega
      · have := h.gl1 h1
        simp only [publishes]; omega

theorem sameRun_cons {l : Lab} {t : List Lab} (h : sameRun (l :: t)) : sameRun [l] ∧ sameRun t := by
  cases l <;> simp_all [sameRun]

theorem enqueues_cons (l : Lab) (t : List Lab) : enqueues (l :: t) = enqueues [l] + enqueues t := by
  cases l <;> simp [enqueues, Nat.add_comm]

theorem publishes_cons (l : Lab) (t : List Lab) : publishes (l :: t) = publishes [l] + publishes t := by
  cases l <;> simp [publishes, Nat.add_comm]

theorem round_exec {q : List Nat} {e p : Nat} {s s' : St} {ls : List Lab} (hi : Inv s) (h : Round q e p s) (hs : exec s ls = some s')
    (hb : sameRun ls) : Round q (e + enqueues ls) (p + publishes ls) s' := by
  induction ls generalizing s e p with
  | nil => simp only [exec, Option.some.injEq] at hs; subst hs; exact h
  | cons l t ih =>
    obtain ⟨hb1, hb2⟩ := sameRun_cons hb
    simp only [exec] at hs
    cases h1 : step s l with
    | none => rw [h1] at hs; simp at hs
    | some s1 =>
      rw [h1] at hs
      have := ih (inv_step hi h1) (round_step hi h h1 hb1) hs hb2
      rw [enqueues_cons, publishes_cons, ← Nat.add_assoc, ← Nat.add_assoc]
      exact this

/-- C161: when `Run` returns, every task its thread had appended before the call has been started; of the tasks given to it by other
threads, and of the shared ones, no more are waiting than arrived during the call. -/
theorem c161_round {s s' : St} {ls : List Lab} (h : Reach s) (hs : exec s (.begin :: ls) = some s') (hb : sameRun ls) (hi : s'.phase = .idle) :
    (∀ t ∈ s.sched, t ∈ s'.started) ∧ s'.remote.length ≤ enqueues ls ∧ s'.glob.length ≤ publishes ls := by
  simp only [exec] at hs
  cases h1 : step s .begin with
  | none => rw [h1] at hs; simp at hs
  | some s1 =>
    rw [h1] at hs
    have hi1 := inv_step (reach_inv h) h1
    simp only [step] at h1
    split at h1
    · simp only [Option.some.injEq] at h1
      subst h1
      have hr : Round s.sched 0 0 { s with phase := .ready0 } :=
        ⟨fun t ht => Or.inr (Or.inr ht), by simp, by simp, by simp, by simp, by simp, by simp⟩
      have := round_exec hi1 hr hs hb
      rw [Nat.zero_add, Nat.zero_add] at this
      exact ⟨this.late (Or.inr (Or.inr hi)), this.rem (by rw [hi]; decide) (by rw [hi]; decide), this.gl (Or.inr hi)⟩
    · simp at h1

/-- The own tasks of the thread have been collected. -/
def Phase.collected : Phase → Prop
  | .idle => True
  | .ready0 => False
  | .remote => False
  | .nested => True
  | .steal => True
  | .ready1 => True

theorem popQueue_sched (s : St) (k : Nat) : (popQueue s k).sched = s.sched ∧ (popQueue s k).phase = s.phase := by
  unfold popQueue
  split
  · exact ⟨rfl, rfl⟩
  · split <;> split <;> exact ⟨rfl, rfl⟩

theorem collected_step {s s' : St} {l : Lab} (hc : s.phase.collected) (hs : step s l = some s') (hb : sameRun [l]) :
    s'.phase.collected ∧ ∀ t ∈ s.sched, t ∈ s'.sched := by
  cases l with
  | begin => exact hb.elim
  | next =>
    simp only [step] at hs
    split at hs
    · unfold nextPhase at hs
      cases hp : s.phase <;> rw [hp] at hs hc <;> simp only at hs <;> try (exact hc.elim)
      · simp at hs
      all_goals
        split at hs
        · simp only [Option.some.injEq] at hs; subst hs
          exact ⟨trivial, fun t ht => ht⟩
        · simp at hs
    · simp at hs
  | wake =>
    simp only [step] at hs
    split at hs
    · split at hs
      · simp at hs
      · simp only [Option.some.injEq] at hs; subst hs; exact ⟨hc, fun t ht => ht⟩
    · simp at hs
  | spawn =>
    simp only [step] at hs
    split at hs
    · simp only [Option.some.injEq] at hs; subst hs; exact ⟨hc, fun t ht => ht⟩
    · simp at hs
  | pop k =>
    simp only [step] at hs
    split at hs
    · split at hs
      · simp only [Option.some.injEq] at hs; subst hs; exact ⟨hc, fun t ht => ht⟩
      · simp only [Option.some.injEq] at hs; subst hs
        rw [(popQueue_sched s k).1, (popQueue_sched s k).2]
        exact ⟨hc, fun t ht => ht⟩
    · simp at hs
  | finish =>
    simp only [step] at hs
    split at hs
    · simp only [Option.some.injEq] at hs; subst hs; exact ⟨hc, fun t ht => ht⟩
    · simp at hs
  | yield =>
    simp only [step] at hs
    split at hs
    · simp only [Option.some.injEq] at hs; subst hs; exact ⟨hc, fun t ht => ht⟩
    · simp at hs
  | resume t =>
    simp only [step] at hs
    split at hs
    · simp only [Option.some.injEq] at hs; subst hs; exact ⟨hc, fun t ht => ht⟩
    · simp at hs
  | append =>
    simp only [step] at hs
    split at hs
    · simp only [Option.some.injEq] at hs; subst hs; exact ⟨hc, fun t ht => List.mem_append_left _ ht⟩
    · simp at hs
  | enqueue => simp only [step, Option.some.injEq] at hs; subst hs; exact ⟨hc, fun t ht => ht⟩
  | publish => simp only [step, Option.some.injEq] at hs; subst hs; exact ⟨hc, fun t ht => ht⟩
  | other k =>
    simp only [step] at hs
    split at hs
    · simp at hs
    · simp only [Option.some.injEq] at hs; subst hs; exact ⟨hc, fun t ht => ht⟩

/-- C161: a task that a coroutine appends once `Run` has collected the tasks of its thread is not started before the next call: tasks that
append tasks do not keep `Run` from returning. -/
theorem c161_next_round {s s' : St} {ls : List Lab} (h : Reach s) (hc : s.phase.collected) (hs : exec s ls = some s') (hb : sameRun ls)
    {t : Nat} (ht : t ∈ s.sched) : t ∈ s'.sched ∧ t ∉ s'.started := by
  have key : t ∈ s'.sched := by
    obtain ⟨l0, h0⟩ := h
    clear h0 l0
    induction ls generalizing s with
    | nil => simp only [exec, Option.some.injEq] at hs; subst hs; exact ht
    | cons l tl ih =>
      obtain ⟨hb1, hb2⟩ := sameRun_cons hb
      simp only [exec] at hs
      cases h1 : step s l with
      | none => rw [h1] at hs; simp at hs
      | some s1 =>
        rw [h1] at hs
        obtain ⟨hc1, hm⟩ := collected_step hc h1 hb1
        exact ih hc1 hs hb2 (hm t ht)
  refine ⟨key, fun hst => ?_⟩
  have hn := (inv_exec (reach_inv h) hs).perm.nodup_iff.2 List.nodup_range
  unfold places at hn
  have e : s'.started ++ s'.run ++ s'.remote ++ s'.sched ++ s'.glob ++ s'.others =
      s'.started ++ (s'.run ++ s'.remote ++ s'.sched ++ s'.glob ++ s'.others) := by simp [List.append_assoc]
  rw [e, List.nodup_append] at hn
  exact hn.2.2 t hst t (by simp [key]) rfl

/-! ### `Run` returns -/

/-- What the runner itself does in a call of `Run`, and a task's end or wait. -/
def internals : List Lab → Nat
  | [] => 0
  | .next :: t => internals t + 1
  | .wake :: t => internals t + 1
  | .spawn :: t => internals t + 1
  | .pop _ :: t => internals t + 1
  | .finish :: t => internals t + 1
  | .yield :: t => internals t + 1
  | _ :: t => internals t

/-- Work that comes in: a task is submitted or a waiting one made ready. -/
def arrivals : List Lab → Nat
  | [] => 0
  | .resume _ :: t => arrivals t + 1
  | .append :: t => arrivals t + 1
  | .enqueue :: t => arrivals t + 1
  | .publish :: t => arrivals t + 1
  | _ :: t => arrivals t

/-- Weight of what runs now. -/
def curW (s : St) : Nat :=
  match s.cur with
  | .main => if remain s = 0 then 0 else 2
  | .top => 1
  | .inTask _ => 3

/-- Tasks the rest of this call of `Run` will see. -/
def ahead (s : St) : Nat :=
  match s.phase with
  | .idle => 0
  | .ready0 => s.remote.length + s.sched.length + s.glob.length
  | .remote => s.sched.length + s.glob.length
  | .nested => s.glob.length
  | .steal => 0
  | .ready1 => 0

def phaseW : Phase → Nat
  | .idle => 0
  | .ready1 => 3
  | .steal => 6
  | .nested => 9
  | .remote => 12
  | .ready0 => 15

/-- The work left to this call of `Run`. -/
def work (s : St) : Nat := 4 * (s.ready.length + remain s + ahead s) + curW s + phaseW s.phase

theorem curW_main {s : St} (h : s.cur = .main) : curW s ≤ 2 := by
  unfold curW; rw [h]; simp only; split <;> omega

theorem work_popQueue {s : St} (hi : Inv s) (hc : s.cur = .top) (hr : s.run = []) (k : Nat) : work (popQueue s k) + 1 ≤ work s := by
  have hw : curW s = 1 := by unfold curW; rw [hc]
  unfold popQueue
  by_cases hq : s.quota = 0
  · rw [if_pos hq]
    have : curW { s with cur := .main } = 0 := by
      simp [curW, remain, hr, hq]
    unfold work
    rw [hw, this]
    simp only [remain, ahead]
    omega
  · rw [if_neg hq]
    have hph : s.phase = .remote ∨ s.phase = .steal := by
      have h1 := hi.idleQuota
      cases hp : s.phase <;> simp_all
    by_cases hg : s.fromGlob = true
    · rw [if_pos hg]
      have hst : s.phase = .steal := by
        rcases hph with hp | hp
        · exact absurd (hi.quotaRemote hp).1 (by rw [hg]; decide)
        · exact hp
      cases hk : s.glob[k % s.glob.length]? with
      | none =>
        unfold work
        rw [hw]
        simp only [curW, remain, ahead, hst, hr, List.length_nil, Nat.add_zero, if_true]
        omega
      | some t =>
        unfold work
        rw [hw]
        simp only [curW, remain, ahead, hst]
        omega
    · rw [if_neg hg]
      have hst : s.phase = .remote := by
        rcases hph with hp | hp
        · exact hp
        · exact absurd (hi.stealGlob hp) hg
      cases hk : s.remote[k % s.remote.length]? with
      | none =>
        unfold work
        rw [hw]
        simp only [curW, remain, ahead, hst, hr, List.length_nil, Nat.add_zero, if_true]
        omega
      | some t =>
        unfold work
        rw [hw]
        simp only [curW, remain, ahead, hst]
        omega

theorem work_next {s s' : St} (hi : Inv s) (hm : s.cur = .main) (hs : nextPhase s = some s') : work s' + 1 ≤ work s := by
  have h0 := curW_main hm
  unfold nextPhase at hs
  cases hp : s.phase <;> rw [hp] at hs <;> simp only at hs
  case idle => simp at hs
  all_goals
    split at hs
    · rename_i hcond
      simp only [Option.some.injEq] at hs
      have h1 : curW s' ≤ 2 := curW_main (by rw [← hs]; exact hm)
      have hidle := hi.idleQuota
      have hrun := hi.runPhase
      rw [hp] at hidle hrun
      unfold work
      have e1 : ∀ x, curW s' + x = curW s' + x := fun _ => rfl
      generalize curW s' = w at *
      generalize curW s = v at *
      subst hs
      simp_all [remain, ahead, phaseW]
      try omega
    · simp at hs

theorem work_step {s s' : St} {l : Lab} (hi : Inv s) (hs : step s l = some s') (hb : sameRun [l]) :
    work s' + internals [l] ≤ work s + 4 * arrivals [l] := by
  cases l with
  | begin => exact hb.elim
  | next =>
    simp only [step] at hs
    split at hs
    · rename_i hm
      have := work_next hi hm hs
      simp only [internals, arrivals]; omega
    · simp at hs
  | wake =>
    simp only [step] at hs
    split at hs
    · rename_i hc
      split at hs
      · simp at hs
      · rename_i t r hr
        simp only [Option.some.injEq] at hs; subst hs
        unfold work
        simp only [curW, remain, ahead, hr, internals, arrivals, List.length_cons]
        omega
    · simp at hs
  | spawn =>
    simp only [step] at hs
    split at hs
    · rename_i hc
      simp only [Option.some.injEq] at hs; subst hs
      have hw : curW s = 2 := by unfold curW; rw [hc.2.1]; simp only; rw [if_neg hc.2.2]
      unfold work
      rw [hw]
      simp only [curW, remain, ahead, internals, arrivals]
      omega
    · simp at hs
  | pop k =>
    simp only [step] at hs
    split at hs
    · rename_i hc
      cases hr : s.run with
      | nil =>
        rw [hr] at hs
        simp only [Option.some.injEq] at hs; subst hs
        have := work_popQueue hi hc hr k
        simp only [internals, arrivals]; omega
      | cons t r =>
        rw [hr] at hs
        simp only [Option.some.injEq] at hs; subst hs
        have hw : curW s = 1 := by unfold curW; rw [hc]
        unfold work
        rw [hw]
        simp only [curW, remain, ahead, hr, internals, arrivals, List.length_cons]
        omega
    · simp at hs
  | finish =>
    simp only [step] at hs
    split at hs
    · rename_i t hc
      simp only [Option.some.injEq] at hs; subst hs
      have hw : curW s = 3 := by unfold curW; rw [hc]
      unfold work
      rw [hw]
      simp only [curW, remain, ahead, internals, arrivals]
      omega
    · simp at hs
  | yield =>
    simp only [step] at hs
    split at hs
    · rename_i t hc
      simp only [Option.some.injEq] at hs
      have hw : curW s = 3 := by unfold curW; rw [hc]
      have h1 : curW s' ≤ 2 := curW_main (by rw [← hs])
      unfold work
      rw [hw]
      have e : s'.ready = s.ready ∧ remain s' = remain s ∧ ahead s' = ahead s ∧ s'.phase = s.phase := by
        rw [← hs]; exact ⟨rfl, rfl, rfl, rfl⟩
      rw [e.1, e.2.1, e.2.2.1, e.2.2.2]
      simp only [internals, arrivals]
      omega
    · simp at hs
  | resume t =>
    simp only [step] at hs
    split at hs
    · simp only [Option.some.injEq] at hs; subst hs
      unfold work
      have e1 : curW { s with parked := s.parked.erase t, ready := s.ready ++ [t] } = curW s := rfl
      rw [e1]
      simp only [remain, ahead, internals, arrivals, List.length_append, List.length_singleton]
      omega
    · simp at hs
  | append =>
    simp only [step] at hs
    split at hs
    · simp only [Option.some.injEq] at hs; subst hs
      unfold work
      have e1 : curW { s with n := s.n + 1, sched := s.sched ++ [s.n], intoSched := s.intoSched ++ [s.n] } = curW s := rfl
      rw [e1]
      cases hp : s.phase <;> simp only [remain, ahead, internals, arrivals, List.length_append, List.length_singleton, hp] <;> omega
    · simp at hs
  | enqueue =>
    simp only [step, Option.some.injEq] at hs; subst hs
    unfold work
    have e1 : curW { s with n := s.n + 1, remote := s.remote ++ [s.n], intoRemote := s.intoRemote ++ [s.n] } = curW s := rfl
    rw [e1]
    cases hp : s.phase <;> simp only [remain, ahead, internals, arrivals, List.length_append, List.length_singleton, hp] <;> omega
  | publish =>
    simp only [step, Option.some.injEq] at hs; subst hs
    unfold work
    have e1 : curW { s with n := s.n + 1, glob := s.glob ++ [s.n], intoGlob := s.intoGlob ++ [s.n] } = curW s := rfl
    rw [e1]
    cases hp : s.phase <;> simp only [remain, ahead, internals, arrivals, List.length_append, List.length_singleton, hp] <;> omega
  | other k =>
    simp only [step] at hs
    split at hs
    · simp at hs
    · rename_i t hk
      simp only [Option.some.injEq] at hs; subst hs
      have hl := (erase_perm hk).length_eq
      simp only [List.length_cons] at hl
      unfold work
      have e1 : curW { s with glob := s.glob.eraseIdx k, others := s.others ++ [t] } = curW s := rfl
      rw [e1]
      cases hp : s.phase <;> simp only [remain, ahead, internals, arrivals, hp] <;> omega

theorem internals_cons (l : Lab) (t : List Lab) : internals (l :: t) = internals [l] + internals t := by
  cases l <;> simp [internals, Nat.add_comm]

theorem arrivals_cons (l : Lab) (t : List Lab) : arrivals (l :: t) = arrivals [l] + arrivals t := by
  cases l <;> simp [arrivals, Nat.add_comm]

theorem work_exec {s s' : St} {ls : List Lab} (hi : Inv s) (hs : exec s ls = some s') (hb : sameRun ls) :
    work s' + internals ls ≤ work s + 4 * arrivals ls := by
  induction ls generalizing s with
  | nil => simp only [exec, Option.some.injEq] at hs; subst hs; simp [internals, arrivals]
  | cons l t ih =>
    obtain ⟨hb1, hb2⟩ := sameRun_cons hb
    simp only [exec] at hs
    cases h1 : step s l with
    | none => rw [h1] at hs; simp at hs
    | some s1 =>
      rw [h1] at hs
      have h2 := ih (inv_step hi h1) hs hb2
      have h3 := work_step hi h1 hb1
      rw [internals_cons, arrivals_cons]
      omega

/-- C161: the number of steps of one call of `Run` is bounded by what was waiting when it began and what arrived while it ran. -/
theorem c161_bounded {s s' : St} {ls : List Lab} (h : Reach s) (hs : exec s (.begin :: ls) = some s') (hb : sameRun ls) :
    internals ls ≤ 4 * (s.ready.length + s.remote.length + s.sched.length + s.glob.length) + 15 + 4 * arrivals ls := by
  simp only [exec] at hs
  cases h1 : step s .begin with
  | none => rw [h1] at hs; simp at hs
  | some s1 =>
    rw [h1] at hs
    have hi := reach_inv h
    have h2 := work_exec (inv_step hi h1) hs hb
    simp only [step] at h1
    split at h1
    · rename_i hc
      simp only [Option.some.injEq] at h1
      have hr := hi.runPhase (by rw [hc.1]; decide)
      have hq := hi.idleQuota (by simp [hc.1])
      have hw : work s1 = 4 * (s.ready.length + s.remote.length + s.sched.length + s.glob.length) + 15 := by
        subst h1
        simp only [work, remain, ahead, curW, hc.2, hr, hq, phaseW, List.length_nil, if_true]
        omega
      omega
    · simp at h1

/-- C161: and it is never stuck: until `Run` has returned, the runner or the running task can go on. -/
theorem c161_progress {s : St} (h : Reach s) (hp : s.phase ≠ .idle) :
    ∃ l ∈ [Lab.next, .wake, .spawn, .pop 0, .finish], ∃ s', step s l = some s' := by
  have hi := reach_inv h
  cases hc : s.cur with
  | top =>
    refine ⟨.pop 0, by simp, ?_⟩
    simp only [step, hc, if_true]
    split <;> exact ⟨_, rfl⟩
  | inTask t => exact ⟨.finish, by simp, { s with cur := .top }, by simp only [step, hc]⟩
  | main =>
    have go : ∀ (hph : s.phase = .remote ∨ s.phase = .nested ∨ s.phase = .steal), remain s ≠ 0 →
        ∃ l ∈ [Lab.next, .wake, .spawn, .pop 0, .finish], ∃ s', step s l = some s' := by
      intro hph hr
      exact ⟨.spawn, by simp, _, by simp only [step]; rw [if_pos ⟨hph, hc, hr⟩]⟩
    have wk : ∀ (hph : s.phase = .ready0 ∨ s.phase = .ready1), s.ready ≠ [] →
        ∃ l ∈ [Lab.next, .wake, .spawn, .pop 0, .finish], ∃ s', step s l = some s' := by
      intro hph hr
      cases hl : s.ready with
      | nil => exact absurd hl hr
      | cons t r => exact ⟨.wake, by simp, _, by simp only [step]; rw [if_pos ⟨hph, hc⟩, hl]⟩
    have nx : ∀ s', nextPhase s = some s' → ∃ l ∈ [Lab.next, .wake, .spawn, .pop 0, .finish], ∃ s', step s l = some s' :=
      fun s' hs => ⟨.next, by simp, s', by simp only [step]; rw [if_pos hc]; exact hs⟩
    cases hph : s.phase with
    | idle => exact absurd hph hp
    | ready0 =>
      by_cases hr : s.ready = []
      · exact nx _ (by unfold nextPhase; rw [hph]; simp only; rw [if_pos hr])
      · exact wk (Or.inl hph) hr
    | ready1 =>
      by_cases hr : s.ready = []
      · exact nx _ (by unfold nextPhase; rw [hph]; simp only; rw [if_pos hr])
      · exact wk (Or.inr hph) hr
    | remote =>
      by_cases hr : remain s = 0
      · exact nx _ (by unfold nextPhase; rw [hph]; simp only; rw [if_pos hr])
      · exact go (Or.inl hph) hr
    | nested =>
      by_cases hr : remain s = 0
      · exact nx _ (by unfold nextPhase; rw [hph]; simp only; rw [if_pos hr])
      · exact go (Or.inr (Or.inl hph)) hr
    | steal =>
      by_cases hr : remain s = 0
      · exact nx _ (by unfold nextPhase; rw [hph]; simp only; rw [if_pos hr])
      · exact go (Or.inr (Or.inr hph)) hr

/-! ### Two coroutines that wake each other -/

theorem exec_append {s s1 : St} {a : List Lab} (h : exec s a = some s1) (b : List Lab) : exec s (a ++ b) = exec s1 b := by
  induction a generalizing s with
  | nil => simp only [exec, Option.some.injEq] at h; subst h; rfl
  | cons l t ih =>
    simp only [exec, List.cons_append] at h ⊢
    cases h1 : step s l with
    | none => rw [h1] at h; simp at h
    | some s2 => rw [h1] at h; simp only [Option.bind_some] at h ⊢; exact ih h

/-- Task 0 waits, task 1 is ready, and task 2 waits in the runner's list; `Run` has just begun. -/
def duelStart : List Lab :=
  [.append, .append, .begin, .next, .next, .spawn, .pop 0, .yield, .spawn, .pop 0, .yield, .next, .next, .next, .append, .resume 0, .resume 1, .begin,
   .wake, .yield]

/-- Task 1 runs, makes task 0 ready and waits; then the other way round. -/
def duel : List Lab := [.wake, .resume 0, .yield, .wake, .resume 1, .yield]

def duels : Nat → List Lab
  | 0 => []
  | k + 1 => duel ++ duels k

/-- The state between two turns. -/
def duelSt : St :=
  ⟨3, [], [2], [], [], 0, true, .ready0, .main, [0], [1], [0, 1], [], [], [0, 1, 2], []⟩

theorem duel_start : exec init duelStart = some duelSt := by rfl

theorem duel_loop : exec duelSt duel = some duelSt := by rfl

theorem duels_loop (k : Nat) : exec duelSt (duels k) = some duelSt := by
  induction k with
  | zero => rfl
  | succ k ih => rw [duels, exec_append duel_loop, ih]

theorem duels_length (k : Nat) : (duels k).length = 6 * k := by
  induction k with
  | zero => rfl
  | succ k ih => rw [duels, List.length_append, ih]; simp only [duel, List.length_cons, List.length_nil]; omega

/-- C162 violation.  Two coroutines that make each other ready (say two that hand a token to and fro) keep one call of `Run` from
returning for as long as they go on: a task that was waiting when `Run` began (number 2) is not started, however many turns they take,
and the loop (timers, sockets, other tasks) stands still meanwhile. -/
theorem c162_duel_violated (k : Nat) :
    ∃ ls s', exec init ls = some s' ∧ 6 * k ≤ ls.length ∧ s'.phase = .ready0 ∧ 2 ∈ s'.sched ∧ 2 ∉ s'.started ∧
      enqueues ls = 0 ∧ publishes ls = 0 := by
  have hz : ∀ k, enqueues (duels k) = 0 ∧ publishes (duels k) = 0 := by
    intro k
    induction k with
    | zero => exact ⟨rfl, rfl⟩
    | succ k ih => exact ih
  refine ⟨duelStart ++ duels k, duelSt, ?_, ?_, rfl, by decide, by decide, ?_, ?_⟩
  · rw [exec_append duel_start]; exact duels_loop k
  · rw [List.length_append, duels_length]; omega
  · exact (hz k).1
  · exact (hz k).2

/-! ### `CO_GO f` -/

/-- The loops of a program, as far as `CO_GO` uses them. -/
structure Prog where
  /-- the loop's thread has a runner (`instance()`, co_runner.cc:346-349) -/
  runner : Nat → Bool
  /-- the background loop and its runner exist (co_runner.cc:352-361) -/
  backgroundUp : Bool
  /-- `g_remote` -/
  queue : List Nat
  /-- tasks started, by whom: a loop or the background loop (`none`) -/
  started : List (Nat × Option Nat)
  n : Nat

def Prog.init : Prog := ⟨fun _ => false, false, [], [], 0⟩

inductive ProgLab where
  /-- `CO_GO f` on the thread of a loop, or on another thread (co_runner.h:47-49, 64-67) -/
  | go (on : Option Nat)
  /-- `RegisteRunner(l)`, or the first `CO_GO l << f` (co_runner.cc:364-370, co_runner.h:72-77) -/
  | register (l : Nat)
  /-- an iteration of a loop; it runs its runner if it has one (message_loop.cc:294-306); the whole queue is taken
  (co_runner.cc:280-286, the tasks do not wait and add none) -/
  | iterate (l : Option Nat)

/-- One step. -/
def Prog.step (p : Prog) : ProgLab → Prog
  | .go (some _) => { p with queue := p.queue ++ [p.n], n := p.n + 1 }
  | .go none => { p with queue := p.queue ++ [p.n], n := p.n + 1, backgroundUp := true }
  | .register l => { p with runner := fun x => if x = l then true else p.runner x }
  | .iterate (some l) =>
    if p.runner l = true then { p with queue := [], started := p.started ++ p.queue.map (fun t => (t, some l)) } else p
  | .iterate none =>
    if p.backgroundUp = true then { p with queue := [], started := p.started ++ p.queue.map (fun t => (t, none)) } else p

def Prog.exec (p : Prog) (ls : List ProgLab) : Prog := ls.foldl Prog.step p

/-- Only `CO_GO f` on loops, and loops that run. -/
def plain : ProgLab → Prop
  | .go (some _) => True
  | .go none => False
  | .register _ => False
  | .iterate _ => True

theorem plain_exec (ls : List ProgLab) (hp : ∀ l ∈ ls, plain l) (p : Prog) (h : p.started = [] ∧ (∀ l, p.runner l = false) ∧ p.backgroundUp = false) :
    (p.exec ls).started = [] := by
  induction ls generalizing p with
  | nil => exact h.1
  | cons l t ih =>
    refine ih (fun x hx => hp x (List.mem_cons_of_mem _ hx)) (p.step l) ?_
    have h1 := hp l (by simp)
    cases l with
    | register l => exact h1.elim
    | go on =>
      cases on with
      | none => exact h1.elim
      | some l => exact ⟨h.1, h.2.1, h.2.2⟩
    | iterate on =>
      cases on with
      | none => simp only [Prog.step]; rw [if_neg (by rw [h.2.2]; decide)]; exact h
      | some l => simp only [Prog.step]; rw [if_neg (by rw [h.2.1 l]; decide)]; exact h

/-- C162 violation.  `CO_GO f` on the thread of a loop puts the task into the shared queue and wakes that loop; if no thread of the program has
made itself a runner, nothing takes it from there: the task is never started, however long the loops run.  (Off a loop's thread `CO_GO f`
starts the background runner.) -/
theorem c162_nobody_runs_violated (ls : List ProgLab) (hp : ∀ l ∈ ls, plain l) : (Prog.init.exec ls).started = [] :=
  plain_exec ls hp Prog.init ⟨rfl, fun _ => rfl, rfl⟩

theorem background_from (p : Prog) (mid : List ProgLab) :
    let p' := ((p.step (.go none)).exec mid).step (.iterate none)
    ∃ who, (p.n, who) ∈ p'.started := by
  have key : ∀ (mid : List ProgLab) (q : Prog), q.backgroundUp = true → (p.n ∈ q.queue ∨ ∃ who, (p.n, who) ∈ q.started) →
      (q.exec mid).backgroundUp = true ∧ (p.n ∈ (q.exec mid).queue ∨ ∃ who, (p.n, who) ∈ (q.exec mid).started) := by
    intro mid
    induction mid with
    | nil => intro q h1 h2; exact ⟨h1, h2⟩
    | cons l t ih =>
      intro q h1 h2
      refine ih (q.step l) ?_ ?_
      · cases l with
        | register l => exact h1
        | go on => cases on <;> simp [Prog.step, h1]
        | iterate on => cases on <;> simp only [Prog.step] <;> split <;> exact h1
      · cases l with
        | register l => exact h2
        | go on =>
          cases on <;>
          · rcases h2 with h | h
            · exact Or.inl (List.mem_append_left _ h)
            · exact Or.inr h
        | iterate on =>
          have aux : ∀ (c : Bool) (w : Option Nat),
              p.n ∈ (if c = true then { q with queue := [], started := q.started ++ q.queue.map (fun t => (t, w)) } else q).queue ∨
              ∃ who, (p.n, who) ∈ (if c = true then { q with queue := [], started := q.started ++ q.queue.map (fun t => (t, w)) } else q).started := by
            intro c w
            cases c with
            | false => exact h2
            | true =>
              right
              rcases h2 with h | ⟨w', h⟩
              · exact ⟨w, List.mem_append_right _ (List.mem_map.2 ⟨p.n, h, rfl⟩)⟩
              · exact ⟨w', List.mem_append_left _ h⟩
          cases on with
          | none => exact aux q.backgroundUp none
          | some l => exact aux (q.runner l) (some l)
  obtain ⟨h1, h2⟩ := key mid (p.step (.go none)) rfl (Or.inl (by simp [Prog.step]))
  generalize (p.step (.go none)).exec mid = q at h1 h2
  have e : q.step (.iterate none) = { q with queue := [], started := q.started ++ q.queue.map (fun t => (t, none)) } := by
    simp only [Prog.step]; rw [if_pos h1]
  simp only
  rw [e]
  rcases h2 with h | ⟨w, h⟩
  · exact ⟨none, List.mem_append_right _ (List.mem_map.2 ⟨p.n, h, rfl⟩)⟩
  · exact ⟨w, List.mem_append_left _ h⟩

/-- C161: `CO_GO f` on a thread without a loop starts the background runner if need be; its next iteration starts the task, unless
another runner did before. -/
theorem c161_background (before between : List ProgLab) :
    ∃ who, ((Prog.init.exec before).n, who) ∈ (Prog.init.exec (before ++ [.go none] ++ between ++ [.iterate none])).started := by
  have h := background_from (Prog.init.exec before) between
  simpa [Prog.exec, List.foldl_append] using h

/-- The tasks started and those in the queue are all, each once. -/
theorem c161_go_once (ls : List ProgLab) :
    ((Prog.init.exec ls).started.map Prod.fst ++ (Prog.init.exec ls).queue) = List.range (Prog.init.exec ls).n := by
  have key : ∀ (ls : List ProgLab) (p : Prog), p.started.map Prod.fst ++ p.queue = List.range p.n →
      ((p.exec ls).started.map Prod.fst ++ (p.exec ls).queue) = List.range (p.exec ls).n := by
    intro ls
    induction ls with
    | nil => intro p h; exact h
    | cons l t ih =>
      intro p h
      refine ih (p.step l) ?_
      have aux : ∀ (c : Bool) (w : Option Nat),
          (if c = true then { p with queue := [], started := p.started ++ p.queue.map (fun t => (t, w)) } else p).started.map Prod.fst ++
          (if c = true then { p with queue := [], started := p.started ++ p.queue.map (fun t => (t, w)) } else p).queue =
          List.range (if c = true then { p with queue := [], started := p.started ++ p.queue.map (fun t => (t, w)) } else p).n := by
        intro c w
        cases c with
        | false => exact h
        | true =>
          have e : (p.queue.map (fun t => (t, w))).map Prod.fst = p.queue := by
            rw [List.map_map]; exact List.map_id p.queue
          simp only [if_true, List.map_append, e, List.append_nil]
          exact h
      cases l with
      | register l => exact h
      | go on => cases on <;> simp only [Prog.step, ← List.append_assoc, h, List.range_succ]
      | iterate on =>
        cases on with
        | none => exact aux p.backgroundUp none
        | some l => exact aux (p.runner l) (some l)
  exact key ls Prog.init rfl

/-! ### Examples -/

/-- Two own tasks, one from another thread, a shared one; the first appends a task, the second waits. -/
def sample : List Lab :=
  [.append, .append, .enqueue, .publish, .begin, .next, .spawn, .pop 0, .finish, .pop 0, .next, .spawn, .pop 0, .append, .finish, .pop 0, .yield,
   .next, .spawn, .pop 0, .finish, .pop 0, .next, .resume 1, .wake, .finish, .pop 0, .next]

example : (exec init sample).map (fun s => (s.started, s.sched, s.phase, s.n)) = some ([2, 0, 1, 3], [4], .idle, 5) := by rfl
example : Reach duelSt := ⟨duelStart, duel_start⟩
example : sameRun (sample.drop 5) := by simp [sample, sameRun]
example : internals (sample.drop 5) = 21 ∧ arrivals (sample.drop 5) = 2 := by decide
example : (Prog.init.exec [.go (some 0), .iterate (some 0), .go none, .iterate none]).started = [(0, none), (1, none)] := by decide
example : (Prog.init.exec [.go (some 0), .iterate (some 0), .register 1, .iterate (some 1)]).started = [(0, some 1)] := by decide

end Ltio.Coro.Sched
