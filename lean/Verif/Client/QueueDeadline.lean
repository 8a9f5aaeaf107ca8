import Mathlib.Tactic.ByContra
import Mathlib.Data.List.Perm.Basic
import Verif.Client.Deadline

/-
C184 for a `QueuedChannel` (net_io/clients/queued_channel.cc): one request in flight, the others wait; only the one in
flight has a timer.

`TrySendNext` uses the front of the list after it was popped (C22); here the evident intention is modelled, the pointer is
copied first.
-/
namespace Ltio.Client.QueueDeadline
open Ltio.Client.Deadline (End)

/-! ### The program -/

/-- A request given to the channel: when, and how many were before it then (not in the code). -/
structure Job where
  r : Nat
  given : Nat
  ahead : Nat
deriving DecidableEq, Repr

/-- `ing_request_` with the time it was sent, `waiting_list_`, the posted `OnRequestTimeout` tasks; `ends` and `given`
are written only: every outcome, and every request given to the channel. -/
structure St where
  now : Nat
  timers : List (Nat × Nat)
  ing : Option (Job × Nat)
  waiting : List Job
  ends : List (Job × End × Nat)
  given : List Job

def St.init : St := ⟨0, [], none, [], [], []⟩

inductive In where
  | tick (d : Nat)
  | send (r : Nat) (ok : Nat → Bool)    -- SendRequest; `ok`: which requests the codec takes
  | answer (ok : Nat → Bool)            -- a message was decoded
  | fire (i : Nat)                      -- the loop runs the i-th timer, if due; a request in flight is alive
  | closed

/-- The loop of `TrySendNext` and what follows (queued_channel.cc:57-77), with nothing in flight. -/
def trySend (T : Nat) (ok : Nat → Bool) (s : St) : List Job → St
  | [] => { s with ing := none, waiting := [] }
  | j :: js =>
    if ok j.r then { s with ing := some (j, s.now), waiting := js, timers := s.timers ++ [(s.now + T, j.r)] }
    else trySend T ok { s with ends := s.ends ++ [(j, .broken, s.now)] } js

/-- Everything in the channel. -/
def St.jobs (s : St) : List Job := (s.ing.toList.map Prod.fst) ++ s.waiting

/-- Lines 81-92, 135-146. -/
def St.failAll (s : St) : St :=
  { s with ing := none, waiting := [], ends := s.ends ++ s.jobs.map (fun j => (j, .broken, s.now)) }

def step (T : Nat) (s : St) : In → St
  | .tick d => { s with now := s.now + d }
  -- queued_channel.cc:44-56
  | .send r ok =>
    match s.ing with
    | some _ => { s with
        waiting := s.waiting ++ [⟨r, s.now, s.jobs.length⟩]
        given := s.given ++ [⟨r, s.now, s.jobs.length⟩] }
    | none => trySend T ok { s with given := s.given ++ [⟨r, s.now, s.jobs.length⟩] }
        (s.waiting ++ [⟨r, s.now, s.jobs.length⟩])
  -- 119-132
  | .answer ok =>
    match s.ing with
    | none => s
    | some (j, _) => trySend T ok { s with ing := none, ends := s.ends ++ [(j, .answered, s.now)] } s.waiting
  -- 97-117
  | .fire i =>
    match s.timers[i]? with
    | none => s
    | some t =>
      if s.now < t.1 then s
      else match s.ing with
        | none => { s with timers := s.timers.eraseIdx i }
        | some (j, _) =>
          if j.r = t.2 then
            { s with timers := s.timers.eraseIdx i, ing := none, ends := s.ends ++ [(j, End.timeout, s.now)] }.failAll
          else { s with timers := s.timers.eraseIdx i }
  | .closed => s.failAll

def run (T : Nat) : St → List In → St := List.foldl (step T)

/-! ### Specification -/

/-- The loop runs its timers in time. -/
def Punctual (T : Nat) : St → List In → Prop
  | _, [] => True
  | s, i :: is => (∀ d, i = .tick d → ∀ t ∈ s.timers, s.now + d ≤ t.1) ∧ Punctual T (step T s i) is

/-- When a request has ended at the latest: its own time and that of those before it. -/
def Job.due (T : Nat) (j : Job) : Nat := j.given + (j.ahead + 1) * T

/-! ### Invariant -/

/-- The waiting ones, if the first can be sent at `b` at the latest. -/
def Fits (T : Nat) : Nat → List Job → Prop
  | _, [] => True
  | b, j :: js => b + T ≤ j.due T ∧ Fits T (b + T) js

theorem fits_mono {T : Nat} : ∀ {js : List Job} {b c : Nat}, c ≤ b → Fits T b js → Fits T c js
  | [], _, _, _, _ => trivial
  | _ :: _, _, _, h, f => ⟨Nat.le_trans (Nat.add_le_add_right h T) f.1, fits_mono (Nat.add_le_add_right h T) f.2⟩

theorem fits_snoc {T : Nat} : ∀ {js : List Job} {b : Nat} {j : Job}, Fits T b js →
    b + (js.length + 1) * T ≤ j.due T → Fits T b (js ++ [j])
  | [], b, j, _, h => ⟨by simpa using h, trivial⟩
  | x :: js, b, j, f, h => by
    refine ⟨f.1, fits_snoc f.2 ?_⟩
    have e : b + T + (js.length + 1) * T = b + (js.length + 1 + 1) * T := by
      rw [Nat.add_mul (js.length + 1) 1 T]; omega
    rw [e]; exact h

theorem fits_le {T : Nat} : ∀ {js : List Job} {b : Nat}, Fits T b js → ∀ j ∈ js, b ≤ j.due T
  | [], _, _, _, h => by cases h
  | x :: js, b, f, j, h => by
    rcases List.mem_cons.1 h with rfl | h
    · exact Nat.le_trans (Nat.le_add_right _ _) f.1
    · exact Nat.le_trans (Nat.le_add_right _ _) (fits_le f.2 j h)

structure Inv (T : Nat) (s : St) : Prop where
  idle : s.ing = none → s.waiting = []
  busy : ∀ j u, s.ing = some (j, u) → (u + T, j.r) ∈ s.timers ∧ u ≤ s.now ∧ s.now ≤ u + T ∧ u + T ≤ j.due T ∧
    Fits T (u + T) s.waiting
  ends : ∀ j e t, (j, e, t) ∈ s.ends → t ≤ j.due T

theorem ends_snoc {T : Nat} {l : List (Job × End × Nat)} {j : Job} {e : End} {t : Nat}
    (h : ∀ j e t, (j, e, t) ∈ l → t ≤ j.due T) (hj : t ≤ j.due T) : ∀ j' e' t', (j', e', t') ∈ l ++ [(j, e, t)] → t' ≤ j'.due T := by
  intro j' e' t' hm
  rcases List.mem_append.1 hm with hm | hm
  · exact h _ _ _ hm
  · have := List.mem_singleton.1 hm
    simp only [Prod.mk.injEq] at this
    obtain ⟨rfl, _, rfl⟩ := this
    exact hj

theorem inv_trySend {T : Nat} {ok : Nat → Bool} : ∀ {js : List Job} {s : St}, Fits T s.now js →
    (∀ j e t, (j, e, t) ∈ s.ends → t ≤ j.due T) → Inv T (trySend T ok s js)
  | [], s, _, he => ⟨fun _ => rfl, (fun _ _ h => by cases h), he⟩
  | j :: js, s, f, he => by
    rw [trySend]
    split
    · refine ⟨fun h => (by cases h), ?_, he⟩
      intro j' u h
      simp only [Option.some.injEq, Prod.mk.injEq] at h
      obtain ⟨rfl, rfl⟩ := h
      exact ⟨List.mem_append_right _ (List.mem_singleton.2 rfl), Nat.le_refl _, Nat.le_add_right _ _, f.1, f.2⟩
    · exact inv_trySend (fits_mono (Nat.le_add_right _ _) f.2)
        (ends_snoc he (Nat.le_trans (Nat.le_add_right _ _) f.1))

/-- Nothing in the channel is overdue. -/
theorem inv_jobs {T : Nat} {s : St} (i : Inv T s) : ∀ j ∈ s.jobs, s.now ≤ j.due T := by
  intro j hj
  rcases hi : s.ing with _ | ⟨x, u⟩
  · have := i.idle hi
    unfold St.jobs at hj
    rw [hi, this] at hj; cases hj
  · obtain ⟨_, _, a, b, f⟩ := i.busy x u hi
    unfold St.jobs at hj
    rw [hi] at hj
    rcases List.mem_cons.1 hj with rfl | hj
    · exact Nat.le_trans a b
    · exact Nat.le_trans a (fits_le f j hj)

theorem inv_failAll {T : Nat} {s : St} (hj : ∀ j ∈ s.jobs, s.now ≤ j.due T)
    (he : ∀ j e t, (j, e, t) ∈ s.ends → t ≤ j.due T) : Inv T s.failAll := by
  refine ⟨fun _ => rfl, (fun _ _ h => by cases h), fun j e t hm => ?_⟩
  rcases List.mem_append.1 hm with hm | hm
  · exact he _ _ _ hm
  · obtain ⟨x, hx, h⟩ := List.mem_map.1 hm
    simp only [Prod.mk.injEq] at h
    obtain ⟨rfl, _, rfl⟩ := h
    exact hj x hx

theorem inv_step {T : Nat} {s : St} (i : Inv T s) (x : In)
    (ht : ∀ d, x = .tick d → ∀ t ∈ s.timers, s.now + d ≤ t.1) : Inv T (step T s x) := by
  cases x with
  | tick d =>
    refine ⟨i.idle, fun j u h => ?_, i.ends⟩
    obtain ⟨a, b, c, e, f⟩ := i.busy j u h
    exact ⟨a, Nat.le_trans b (Nat.le_add_right _ _), ht d rfl _ a, e, f⟩
  | send r ok =>
    simp only [step]
    rcases hi : s.ing with _ | ⟨j, u⟩
    · have hw := i.idle hi
      refine inv_trySend ?_ i.ends
      have hl : s.jobs.length = 0 := by simp [St.jobs, hi, hw]
      rw [hw, hl]
      refine ⟨?_, trivial⟩
      simp [Job.due]
    · obtain ⟨a, b, c, e, f⟩ := i.busy j u hi
      refine ⟨fun h => (by cases h), ?_, i.ends⟩
      intro j' u' h
      simp only [Option.some.injEq, Prod.mk.injEq] at h
      obtain ⟨rfl, rfl⟩ := h
      refine ⟨a, b, c, e, fits_snoc f ?_⟩
      have hl : s.jobs.length = s.waiting.length + 1 := by simp [St.jobs, hi]
      show u + T + (s.waiting.length + 1) * T ≤ s.now + (s.jobs.length + 1) * T
      rw [hl, Nat.add_mul (s.waiting.length + 1) 1 T]
      omega
  | answer ok =>
    simp only [step]
    rcases hi : s.ing with _ | ⟨j, u⟩
    · exact i
    · obtain ⟨a, b, c, e, f⟩ := i.busy j u hi
      exact inv_trySend (fits_mono c f) (ends_snoc i.ends (Nat.le_trans c e))
  | fire k =>
    simp only [step]
    split
    · exact i
    · rename_i t hk
      split
      · exact i
      · rcases hi : s.ing with _ | ⟨j, u⟩
        · refine ⟨fun _ => i.idle hi, fun j u h => ?_, i.ends⟩
          cases h
        · obtain ⟨a, b, c, e, f⟩ := i.busy j u hi
          simp only
          split
          · refine inv_failAll (fun x hx => ?_) (ends_snoc i.ends (Nat.le_trans c e))
            refine inv_jobs i x ?_
            unfold St.jobs at hx ⊢
            exact List.mem_append_right _ hx
          · rename_i hne
            refine ⟨fun h => ?_, fun j' u' h => ?_, i.ends⟩
            · cases h
            · simp only [Option.some.injEq, Prod.mk.injEq] at h
              obtain ⟨rfl, rfl⟩ := h
              refine ⟨Deadline.mem_eraseIdx hk a ?_, b, c, e, f⟩
              intro h; exact hne (by rw [← h])
  | closed => exact inv_failAll (inv_jobs i) i.ends

theorem run_inv (T : Nat) : ∀ (is : List In) (s : St), Inv T s → Punctual T s is → Inv T (run T s is)
  | [], _, i, _ => i
  | x :: is, _, i, h => run_inv T is _ (inv_step i x h.1) h.2

/-- **C184 (queued).** With a loop that runs its timers in time, a request given to a queued channel behind `k` others has
ended after `k + 1` times the time-out at the latest, and what is in the channel still has time left; also if requests are
sent again. -/
theorem c184_queued (T : Nat) (is : List In) (hp : Punctual T St.init is) :
    (∀ j e t, (j, e, t) ∈ (run T St.init is).ends → t ≤ j.given + (j.ahead + 1) * T) ∧
    ∀ j ∈ (run T St.init is).jobs, (run T St.init is).now ≤ j.given + (j.ahead + 1) * T := by
  have i := run_inv T is St.init ⟨fun _ => rfl, (fun _ _ h => by cases h), (fun _ _ _ h => by cases h)⟩ hp
  exact ⟨i.ends, inv_jobs i⟩

/-! ### Nothing is lost -/

theorem trySend_all {T : Nat} {ok : Nat → Bool} : ∀ {js : List Job} {s : St},
    (s.ends.map Prod.fst ++ js).Perm s.given →
    ((trySend T ok s js).ends.map Prod.fst ++ (trySend T ok s js).jobs).Perm (trySend T ok s js).given
  | [], s, h => by simpa [trySend, St.jobs] using h
  | j :: js, s, h => by
    rw [trySend]
    split
    · simpa [St.jobs] using h
    · apply trySend_all
      simpa using h

theorem failAll_all {s : St} (h : (s.ends.map Prod.fst ++ s.jobs).Perm s.given) :
    (s.failAll.ends.map Prod.fst ++ s.failAll.jobs).Perm s.failAll.given := by
  have e : s.failAll.ends.map Prod.fst ++ s.failAll.jobs = s.ends.map Prod.fst ++ s.jobs := by
    simp [St.failAll, St.jobs, Function.comp_def]
  rw [e]; exact h

theorem step_all {T : Nat} {s : St} (i : s.ing = none → s.waiting = []) (x : In)
    (h : (s.ends.map Prod.fst ++ s.jobs).Perm s.given) :
    ((step T s x).ends.map Prod.fst ++ (step T s x).jobs).Perm (step T s x).given := by
  cases x with
  | tick d => exact h
  | send r ok =>
    simp only [step]
    rcases hi : s.ing with _ | ⟨j, u⟩
    · apply trySend_all
      have hw := i hi
      simp only [St.jobs, hi, hw] at h ⊢
      simpa using h.append_right [_]
    · simp only [St.jobs, hi] at h ⊢
      have := h.append_right [(⟨r, s.now, (s.jobs).length⟩ : Job)]
      simpa [St.jobs, hi] using this
  | answer ok =>
    simp only [step]
    rcases hi : s.ing with _ | ⟨j, u⟩
    · exact h
    · apply trySend_all
      simpa [St.jobs, hi] using h
  | fire k =>
    simp only [step]
    split
    · exact h
    · split
      · exact h
      · rcases hi : s.ing with _ | ⟨j, u⟩
        · simpa [St.jobs, hi] using h
        · simp only
          split
          · apply failAll_all
            simpa [St.jobs, hi] using h
          · simpa [St.jobs, hi] using h
  | closed => exact failAll_all h

theorem trySend_idle {T : Nat} {ok : Nat → Bool} : ∀ {js : List Job} {s : St},
    (trySend T ok s js).ing = none → (trySend T ok s js).waiting = []
  | [], _, _ => rfl
  | j :: js, s, h => by
    rw [trySend] at h ⊢
    split at h
    · cases h
    · rename_i hn
      rw [if_neg hn]
      exact trySend_idle h

theorem step_idle {T : Nat} {s : St} (i : s.ing = none → s.waiting = []) (x : In) :
    (step T s x).ing = none → (step T s x).waiting = [] := by
  cases x with
  | tick d => exact i
  | send r ok =>
    simp only [step]
    rcases hi : s.ing with _ | ⟨j, u⟩
    · exact trySend_idle
    · simp
  | answer ok =>
    simp only [step]
    rcases hi : s.ing with _ | ⟨j, u⟩
    · intro _; exact i hi
    · exact trySend_idle
  | fire k =>
    simp only [step]
    split
    · exact i
    · split
      · exact i
      · rcases hi : s.ing with _ | ⟨j, u⟩
        · intro _; exact i hi
        · simp only
          split
          · intro _; rfl
          · intro h; cases h
  | closed => intro _; rfl

theorem run_all (T : Nat) : ∀ (is : List In) (s : St), (s.ing = none → s.waiting = []) →
    (s.ends.map Prod.fst ++ s.jobs).Perm s.given →
    ((run T s is).ends.map Prod.fst ++ (run T s is).jobs).Perm (run T s is).given
  | [], _, _, h => h
  | x :: is, _, i, h => run_all T is _ (step_idle i x) (step_all i x h)

theorem trySend_given {T : Nat} {ok : Nat → Bool} : ∀ {js : List Job} {s : St}, (trySend T ok s js).given = s.given
  | [], _ => rfl
  | j :: js, s => by
    rw [trySend]
    split
    · rfl
    · exact trySend_given

theorem step_given (T : Nat) (s : St) (x : In) :
    (step T s x).given.map Job.r = s.given.map Job.r ++ (match x with | .send r _ => [r] | _ => []) := by
  cases x with
  | tick d => simp [step]
  | send r ok =>
    simp only [step]
    rcases hi : s.ing with _ | ⟨j, u⟩
    · simp [trySend_given]
    · simp
  | answer ok =>
    simp only [step]
    rcases hi : s.ing with _ | ⟨j, u⟩
    · simp
    · simp [trySend_given]
  | fire k =>
    simp only [step]
    split
    · simp
    · split
      · simp
      · rcases hi : s.ing with _ | ⟨j, u⟩
        · simp
        · simp only
          split <;> simp [St.failAll]
  | closed => simp [step, St.failAll]

/-- The requests sent. -/
def sent (is : List In) : List Nat := is.filterMap (fun i => match i with | .send r _ => some r | _ => none)

theorem run_given (T : Nat) : ∀ (is : List In) (s : St), (run T s is).given.map Job.r = s.given.map Job.r ++ sent is
  | [], _ => by simp [run, sent]
  | x :: is, s => by
    have := run_given T is (step T s x)
    show (run T (step T s x) is).given.map Job.r = _
    rw [this, step_given]
    cases x <;> simp [sent]

/-- **C184 (queued).** Every request given to the channel has ended, once, or is still in it. -/
theorem c184_queued_all (T : Nat) (is : List In) :
    (((run T St.init is).ends.map (fun x => x.1.r)) ++ (run T St.init is).jobs.map Job.r).Perm (sent is) := by
  have h := (run_all T is St.init (fun _ => rfl) (by simp [St.init, St.jobs])).map Job.r
  rw [run_given] at h
  simpa [St.init, Function.comp_def] using h

/-! ### Not early -/

/-- What holds if each request is sent once. -/
structure Once (T : Nat) (s : St) : Prop where
  ing : ∀ j u, s.ing = some (j, u) → j.given ≤ u ∧ u ≤ s.now ∧ ∀ t ∈ s.timers, t.2 = j.r → t.1 = u + T
  waiting : ∀ j ∈ s.waiting, j.given ≤ s.now ∧ ∀ t ∈ s.timers, t.2 ≠ j.r
  nodup : (s.jobs.map Job.r).Nodup
  timers : ∀ t ∈ s.timers, t.2 ∈ s.given.map Job.r
  jobs : ∀ j ∈ s.jobs, j.r ∈ s.given.map Job.r
  ends : ∀ j t, (j, End.timeout, t) ∈ s.ends → j.given + T ≤ t

theorem once_trySend {T : Nat} {ok : Nat → Bool} : ∀ {js : List Job} {s : St},
    (∀ j ∈ js, j.given ≤ s.now ∧ ∀ t ∈ s.timers, t.2 ≠ j.r) → (js.map Job.r).Nodup →
    (∀ t ∈ s.timers, t.2 ∈ s.given.map Job.r) → (∀ j ∈ js, j.r ∈ s.given.map Job.r) →
    (∀ j t, (j, End.timeout, t) ∈ s.ends → j.given + T ≤ t) → Once T (trySend T ok s js)
  | [], s, _, _, ht, _, he =>
    ⟨fun _ _ h => (by cases h), fun _ h => (by cases h), List.nodup_nil, ht, fun _ h => (by cases h), he⟩
  | j :: js, s, hw, hn, ht, hg, he => by
    rw [List.map_cons, List.nodup_cons] at hn
    rw [trySend]
    split
    · refine ⟨?_, ?_, ?_, ?_, hg, he⟩
      · intro j' u h
        simp only [Option.some.injEq, Prod.mk.injEq] at h
        obtain ⟨rfl, rfl⟩ := h
        refine ⟨(hw j List.mem_cons_self).1, Nat.le_refl _, fun t h e => ?_⟩
        rcases List.mem_append.1 h with h | h
        · exact absurd e ((hw j List.mem_cons_self).2 t h)
        · rw [List.mem_singleton.1 h]
      · intro x hx
        refine ⟨(hw x (List.mem_cons_of_mem _ hx)).1, fun t h => ?_⟩
        rcases List.mem_append.1 h with h | h
        · exact (hw x (List.mem_cons_of_mem _ hx)).2 t h
        · rw [List.mem_singleton.1 h]
          intro e
          exact hn.1 (List.mem_map.2 ⟨x, hx, e.symm⟩)
      · show ((j :: js).map Job.r).Nodup
        rw [List.map_cons, List.nodup_cons]; exact hn
      · intro t h
        rcases List.mem_append.1 h with h | h
        · exact ht t h
        · rw [List.mem_singleton.1 h]; exact hg j List.mem_cons_self
    · refine once_trySend (fun x hx => hw x (List.mem_cons_of_mem _ hx)) hn.2 ht
        (fun x hx => hg x (List.mem_cons_of_mem _ hx)) (fun x t h => ?_)
      rcases List.mem_append.1 h with h | h
      · exact he x t h
      · simp at h

theorem once_failAll {T : Nat} {s : St} (ht : ∀ t ∈ s.timers, t.2 ∈ s.given.map Job.r)
    (he : ∀ j t, (j, End.timeout, t) ∈ s.ends → j.given + T ≤ t) : Once T s.failAll := by
  refine ⟨fun _ _ h => (by cases h), fun _ h => (by cases h), List.nodup_nil, ht, fun _ h => (by cases h), fun j t h => ?_⟩
  rcases List.mem_append.1 h with h | h
  · exact he j t h
  · simp at h

theorem jobs_cons {s : St} {j : Job} {u : Nat} (h : s.ing = some (j, u)) : s.jobs = j :: s.waiting := by
  simp [St.jobs, h]

theorem jobs_none {s : St} (h : s.ing = none) : s.jobs = s.waiting := by simp [St.jobs, h]

theorem once_step {T : Nat} {s : St} (o : Once T s) (x : In)
    (hx : ∀ r ok, x = .send r ok → r ∉ s.given.map Job.r) : Once T (step T s x) := by
  have hmem : ∀ {k : Nat} {t : Nat × Nat}, t ∈ s.timers.eraseIdx k → t ∈ s.timers := fun h => List.mem_of_mem_eraseIdx h
  cases x with
  | tick d =>
    refine ⟨fun j u h => ?_, fun j h => ?_, o.nodup, o.timers, o.jobs, o.ends⟩
    · obtain ⟨a, b, c⟩ := o.ing j u h
      exact ⟨a, Nat.le_trans b (Nat.le_add_right _ _), c⟩
    · exact ⟨Nat.le_trans (o.waiting j h).1 (Nat.le_add_right _ _), (o.waiting j h).2⟩
  | send r ok =>
    have hr := hx r ok rfl
    have hnew : (s.jobs.map Job.r ++ [r]).Nodup := by
      rw [List.nodup_append]
      refine ⟨o.nodup, List.nodup_singleton _, fun a ha b hb e => ?_⟩
      obtain ⟨j, hj, rfl⟩ := List.mem_map.1 ha
      rw [List.mem_singleton.1 hb] at e
      exact hr (e ▸ o.jobs j hj)
    have hwn : ∀ j ∈ s.waiting ++ [(⟨r, s.now, s.jobs.length⟩ : Job)], j.given ≤ s.now ∧ ∀ t ∈ s.timers, t.2 ≠ j.r := by
      intro j hj
      rcases List.mem_append.1 hj with hj | hj
      · exact o.waiting j hj
      · rw [List.mem_singleton.1 hj]
        exact ⟨Nat.le_refl _, fun t ht e => hr (by have := o.timers t ht; rw [e] at this; exact this)⟩
    simp only [step]
    rcases hi : s.ing with _ | ⟨j, u⟩
    · refine once_trySend hwn ?_ ?_ ?_ o.ends
      · rw [jobs_none hi] at hnew; simpa using hnew
      · intro t ht; simp only [List.map_append]; exact List.mem_append_left _ (o.timers t ht)
      · intro j hj
        simp only [List.map_append]
        rcases List.mem_append.1 hj with hj | hj
        · exact List.mem_append_left _ (o.jobs j (by rw [jobs_none hi]; exact hj))
        · rw [List.mem_singleton.1 hj]; exact List.mem_append_right _ (by simp)
    · refine ⟨?_, hwn, ?_, ?_, ?_, o.ends⟩
      · intro j' u' h
        exact o.ing j' u' (by rw [hi]; exact h)
      · rw [jobs_cons hi] at hnew; simpa [St.jobs] using hnew
      · intro t ht; simp only [List.map_append]; exact List.mem_append_left _ (o.timers t ht)
      · intro x hx
        simp only [List.map_append]
        have hx' : x ∈ s.jobs ++ [(⟨r, s.now, s.jobs.length⟩ : Job)] := by
          rw [jobs_cons hi]; simpa [St.jobs, hi] using hx
        rcases List.mem_append.1 hx' with h | h
        · exact List.mem_append_left _ (o.jobs x h)
        · rw [List.mem_singleton.1 h]; exact List.mem_append_right _ (by simp)
  | answer ok =>
    simp only [step]
    rcases hi : s.ing with _ | ⟨j, u⟩
    · exact o
    · have hn := o.nodup
      rw [jobs_cons hi, List.map_cons, List.nodup_cons] at hn
      refine once_trySend o.waiting hn.2 o.timers (fun x h => o.jobs x ?_) (fun x t h => ?_)
      · rw [jobs_cons hi]; exact List.mem_cons_of_mem _ h
      · rcases List.mem_append.1 h with h | h
        · exact o.ends x t h
        · simp at h
  | fire k =>
    simp only [step]
    split
    · exact o
    · rename_i t hk
      split
      · exact o
      · rename_i hnow
        rcases hi : s.ing with _ | ⟨j, u⟩
        · refine ⟨fun j u h => (by cases h), fun j h => ⟨(o.waiting j h).1, fun t ht => (o.waiting j h).2 t (hmem ht)⟩, ?_,
            fun t ht => o.timers t (hmem ht), fun j h => o.jobs j ?_, o.ends⟩
          · have := o.nodup; rw [jobs_none hi] at this; simpa [St.jobs] using this
          · rw [jobs_none hi]; simpa [St.jobs] using h
        · simp only
          split
          · rename_i he
            obtain ⟨a, b, c⟩ := o.ing j u hi
            have := c t (List.mem_of_getElem? hk) he.symm
            refine once_failAll (fun t ht => o.timers t (hmem ht)) (fun x v h => ?_)
            rcases List.mem_append.1 h with h | h
            · exact o.ends x v h
            · have := List.mem_singleton.1 h
              simp only [Prod.mk.injEq] at this
              obtain ⟨rfl, _, rfl⟩ := this
              omega
          · refine ⟨fun j' u' h => ?_, fun j h => ⟨(o.waiting j h).1, fun t ht => (o.waiting j h).2 t (hmem ht)⟩, ?_,
              fun t ht => o.timers t (hmem ht), fun x h => o.jobs x ?_, o.ends⟩
            · obtain ⟨a, b, c⟩ := o.ing j' u' (by rw [hi]; exact h)
              exact ⟨a, b, fun t ht => c t (hmem ht)⟩
            · have := o.nodup; rw [jobs_cons hi] at this; simpa [St.jobs] using this
            · rw [jobs_cons hi]; simpa [St.jobs] using h
  | closed => exact once_failAll o.timers o.ends

theorem run_once (T : Nat) : ∀ (is : List In) (s : St), Once T s → (s.given.map Job.r ++ sent is).Nodup → Once T (run T s is)
  | [], _, o, _ => o
  | x :: is, s, o, h => by
    refine run_once T is _ (once_step o x ?_) ?_
    · intro r ok e hr
      subst e
      rw [List.nodup_append] at h
      exact h.2.2 r hr r (by simp [sent]) rfl
    · rw [step_given]
      cases x <;> simpa [sent] using h

/-- **C184 (queued).** If each request object is sent once, a request is failed with a time-out only once its whole time
has passed since it was given to the channel, however late the loop is. -/
theorem c184_queued_not_early (T : Nat) (is : List In) (h : (sent is).Nodup) (j : Job) (t : Nat)
    (hm : (j, End.timeout, t) ∈ (run T St.init is).ends) : j.given + T ≤ t :=
  (run_once T is St.init ⟨fun _ _ h => (by cases h), fun _ h => (by cases h), List.nodup_nil, fun _ h => (by cases h),
    fun _ h => (by cases h), fun _ _ h => (by cases h)⟩ (by simpa [St.init] using h)).ends j t hm

/-- **C183 violation (queued).** A request that was answered and is sent again `a` later is failed with a time-out after
`T - a`, and the connection is closed with it. -/
theorem c183_queued_retry_violated (T a : Nat) (ha : a ≤ T) (r : Nat) (ok : Nat → Bool) (hok : ok r = true) :
    Punctual T St.init [.send r ok, .answer ok, .tick a, .send r ok, .tick (T - a), .fire 0] ∧
    (run T St.init [.send r ok, .answer ok, .tick a, .send r ok, .tick (T - a), .fire 0]).ends =
      [(⟨r, 0, 0⟩, .answered, 0), (⟨r, a, 0⟩, .timeout, T)] := by
  have e : a + (T - a) = T := by omega
  constructor
  · simp [Punctual, step, trySend, St.init, St.jobs, hok, ha, e]
  · simp [run, step, trySend, St.init, St.jobs, St.failAll, hok, e]

/-- Witness: two wait behind one; it is answered late, the second times out and takes the third with it. -/
theorem w_c184_queued : Punctual 5 St.init [.send 1 (fun _ => true), .tick 1, .send 2 (fun _ => true), .send 3 (fun _ => true),
      .tick 4, .answer (fun _ => true), .fire 0, .tick 5, .fire 0] ∧
    (run 5 St.init [.send 1 (fun _ => true), .tick 1, .send 2 (fun _ => true), .send 3 (fun _ => true),
      .tick 4, .answer (fun _ => true), .fire 0, .tick 5, .fire 0]).ends =
      [(⟨1, 0, 0⟩, .answered, 5), (⟨2, 1, 1⟩, .timeout, 10), (⟨3, 1, 2⟩, .broken, 10)] := by
  constructor
  · simp [Punctual, step, trySend, St.init, St.jobs]
  · decide

end Ltio.Client.QueueDeadline
