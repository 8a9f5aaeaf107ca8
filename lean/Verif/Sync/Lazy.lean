import Verif.Sync.Basic

/-
Model of base/memory/lazy_instance.{h,cc} (C80): `ptr`/`get`/`operator->` and `hasInstance` of one
lazy instance called by any number of threads, every access of `mState` being one step.

The barriers are not modelled: steps interleave (on x86 `mState` and the constructed object are
seen in program order).  The constructor of `T` takes as long as it likes; it may itself use the
lazy instance (`reenter`).  An exception thrown by the constructor is not modelled.
-/
namespace Ltio.Sync.Lazy

/-- `mState` (lazy_instance.h:83-87). -/
inductive MS where
  | init
  | constructing
  | done
deriving DecidableEq

/-- Where a thread is. -/
inductive PC where
  /-- outside -/
  | idle
  /-- in `needConstruction`, before the two loads of lines 71-72 -/
  | check
  /-- before the compare-and-swap of line 74 -/
  | cas
  /-- in the loop of lines 77-80 -/
  | spin
  /-- `needConstruction` returned true; the constructor has not begun (lazy_instance.h:131) -/
  | won
  /-- the constructor runs -/
  | ctor
  /-- the constructor, which runs on this thread, uses the instance and waits in lines 77-80 -/
  | nested
  /-- before `doneConstructing` (lazy_instance.h:132) -/
  | built
  /-- `ptr` has returned -/
  | got
deriving DecidableEq

/-- The instance and the threads. -/
structure St where
  m : MS
  pc : Nat → PC
  /-- constructor calls begun and finished (ghosts) -/
  begun : Nat
  finished : Nat

/-- `LAZY_INSTANCE_INIT` (lazy_instance.h:124-127). -/
def init : St := ⟨.init, fun _ => .idle, 0, 0⟩

/-- What a thread does. -/
inductive Lab where
  /-- call `ptr` -/
  | call (t : Nat)
  /-- the next step inside `ptr` -/
  | go (t : Nat)
  /-- the running constructor uses the instance -/
  | reenter (t : Nat)
  /-- use the result and start over -/
  | leave (t : Nat)
deriving DecidableEq

/-- A step to `q` of thread `t` which leaves `mState` and the counters. -/
def St.to (s : St) (t : Nat) (q : PC) : St := ⟨s.m, put s.pc t q, s.begun, s.finished⟩

/-- The successful compare-and-swap of lazy_instance.cc:74. -/
def St.win (s : St) (t : Nat) : St := ⟨.constructing, put s.pc t .won, s.begun, s.finished⟩

/-- The constructor begins, ends (lazy_instance.h:131). -/
def St.begin (s : St) (t : Nat) : St := ⟨s.m, put s.pc t .ctor, s.begun + 1, s.finished⟩
def St.finish (s : St) (t : Nat) : St := ⟨s.m, put s.pc t .built, s.begun, s.finished + 1⟩

/-- `doneConstructing` (lazy_instance.cc:83-85). -/
def St.publish (s : St) (t : Nat) : St := ⟨.done, put s.pc t .got, s.begun, s.finished⟩

/-- One step (lazy_instance.h:129-135, lazy_instance.cc:70-85).  The two loads of lines 71 and 72
are one step: only the second is used. -/
def step (s : St) : Lab → Option St
  | .call t =>
    match s.pc t with
    | .idle => some (s.to t .check)
    | _ => none
  | .go t =>
    match s.pc t with
    | .check => some (s.to t (if s.m = .done then .got else .cas))
    | .cas => some (if s.m = .init then s.win t else s.to t .spin)
    | .spin => some (s.to t (if s.m = .done then .got else .spin))
    | .won => some (s.begin t)
    | .ctor => some (s.finish t)
    | .nested => some (s.to t (if s.m = .done then .ctor else .nested))
    | .built => some (s.publish t)
    | _ => none
  | .reenter t =>
    match s.pc t with
    | .ctor => some (s.to t .nested)
    | _ => none
  | .leave t =>
    match s.pc t with
    | .got => some (s.to t .idle)
    | _ => none

/-- `hasInstance` (lazy_instance.h:109, lazy_instance.cc:67-69). -/
def hasInstance (s : St) : Bool := s.m ≠ .init

/-- Thread `t` is the one that constructs. -/
def Builder (s : St) (t : Nat) : Prop :=
  s.pc t = .won ∨ s.pc t = .ctor ∨ s.pc t = .nested ∨ s.pc t = .built

/-- Is this one of the constructing positions? -/
def isB : PC → Bool
  | .won | .ctor | .nested | .built => true
  | _ => false

theorem builder_iff (s : St) (t : Nat) : Builder s t ↔ isB (s.pc t) = true := by
  cases h : s.pc t <;> simp [Builder, isB, h]

/-- Constructor calls begun and finished, as told by the constructing thread's position. -/
def cnts : PC → Nat × Nat
  | .won => (0, 0)
  | .ctor => (1, 0)
  | .nested => (1, 0)
  | _ => (1, 1)

/-- The invariant. -/
structure Inv (s : St) : Prop where
  one : ∀ t u, isB (s.pc t) = true → isB (s.pc u) = true → t = u
  ini : s.m = .init → s.begun = 0 ∧ s.finished = 0 ∧ ∀ t, isB (s.pc t) = false
  con : s.m = .constructing → ∃ t, isB (s.pc t) = true ∧ (s.begun, s.finished) = cnts (s.pc t)
  don : s.m = .done → s.begun = 1 ∧ s.finished = 1 ∧ ∀ t, isB (s.pc t) = false
  got : ∀ t, s.pc t = .got → s.m = .done
  spn : ∀ t, s.pc t = .spin → s.m ≠ .init

theorem inv_init : Inv init :=
  ⟨by intro t u h; simp [init, isB] at h, fun _ => ⟨rfl, rfl, fun _ => rfl⟩, by simp [init],
   by simp [init], by simp [init], by simp [init]⟩

/-- A step of a thread between two non-constructing positions. -/
theorem inv_neutral {s : St} (hI : Inv s) {t : Nat} {q : PC} (hn : isB (s.pc t) = false)
    (hq : isB q = false) (hg : q = .got → s.m = .done)
    (hsp : q = .spin → s.m ≠ .init) : Inv (s.to t q) := by
  have hb : ∀ u, isB ((s.to t q).pc u) = isB (s.pc u) := by
    intro u
    by_cases hu : u = t
    · subst hu; simp [St.to, hq, hn]
    · simp [St.to, put, hu]
  refine ⟨?_, ?_, ?_, ?_, ?_, ?_⟩
  · intro a b ha hb'; rw [hb] at ha hb'; exact hI.one a b ha hb'
  · intro hm; obtain ⟨a, b, c⟩ := hI.ini hm; exact ⟨a, b, fun u => by rw [hb, c]⟩
  · intro hm
    obtain ⟨u, h1, h2⟩ := hI.con hm
    have hu : u ≠ t := by rintro rfl; simp [hn] at h1
    refine ⟨u, by rw [hb]; exact h1, ?_⟩
    simpa [St.to, put, hu] using h2
  · intro hm; obtain ⟨a, b, c⟩ := hI.don hm; exact ⟨a, b, fun u => by rw [hb, c]⟩
  · intro u hu
    by_cases h : u = t
    · subst h; apply hg; simpa [St.to] using hu
    · apply hI.got u; simpa [St.to, put, h] using hu
  · intro u hu
    by_cases h : u = t
    · subst h; apply hsp; simpa [St.to] using hu
    · apply hI.spn u; simpa [St.to, put, h] using hu

theorem builder_con {s : St} (hI : Inv s) {t : Nat} (hb : isB (s.pc t) = true) :
    s.m = .constructing ∧ (s.begun, s.finished) = cnts (s.pc t) := by
  cases hm : s.m with
  | init => simp [(hI.ini hm).2.2 t] at hb
  | done => simp [(hI.don hm).2.2 t] at hb
  | constructing =>
    obtain ⟨u, h1, h2⟩ := hI.con hm
    have := hI.one u t h1 hb
    subst this
    exact ⟨rfl, h2⟩

/-- A step of the constructing thread to another constructing position. -/
theorem inv_build {s : St} (hI : Inv s) {t : Nat} {q : PC} {b f : Nat} (hb : isB (s.pc t) = true)
    (hq : isB q = true) (hc : (b, f) = cnts q) : Inv ⟨s.m, put s.pc t q, b, f⟩ := by
  have hm := (builder_con hI hb).1
  have hbs : ∀ u, isB (put s.pc t q u) = isB (s.pc u) := by
    intro u
    by_cases hu : u = t
    · subst hu; simp [hq, hb]
    · simp [put, hu]
  refine ⟨?_, ?_, ?_, ?_, ?_, by simp [hm]⟩
  · intro a b' ha hb'; simp only [hbs] at ha hb'; exact hI.one a b' ha hb'
  · simp [hm]
  · intro _; exact ⟨t, by simp [hq], by simpa using hc⟩
  · simp [hm]
  · intro u hu
    by_cases h : u = t
    · subst h; simp at hu; subst hu; simp [isB] at hq
    · exact hI.got u (by simpa [put, h] using hu)

theorem inv_step (s : St) (l : Lab) (s' : St) (hI : Inv s) (hs : step s l = some s') : Inv s' := by
  cases l with
  | call t =>
    simp only [step] at hs
    split at hs
    · rename_i h; cases hs
      exact inv_neutral hI (by simp [h, isB]) rfl (by simp) (by simp)
    · simp at hs
  | leave t =>
    simp only [step] at hs
    split at hs
    · rename_i h; cases hs
      exact inv_neutral hI (by simp [h, isB]) rfl (by simp) (by simp)
    · simp at hs
  | reenter t =>
    simp only [step] at hs
    split at hs
    · rename_i h; cases hs
      have hb : isB (s.pc t) = true := by simp [h, isB]
      refine inv_build hI hb rfl ?_
      rw [(builder_con hI hb).2, h]; rfl
    · simp at hs
  | go t =>
    simp only [step] at hs
    split at hs
    · rename_i h; cases hs
      exact inv_neutral hI (by simp [h, isB]) (by split <;> rfl)
        (by intro hg; split at hg <;> simp_all) (by intro hg; split at hg <;> simp_all)
    · rename_i h
      split at hs
      · rename_i hm; cases hs
        obtain ⟨h1, h2, h3⟩ := hI.ini hm
        refine ⟨?_, by simp [St.win], ?_, by simp [St.win], ?_, by simp [St.win]⟩
        · have : ∀ u, isB ((s.win t).pc u) = true → u = t := by
            intro u hu
            by_cases hut : u = t
            · exact hut
            · simp [St.win, put, hut, h3] at hu
          intro a b ha hb; rw [this a ha, this b hb]
        · intro _; exact ⟨t, by simp [St.win, isB], by simp [St.win, cnts, h1, h2]⟩
        · intro u hu
          by_cases hut : u = t
          · subst hut; simp [St.win] at hu
          · have := hI.got u (by simpa [St.win, put, hut] using hu)
            rw [this] at hm; cases hm
      · rename_i hm; cases hs
        exact inv_neutral hI (by simp [h, isB]) rfl (by simp) (fun _ => hm)
    · rename_i h; cases hs
      exact inv_neutral hI (by simp [h, isB]) (by split <;> rfl)
        (by intro hg; split at hg <;> simp_all) (by intro _; exact hI.spn t h)
    · rename_i h; cases hs
      have hb : isB (s.pc t) = true := by simp [h, isB]
      have hc := (builder_con hI hb).2
      simp [h, cnts] at hc
      exact inv_build hI hb rfl (by simp [cnts, hc])
    · rename_i h; cases hs
      have hb : isB (s.pc t) = true := by simp [h, isB]
      have hc := (builder_con hI hb).2
      simp [h, cnts] at hc
      exact inv_build hI hb rfl (by simp [cnts, hc])
    · rename_i h; cases hs
      have hb : isB (s.pc t) = true := by simp [h, isB]
      have hc := builder_con hI hb
      simp only [h, cnts, Prod.mk.injEq] at hc
      have : (if s.m = MS.done then PC.ctor else PC.nested) = .nested := by simp [hc.1]
      rw [this]
      exact inv_build hI hb rfl (by simp [cnts, hc.2])
    · rename_i h; cases hs
      have hb : isB (s.pc t) = true := by simp [h, isB]
      have hc := builder_con hI hb
      simp only [h, cnts, Prod.mk.injEq] at hc
      have hnb : ∀ u, isB ((s.publish t).pc u) = false := by
        intro u
        by_cases hut : u = t
        · subst hut; simp [St.publish, isB]
        · simp only [St.publish, put, hut, if_false]
          cases hx : isB (s.pc u) with
          | false => rfl
          | true => exact absurd (hI.one u t hx hb) hut
      refine ⟨?_, by simp [St.publish], by simp [St.publish], ?_, by simp [St.publish],
        by simp [St.publish]⟩
      · intro a b ha; simp [hnb] at ha
      · intro _; exact ⟨hc.2.1, hc.2.2, hnb⟩
    · simp at hs

/-- Reachable states. -/
abbrev R (s : St) : Prop := Reach step init s

theorem inv_of_reach {s : St} (h : R s) : Inv s := inv_reach inv_init inv_step h

/-- **C80.** The constructor is called at most once, whatever the schedule. -/
theorem c80_once {s : St} (h : R s) : s.begun ≤ 1 := by
  have hI := inv_of_reach h
  cases hm : s.m with
  | init => have := (hI.ini hm).1; omega
  | done => have := (hI.don hm).1; omega
  | constructing =>
    obtain ⟨t, _, h2⟩ := hI.con hm
    cases hp : s.pc t <;> simp [hp, cnts] at h2 <;> omega

/-- **C80.** Whenever `ptr` has returned to some thread, the constructor has been called exactly
once and has finished: nobody sees an object under construction. -/
theorem c80_complete {s : St} (h : R s) {t : Nat} (ht : s.pc t = .got) :
    s.begun = 1 ∧ s.finished = 1 := by
  have hI := inv_of_reach h
  obtain ⟨h1, h2, _⟩ := hI.don (hI.got t ht)
  exact ⟨h1, h2⟩

/-- Thread `t` is inside `ptr`. -/
def InPtr (s : St) (t : Nat) : Prop := s.pc t ≠ .idle ∧ s.pc t ≠ .got

/-- In a constructed instance `ptr` returns after at most two more steps. -/
theorem done_runs {s : St} (hm : s.m = .done) {t : Nat}
    (hp : s.pc t = .check ∨ s.pc t = .cas ∨ s.pc t = .spin) :
    ∃ k s', runs step s (List.replicate k (.go t)) = some s' ∧ s'.pc t = .got := by
  rcases hp with h | h | h
  · exact ⟨1, s.to t .got, by simp [runs, step, h, hm], by simp [St.to]⟩
  · exact ⟨2, (s.to t .spin).to t .got, by simp [runs, step, h, hm, List.replicate, St.to],
      by simp [St.to]⟩
  · exact ⟨1, s.to t .got, by simp [runs, step, h, hm], by simp [St.to]⟩

/-- The constructing thread finishes by itself unless its constructor waits for itself. -/
theorem build_runs {s : St} {b : Nat} (hp : s.pc b = .won ∨ s.pc b = .ctor ∨ s.pc b = .built) :
    ∃ k s', runs step s (List.replicate k (.go b)) = some s' ∧ s'.m = .done ∧
      s'.pc b = .got ∧ ∀ u, u ≠ b → s'.pc u = s.pc u := by
  rcases hp with h | h | h
  · refine ⟨3, ((s.begin b).finish b).publish b, ?_, rfl, by simp [St.publish], ?_⟩
    · simp [runs, step, h, List.replicate, St.begin, St.finish]
    · intro u hu; simp [St.publish, St.begin, St.finish, put, hu]
  · refine ⟨2, (s.finish b).publish b, ?_, rfl, by simp [St.publish], ?_⟩
    · simp [runs, step, h, List.replicate, St.finish]
    · intro u hu; simp [St.publish, St.finish, put, hu]
  · refine ⟨1, s.publish b, ?_, rfl, by simp [St.publish], ?_⟩
    · simp [runs, step, h]
    · intro u hu; simp [St.publish, put, hu]

/-- **C80.** Nobody waits for ever: in every reachable state in which the constructor does not wait
for its own instance, each thread inside `ptr` can be brought to return by steps of itself and of
the constructing thread alone. -/
theorem c80_progress {s : St} (h : R s) (hn : ∀ u, s.pc u ≠ .nested) {t : Nat} (ht : InPtr s t) :
    ∃ b i j s', runs step s (List.replicate i (.go b) ++ List.replicate j (.go t)) = some s' ∧
      s'.pc t = .got := by
  have hI := inv_of_reach h
  have hbuild : ∀ u, isB (s.pc u) = true → s.pc u = .won ∨ s.pc u = .ctor ∨ s.pc u = .built := by
    intro u hu
    have := hn u
    cases hp : s.pc u <;> simp_all [isB]
  have hout : isB (s.pc t) = false → s.pc t = .check ∨ s.pc t = .cas ∨ s.pc t = .spin := by
    intro hu
    have := ht.1
    have := ht.2
    cases hp : s.pc t <;> simp_all [isB]
  cases hm : s.m with
  | done =>
    obtain ⟨k, s', h1, h2⟩ := done_runs hm (hout ((hI.don hm).2.2 t))
    exact ⟨0, 0, k, s', by simpa using h1, h2⟩
  | constructing =>
    obtain ⟨b, hb, _⟩ := hI.con hm
    obtain ⟨k, s1, h1, h2, h3, h4⟩ := build_runs (hbuild b hb)
    by_cases htb : t = b
    · subst htb
      exact ⟨t, k, 0, s1, by simpa using h1, h3⟩
    · have hnb : isB (s.pc t) = false := by
        cases hx : isB (s.pc t) with
        | false => rfl
        | true => exact absurd (hI.one t b hx hb) htb
      have hp := hout hnb
      rw [← h4 t htb] at hp
      obtain ⟨j, s2, g1, g2⟩ := done_runs h2 hp
      exact ⟨b, k, j, s2, by rw [runs_append, h1]; exact g1, g2⟩
  | init =>
    have hp := hout ((hI.ini hm).2.2 t)
    have hcas : ∀ s : St, s.m = .init → s.pc t = .cas →
        ∃ k s', runs step s (List.replicate k (.go t)) = some s' ∧ s'.pc t = .got := by
      intro s hm hp
      obtain ⟨k, s1, h1, _, h3, _⟩ := build_runs (s := s.win t) (b := t) (Or.inl (by simp [St.win]))
      exact ⟨k + 1, s1, by simp [List.replicate, runs, step, hp, hm, h1], h3⟩
    rcases hp with hp | hp | hp
    · obtain ⟨k, s1, h1, h2⟩ := hcas (s.to t .cas) hm (by simp [St.to])
      exact ⟨0, 0, k + 1, s1, by simp [List.replicate, runs, step, hp, hm, h1], h2⟩
    · obtain ⟨k, s1, h1, h2⟩ := hcas s hm hp
      exact ⟨0, 0, k, s1, by simpa using h1, h2⟩
    · exact absurd hm (hI.spn t hp)

/-- **C80, limit.** A constructor that uses its own lazy instance hangs the instance for good:
from then on, whatever the schedule, its thread stays where it is and no thread ever obtains the
object. -/
theorem c80_reentry_hangs {s s' : St} (h : R s) {t : Nat} (ht : s.pc t = .nested) (ls : List Lab)
    (hr : runs step s ls = some s') : s'.pc t = .nested ∧ ∀ u, s'.pc u ≠ .got := by
  have key : (R s' ∧ s'.pc t = .nested) := by
    refine inv_runs (step := step) (I := fun x => R x ∧ x.pc t = .nested) ?_ ls s s' ⟨h, ht⟩ hr
    intro x l x' ⟨hx, hp⟩ hs
    refine ⟨?_, ?_⟩
    · obtain ⟨l0, h0⟩ := hx
      exact ⟨l0 ++ [l], by rw [runs_append, h0]; simp [runs, hs]⟩
    · have hI := inv_of_reach hx
      have hm := (builder_con hI (t := t) (by simp [hp, isB])).1
      cases l with
      | call u =>
        by_cases hu : u = t
        · subst hu; simp [step, hp] at hs
        · have hu' : t ≠ u := Ne.symm hu
          simp only [step] at hs
          split at hs
          · cases hs; simpa [St.to, put, hu'] using hp
          · simp at hs
      | leave u =>
        by_cases hu : u = t
        · subst hu; simp [step, hp] at hs
        · have hu' : t ≠ u := Ne.symm hu
          simp only [step] at hs
          split at hs
          · cases hs; simpa [St.to, put, hu'] using hp
          · simp at hs
      | reenter u =>
        by_cases hu : u = t
        · subst hu; simp [step, hp] at hs
        · have hu' : t ≠ u := Ne.symm hu
          simp only [step] at hs
          split at hs
          · cases hs; simpa [St.to, put, hu'] using hp
          · simp at hs
      | go u =>
        by_cases hu : u = t
        · subst hu; simp [step, hp, hm] at hs; rw [← hs]; simp [St.to]
        · have hu' : t ≠ u := Ne.symm hu
          simp only [step] at hs
          split at hs
          all_goals first
            | (cases hs; simpa [St.to, St.begin, St.finish, St.publish, put, hu'] using hp)
            | (split at hs
               · cases hs; simpa [St.win, put, hu'] using hp
               · cases hs; simpa [St.to, put, hu'] using hp)
            | simp at hs
  refine ⟨key.2, fun u hu => ?_⟩
  have hI := inv_of_reach key.1
  have hm := (builder_con hI (t := t) (by simp [key.2, isB])).1
  rw [hI.got u hu] at hm
  cases hm

/-- **C80, violation.** `hasInstance` is true as soon as somebody has begun: here thread 1 is
told that there is an instance while its constructor has not even started. -/
theorem c80_hasInstance_early :
    ((runs step init [.call 0, .go 0, .go 0]).map fun s => (hasInstance s, s.begun, s.finished))
      = some (true, 0, 0) := by decide

/-- What `hasInstance` does promise: once `ptr` has returned it is true. -/
theorem c80_hasInstance_after {s : St} (h : R s) {t : Nat} (ht : s.pc t = .got) :
    hasInstance s = true := by
  have := (inv_of_reach h).got t ht
  simp [hasInstance, this]

/-- The hypotheses of C80 are met: three threads race, thread 1 constructs, all obtain the object;
before that, threads 0 and 2 wait inside `ptr` while thread 1 constructs. -/
theorem w_c80 :
    ((runs step init [.call 0, .call 1, .go 0, .go 1, .go 1, .go 0, .go 0, .call 2, .go 2, .go 1,
        .go 2, .go 1, .go 1, .go 0, .go 2]).map
      fun s => (s.pc 0, s.pc 1, s.pc 2, s.begun, s.finished)) = some (.got, .got, .got, 1, 1) ∧
    ((runs step init [.call 0, .call 1, .go 0, .go 1, .go 1, .go 0, .go 0, .call 2, .go 2,
        .go 1]).map
      fun s => (s.pc 0, s.pc 1, s.pc 2, s.m)) = some (.spin, .ctor, .cas, .constructing) ∧
    ((runs step init [.call 0, .go 0, .go 0, .go 0, .reenter 0]).map fun s => s.pc 0)
      = some .nested := by decide

end Ltio.Sync.Lazy
