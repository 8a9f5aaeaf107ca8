import Mathlib.Data.List.Nodup
import Mathlib.Data.List.Perm.Basic
import Mathlib.Tactic.ByContra

/-
Model of the coroutine runner's suspension and wake-up (base/coroutine/co_runner.cc,
base/coroutine/bstctx_impl.hpp), and C28.

Coroutines are numbered; coroutine code is arbitrary (any running coroutine may at any time make a
resume closure, yield, start the next task or end), resume closures may be invoked at any time from
the loop's thread or from another thread, any number of times.  The intrusive lists are lists of
coroutine numbers (C29 shows they behave so when no node is appended twice; `c28_lists` shows it
is not).  The resume counter is a `uint64_t` in the code and a number here.
-/
namespace Ltio.Coro

/-- The runner (co_runner.cc:326-345) and its coroutines; `logs` are ghosts. -/
structure St where
  /-- coroutines created so far -/
  n : Nat
  /-- `resume_id_` (bstctx_impl.hpp:104) -/
  id : Nat → Nat
  /-- the task a coroutine runs or ran last (ghost) -/
  task : Nat → Nat
  /-- `current_`; `none`: the main coroutine -/
  cur : Option Nat
  /-- coroutines that have yielded and not been switched to since -/
  susp : List Nat
  ready : List Nat
  free : List Nat
  gc : List Nat
  dead : List Nat
  maxReuse : Nat
  /-- resume closures that exist: coroutine, counter captured, task that made it -/
  made : List (Nat × Nat × Nat)
  /-- `do_resume` closures queued from other threads (`remote_sched_`) -/
  remote : List (Nat × Nat)
  /-- a `CHECK` failed -/
  aborted : Bool
  /-- closures whose `do_resume` has run on the loop (ghost) -/
  ran : List (Nat × Nat)
  /-- wake-ups: coroutine and the counter of the suspension that ended (ghost) -/
  woken : List (Nat × Nat)

/-- A new runner (co_runner.cc:144-151). -/
def init : St :=
  { n := 0, id := fun _ => 0, task := fun _ => 0, cur := none, susp := [], ready := [], free := [],
    gc := [], dead := [], maxReuse := 64, made := [], remote := [], aborted := false, ran := [],
    woken := [] }

/-- `Attatched` (linked_list.h:50): the coroutine is in one of the three lists. -/
abbrev attached (s : St) (c : Nat) : Prop := c ∈ s.ready ∨ c ∈ s.free ∨ c ∈ s.gc

/-- Assign one entry. -/
def upd (f : Nat → Nat) (c v : Nat) : Nat → Nat := fun k => if k = c then v else f k

/-- `do_resume` (co_runner.cc:199-211): the weak pointer must still lock. -/
def doResume (s : St) (c i : Nat) : St :=
  if c ∈ s.dead then { s with ran := (c, i) :: s.ran }
  else if s.id c = i ∧ ¬ attached s c then
    { s with ready := s.ready ++ [c], ran := (c, i) :: s.ran }
  else { s with ran := (c, i) :: s.ran }

/-- What can happen. -/
inductive Lab where
  /-- `SwitchContext(Spawn())` (co_runner.cc:262-286,314-324) -/
  | spawn
  /-- first of `ready_list_` (co_runner.cc:254-259,288-293) -/
  | wake
  /-- `MakeResumer` in the running coroutine (co_runner.cc:412-420) -/
  | mk
  /-- `Yield` (co_runner.cc:393-398) -/
  | yield
  /-- the task ends and the same coroutine takes the next one (`CoroMain`, co_runner.cc:168-176) -/
  | next
  /-- no task left: `ExitCurrent` (co_runner.cc:178-181, 227-235) -/
  | exit
  /-- a resume closure is called on the loop's thread (co_runner.cc:212-213) -/
  | callHere (c i : Nat)
  /-- a resume closure is called on another thread (co_runner.cc:214-217) -/
  | callThere (c i : Nat)
  /-- a queued `do_resume` is run as a task -/
  | runQueued (c i : Nat)
  /-- `FreeCoros` (co_runner.cc:238-244) -/
  | sweep
  /-- `max_reuse_co_` changes (co_runner.cc:295-300) -/
  | tune (k : Nat)

/-- `Resume` of the coroutine (bstctx_impl.hpp:68-71) with `current_ = next` (co_runner.cc:185-190). -/
def activate (s : St) (c : Nat) : St := { s with cur := some c, id := upd s.id c (s.id c + 1) }

/-- `Spawn` (co_runner.cc:314-324): from the free list, or a new coroutine. -/
def spawn (s : St) : St :=
  match s.free with
  | c :: rest => activate { s with free := rest, task := upd s.task c (s.task c + 1) } c
  | [] => activate { s with n := s.n + 1 } s.n

/-- `GC` and the switch to the main coroutine (co_runner.cc:178-181, 227-235). -/
def exitCo (s : St) (c : Nat) : St :=
  if attached s c then { s with aborted := true }
  else if s.free.length < s.maxReuse then { s with free := s.free ++ [c], cur := none }
  else { s with gc := s.gc ++ [c], cur := none }

/-- One step; `none`: not possible now. -/
def step (s : St) : Lab → Option St
  | .spawn => if s.aborted = false ∧ s.cur = none then some (spawn s) else none
  | .wake =>
    match s.aborted, s.cur, s.ready with
    | false, none, c :: rest =>
      some (activate { s with ready := rest, susp := s.susp.erase c, woken := (c, s.id c) :: s.woken } c)
    | _, _, _ => none
  | .mk =>
    match s.aborted, s.cur with
    | false, some c => some { s with made := (c, s.id c, s.task c) :: s.made }
    | _, _ => none
  | .yield =>
    match s.aborted, s.cur with
    | false, some c => some { s with susp := c :: s.susp, cur := none }
    | _, _ => none
  | .next =>
    match s.aborted, s.cur with
    | false, some c => some { s with task := upd s.task c (s.task c + 1) }
    | _, _ => none
  | .exit =>
    match s.aborted, s.cur with
    | false, some c => some (exitCo s c)
    | _, _ => none
  | .callHere c i =>
    if s.aborted = false ∧ ∃ t ∈ s.made, t.1 = c ∧ t.2.1 = i then some (doResume s c i) else none
  | .callThere c i =>
    if s.aborted = false ∧ ∃ t ∈ s.made, t.1 = c ∧ t.2.1 = i then
      some { s with remote := (c, i) :: s.remote } else none
  | .runQueued c i =>
    if s.aborted = false ∧ (c, i) ∈ s.remote ∧ s.cur ≠ none then
      some (doResume { s with remote := s.remote.erase (c, i) } c i) else none
  | .sweep =>
    if s.aborted = false ∧ s.cur = none then some { s with gc := [], dead := s.gc ++ s.dead } else none
  | .tune k => if s.aborted = false ∧ s.cur = none then some { s with maxReuse := max 64 k } else none

/-- A whole schedule. -/
def runLabs (s : St) : List Lab → Option St
  | [] => some s
  | l :: ls => (step s l).bind (fun s' => runLabs s' ls)

/-- Reachable states. -/
inductive Reach : St → Prop where
  | init : Reach init
  | step {s s' : St} (l : Lab) : Reach s → step s l = some s' → Reach s'

theorem reach_run {s : St} (h : Reach s) : ∀ (ls : List Lab) {s' : St}, runLabs s ls = some s' → Reach s' := by
  intro ls
  induction ls generalizing s with
  | nil => intro s' hs; simp only [runLabs, Option.some.injEq] at hs; exact hs ▸ h
  | cons l ls ih =>
    intro s' hs
    simp only [runLabs, Option.bind_eq_some_iff] at hs
    obtain ⟨s1, h1, h2⟩ := hs
    exact ih (.step l h h1) h2

/-- Where the coroutines are: every list entry once, nowhere else. -/
structure Inv (s : St) : Prop where
  places : (s.cur.toList ++ s.susp ++ s.free ++ s.gc ++ s.dead).Nodup
  below : ∀ c, c ∈ s.cur.toList ++ s.susp ++ s.free ++ s.gc ++ s.dead ↔ c < s.n
  readyNodup : s.ready.Nodup
  readyWhere : ∀ c ∈ s.ready, c ∈ s.susp ∨ s.cur = some c
  madeId : ∀ t ∈ s.made, t.1 < s.n ∧ t.2.1 ≤ s.id t.1
  fresh : ∀ c, s.n ≤ c → s.id c = 0
  pos : ∀ c, c < s.n → 0 < s.id c
  remoteMade : ∀ p ∈ s.remote, ∃ t ∈ s.made, t.1 = p.1 ∧ t.2.1 = p.2
  ranMade : ∀ p ∈ s.ran, ∃ t ∈ s.made, t.1 = p.1 ∧ t.2.1 = p.2
  readyRan : ∀ c ∈ s.ready, (c, s.id c) ∈ s.ran
  ranReady : ∀ c, (c, s.id c) ∈ s.ran → c ∈ s.susp → c ∈ s.ready
  ranReadyCur : ∀ c, (c, s.id c) ∈ s.ran → s.cur = some c → c ∈ s.ready
  wokenNodup : s.woken.Nodup
  wokenOld : ∀ p ∈ s.woken, p.2 < s.id p.1
  wokenRan : ∀ p ∈ s.woken, p ∈ s.ran

theorem inv_init : Inv init := by
  constructor <;> simp [init]

theorem upd_same (f : Nat → Nat) (c v : Nat) : upd f c v c = v := by simp [upd]
theorem upd_other (f : Nat → Nat) (c v k : Nat) (h : k ≠ c) : upd f c v k = f k := by simp [upd, h]

theorem inv_doResume {s : St} (h : Inv s) (c i : Nat) (hm : ∃ t ∈ s.made, t.1 = c ∧ t.2.1 = i) :
    Inv (doResume s c i) := by
  have hran : ∀ p ∈ (c, i) :: s.ran, ∃ t ∈ s.made, t.1 = p.1 ∧ t.2.1 = p.2 := by
    intro p hp
    rcases List.mem_cons.1 hp with rfl | hp
    · exact hm
    · exact h.ranMade p hp
  unfold doResume
  split
  · rename_i hd
    refine { h with
             ranMade := hran, readyRan := (fun k hk => by simp [h.readyRan k hk]),
             ranReady := ?_, ranReadyCur := ?_, wokenRan := (fun p hp => by simp [h.wokenRan p hp]) }
    · intro k hk hs
      rcases List.mem_cons.1 hk with e | hk
      · simp only [Prod.mk.injEq] at e
        obtain ⟨rfl, -⟩ := e
        exfalso
        have := h.places
        rw [List.nodup_append] at this
        exact this.2.2 k (by simp [hs]) k hd rfl
      · exact h.ranReady k hk hs
    · intro k hk hs
      rcases List.mem_cons.1 hk with e | hk
      · simp only [Prod.mk.injEq] at e
        obtain ⟨rfl, -⟩ := e
        exfalso
        have := h.places
        rw [List.nodup_append] at this
        have hs' : s.cur = some k := hs
        exact this.2.2 k (by simp [hs']) k hd rfl
      · exact h.ranReadyCur k hk hs
  · rename_i hd
    split
    · rename_i ha
      obtain ⟨hid, hna⟩ := ha
      simp only [not_or] at hna
      have hlt : c < s.n := by
        obtain ⟨t, ht, h1, -⟩ := hm
        exact h1 ▸ (h.madeId t ht).1
      refine { h with
             readyNodup := ?_, readyWhere := ?_, ranMade := hran, readyRan := ?_,
               ranReady := ?_, ranReadyCur := ?_,
               wokenRan := (fun p hp => by simp [h.wokenRan p hp]) }
      · rw [List.nodup_append]
        refine ⟨h.readyNodup, by simp, ?_⟩
        intro a ha b hb hab
        simp only [List.mem_singleton] at hb
        subst hb; subst hab
        exact hna.1 ha
      · intro k hk
        rcases List.mem_append.1 hk with hk | hk
        · exact h.readyWhere k hk
        · simp only [List.mem_singleton] at hk
          subst hk
          have := (h.below k).2 hlt
          simp only [List.mem_append, Option.mem_toList] at this
          rcases this with (((h1 | h1) | h1) | h1) | h1
          · exact Or.inr h1
          · exact Or.inl h1
          · exact absurd h1 hna.2.1
          · exact absurd h1 hna.2.2
          · exact absurd h1 hd
      · intro k hk
        rcases List.mem_append.1 hk with hk | hk
        · simp [h.readyRan k hk]
        · simp only [List.mem_singleton] at hk
          subst hk; simp [hid]
      · intro k hk hs
        rcases List.mem_cons.1 hk with e | hk
        · simp only [Prod.mk.injEq] at e
          simp [e.1]
        · simp [h.ranReady k hk hs]
      · intro k hk hs
        rcases List.mem_cons.1 hk with e | hk
        · simp only [Prod.mk.injEq] at e
          simp [e.1]
        · simp [h.ranReadyCur k hk hs]
    · rename_i ha
      have key : ∀ k, (k, s.id k) = (c, i) → (k ∈ s.susp ∨ s.cur = some k) → k ∈ s.ready := by
        intro k e hs
        simp only [Prod.mk.injEq] at e
        obtain ⟨rfl, hid⟩ := e
        by_contra hn
        apply ha
        refine ⟨hid, ?_⟩
        have hp := h.places
        rintro (h1 | h1 | h1)
        · exact hn h1
        · simp only [List.nodup_append, List.mem_append, Option.mem_toList] at hp
          rcases hs with hs | hs
          · exact hp.1.1.2.2 k (Or.inr hs) k h1 rfl
          · exact hp.1.1.2.2 k (Or.inl hs) k h1 rfl
        · simp only [List.nodup_append, List.mem_append, Option.mem_toList] at hp
          rcases hs with hs | hs
          · exact hp.1.2.2 k (Or.inl (Or.inr hs)) k h1 rfl
          · exact hp.1.2.2 k (Or.inl (Or.inl hs)) k h1 rfl
      refine { h with
             ranMade := hran, readyRan := (fun k hk => by simp [h.readyRan k hk]),
               ranReady := ?_, ranReadyCur := ?_, wokenRan := (fun p hp => by simp [h.wokenRan p hp]) }
      · intro k hk hs
        rcases List.mem_cons.1 hk with e | hk
        · exact key k e (Or.inl hs)
        · exact h.ranReady k hk hs
      · intro k hk hs
        rcases List.mem_cons.1 hk with e | hk
        · exact key k e (Or.inr hs)
        · exact h.ranReadyCur k hk hs

/-- Switching to a coroutine that is in no list and whose counter it increases. -/
theorem inv_wake {s : St} (h : Inv s) (c : Nat) (rest : List Nat) (hcur : s.cur = none)
    (hr : s.ready = c :: rest) :
    Inv (activate { s with ready := rest, susp := s.susp.erase c, woken := (c, s.id c) :: s.woken } c) := by
  have hrn := h.readyNodup
  rw [hr] at hrn
  have hc : c ∉ rest := (List.nodup_cons.1 hrn).1
  have hsusp : c ∈ s.susp := by
    rcases h.readyWhere c (by simp [hr]) with h1 | h1
    · exact h1
    · rw [hcur] at h1; simp at h1
  have hperm : List.Perm s.susp (c :: s.susp.erase c) := List.perm_cons_erase hsusp
  have hplaces := h.places
  have hbelow := h.below
  rw [hcur] at hplaces hbelow
  simp only [Option.toList_none, List.nil_append] at hplaces hbelow
  have hpp : List.Perm (s.susp ++ s.free ++ s.gc ++ s.dead)
      ((some c).toList ++ s.susp.erase c ++ s.free ++ s.gc ++ s.dead) := by
    simpa using (((hperm.append_right s.free).append_right s.gc).append_right s.dead)
  have hlt : c < s.n := (hbelow c).1 (by simp [hsusp])
  have hsn : s.susp.Nodup := by
    simp only [List.nodup_append] at hplaces; exact hplaces.1.1.1
  refine ⟨hpp.nodup_iff.1 hplaces, fun k => (hpp.mem_iff).symm.trans (hbelow k),
    (List.nodup_cons.1 hrn).2, ?_, ?_, ?_, ?_, h.remoteMade, h.ranMade, ?_, ?_, ?_, ?_, ?_, ?_⟩
  · intro k hk
    have hkc : k ≠ c := fun e => hc (e ▸ hk)
    rcases h.readyWhere k (by rw [hr]; exact List.mem_cons_of_mem _ hk) with h1 | h1
    · left
      exact (List.mem_erase_of_ne hkc).2 h1
    · rw [hcur] at h1; simp at h1
  · intro t ht
    obtain ⟨h1, h2⟩ := h.madeId t ht
    refine ⟨h1, ?_⟩
    simp only [activate, upd]
    split
    · rename_i e; rw [e] at h2; omega
    · exact h2
  · intro k hk
    have : k ≠ c := by rintro rfl; have : s.n ≤ k := hk; omega
    simp only [activate, upd_other _ _ _ _ this]
    exact h.fresh k hk
  · intro k hk
    simp only [activate, upd]
    split
    · omega
    · exact h.pos k hk
  · intro k hk
    have hkc : k ≠ c := fun e => hc (e ▸ hk)
    simp only [activate, upd_other _ _ _ _ hkc]
    exact h.readyRan k (by rw [hr]; exact List.mem_cons_of_mem _ hk)
  · intro k hk hs
    have hkc : k ≠ c := by
      rintro rfl
      exact (List.Nodup.not_mem_erase hsn) hs
    simp only [activate, upd_other _ _ _ _ hkc] at hk
    have := h.ranReady k hk (List.mem_of_mem_erase hs)
    rw [hr] at this
    rcases List.mem_cons.1 this with e | e
    · exact absurd e hkc
    · exact e
  · intro k hk hs
    have : c = k := by simpa [activate] using hs
    subst this
    exfalso
    simp only [activate, upd_same] at hk
    obtain ⟨t, ht, h1, h2⟩ := h.ranMade _ hk
    have := (h.madeId t ht).2
    simp only at h1 h2
    rw [h1] at this
    omega
  · refine List.nodup_cons.2 ⟨?_, h.wokenNodup⟩
    intro hc'
    have := h.wokenOld _ hc'
    simp at this
  · intro p hp
    simp only [activate] at hp ⊢
    rcases List.mem_cons.1 hp with rfl | hp
    · simp [upd_same]
    · have := h.wokenOld p hp
      simp only [upd]
      split
      · rename_i e; rw [e] at this; omega
      · exact this
  · intro p hp
    simp only [activate] at hp ⊢
    rcases List.mem_cons.1 hp with rfl | hp
    · exact h.readyRan c (by simp [hr])
    · exact h.wokenRan p hp

/-- Switching to a parked or new coroutine. -/
theorem inv_spawn {s : St} (h : Inv s) (hcur : s.cur = none) : Inv (spawn s) := by
  have hplaces := h.places
  have hbelow := h.below
  rw [hcur] at hplaces hbelow
  simp only [Option.toList_none, List.nil_append] at hplaces hbelow
  have hrs : ∀ k ∈ s.ready, k ∈ s.susp := by
    intro k hk
    rcases h.readyWhere k hk with h1 | h1
    · exact h1
    · rw [hcur] at h1; simp at h1
  -- the coroutine taken, not suspended and with no closure that has run for its next counter
  have gen : ∀ (s' : St) (c : Nat), c ∉ s.susp → s.n ≤ s'.n → (c < s.n ∨ c = s.n ∧ s'.n = s.n + 1) →
      (s'.n = s.n ∨ s'.n = s.n + 1 ∧ c = s.n) →
      s'.cur = some c → s'.id = upd s.id c (s.id c + 1) → s'.susp = s.susp → s'.ready = s.ready →
      s'.made = s.made → s'.remote = s.remote → s'.ran = s.ran → s'.woken = s.woken →
      (s'.cur.toList ++ s'.susp ++ s'.free ++ s'.gc ++ s'.dead).Nodup →
      (∀ k, k ∈ s'.cur.toList ++ s'.susp ++ s'.free ++ s'.gc ++ s'.dead ↔ k < s'.n) → Inv s' := by
    intro s' c hcs hn hc hn' e1 e2 e3 e4 e5 e6 e7 e8 hp hb
    have hcr : c ∉ s.ready := fun hc' => hcs (hrs c hc')
    refine ⟨hp, hb, e4 ▸ h.readyNodup, ?_, ?_, ?_, ?_, ?_, ?_, ?_, ?_, ?_, e8 ▸ h.wokenNodup, ?_, ?_⟩
    · intro k hk; left; rw [e3]; exact hrs k (e4 ▸ hk)
    · intro t ht
      rw [e5] at ht
      obtain ⟨h1, h2⟩ := h.madeId t ht
      refine ⟨by omega, ?_⟩
      rw [e2]; simp only [upd]
      split
      · rename_i e; rw [e] at h2; omega
      · exact h2
    · intro k hk
      have : k ≠ c := by rintro rfl; omega
      rw [e2, upd_other _ _ _ _ this]
      exact h.fresh k (by omega)
    · intro k hk
      rw [e2]; simp only [upd]
      split
      · omega
      · exact h.pos k (by omega)
    · intro p hp'; rw [e6] at hp'; rw [e5]; exact h.remoteMade p hp'
    · intro p hp'; rw [e7] at hp'; rw [e5]; exact h.ranMade p hp'
    · intro k hk
      rw [e4] at hk
      have hkc : k ≠ c := fun e => hcr (e ▸ hk)
      rw [e7, e2, upd_other _ _ _ _ hkc]
      exact h.readyRan k hk
    · intro k hk hs
      rw [e3] at hs
      have hkc : k ≠ c := fun e => hcs (e ▸ hs)
      rw [e7, e2, upd_other _ _ _ _ hkc] at hk
      rw [e4]; exact h.ranReady k hk hs
    · intro k hk hs
      rw [e1] at hs
      simp only [Option.some.injEq] at hs
      subst hs
      exfalso
      rw [e7, e2, upd_same] at hk
      obtain ⟨t, ht, h1, h2⟩ := h.ranMade _ hk
      have := (h.madeId t ht).2
      simp only at h1 h2
      rw [h1] at this
      omega
    · intro p hp'
      rw [e8] at hp'
      have := h.wokenOld p hp'
      rw [e2]; simp only [upd]
      split
      · rename_i e; rw [e] at this; omega
      · exact this
    · intro p hp'; rw [e8] at hp'; rw [e7]; exact h.wokenRan p hp'
  unfold spawn
  cases hf : s.free with
  | cons c rest =>
    rw [hf] at hplaces hbelow
    have hpp : List.Perm (s.susp ++ (c :: rest) ++ s.gc ++ s.dead)
        ((some c).toList ++ s.susp ++ rest ++ s.gc ++ s.dead) := by
      simp
    have hcs : c ∉ s.susp := by
      intro h1
      simp only [List.nodup_append] at hplaces
      exact hplaces.1.1.2.2 c h1 c (by simp) rfl
    refine gen _ c hcs (Nat.le_refl _) (Or.inl ((hbelow c).1 (by simp))) (Or.inl rfl) rfl rfl rfl rfl
      rfl rfl rfl rfl (hpp.nodup_iff.1 hplaces) (fun k => (hpp.mem_iff).symm.trans (hbelow k))
  | nil =>
    rw [hf] at hplaces hbelow
    have hnot : ∀ k, k ∈ s.susp ++ [] ++ s.gc ++ s.dead → k ≠ s.n := by
      intro k hk e
      have := (hbelow k).1 hk
      omega
    refine gen _ s.n (fun h1 => hnot s.n (by simp [h1]) rfl) (Nat.le_succ _) (Or.inr ⟨rfl, rfl⟩)
      (Or.inr ⟨rfl, rfl⟩) rfl rfl rfl rfl rfl rfl rfl rfl ?_ ?_
    · show ((some s.n).toList ++ s.susp ++ [] ++ s.gc ++ s.dead).Nodup
      have : (some s.n).toList ++ s.susp ++ [] ++ s.gc ++ s.dead =
          s.n :: (s.susp ++ [] ++ s.gc ++ s.dead) := by simp
      rw [this, List.nodup_cons]
      exact ⟨fun h1 => hnot _ h1 rfl, hplaces⟩
    · intro k
      show k ∈ (some s.n).toList ++ s.susp ++ [] ++ s.gc ++ s.dead ↔ k < s.n + 1
      have : (some s.n).toList ++ s.susp ++ [] ++ s.gc ++ s.dead =
          s.n :: (s.susp ++ [] ++ s.gc ++ s.dead) := by simp
      rw [this, List.mem_cons, hbelow]
      omega

theorem inv_move {s : St} (h : Inv s) (c : Nat) (hcur : s.cur = some c) (s' : St)
    (hn : s'.n = s.n) (hid : s'.id = s.id) (hc : s'.cur = none) (hr : s'.ready = s.ready)
    (hm : s'.made = s.made) (hre : s'.remote = s.remote) (hra : s'.ran = s.ran)
    (hw : s'.woken = s.woken)
    (hs : s'.susp = c :: s.susp ∨ s'.susp = s.susp ∧ c ∉ s.ready)
    (hp : List.Perm (s'.cur.toList ++ s'.susp ++ s'.free ++ s'.gc ++ s'.dead)
      (s.cur.toList ++ s.susp ++ s.free ++ s.gc ++ s.dead)) : Inv s' := by
  refine ⟨hp.nodup_iff.2 h.places, fun k => hp.mem_iff.trans (hn ▸ h.below k), hr ▸ h.readyNodup,
    ?_, ?_, ?_, ?_, ?_, ?_, ?_, ?_, ?_, hw ▸ h.wokenNodup, ?_, ?_⟩
  · intro k hk
    rw [hr] at hk
    left
    rcases hs with hs | ⟨hs, hcr⟩
    · rw [hs]
      rcases h.readyWhere k hk with h1 | h1
      · simp [h1]
      · rw [hcur] at h1; simp at h1; simp [h1]
    · rw [hs]
      rcases h.readyWhere k hk with h1 | h1
      · exact h1
      · rw [hcur] at h1; simp at h1; exact absurd (h1 ▸ hk) hcr
  · rw [hm, hn, hid]; exact h.madeId
  · rw [hn, hid]; exact h.fresh
  · rw [hn, hid]; exact h.pos
  · rw [hre, hm]; exact h.remoteMade
  · rw [hra, hm]; exact h.ranMade
  · rw [hr, hid, hra]; exact h.readyRan
  · rw [hr, hid, hra]
    intro k hk hks
    rcases hs with hs | ⟨hs, hcr⟩
    · rw [hs] at hks
      rcases List.mem_cons.1 hks with rfl | hks
      · exact h.ranReadyCur k hk hcur
      · exact h.ranReady k hk hks
    · rw [hs] at hks
      exact h.ranReady k hk hks
  · intro k _ hks; rw [hc] at hks; simp at hks
  · rw [hid, hw]; exact h.wokenOld
  · rw [hw, hra]; exact h.wokenRan

theorem inv_step {s s' : St} (h : Inv s) (l : Lab) (hs : step s l = some s') : Inv s' := by
  cases l with
  | spawn =>
    simp only [step] at hs
    split at hs
    · rename_i hc; simp only [Option.some.injEq] at hs; subst hs; exact inv_spawn h hc.2
    · simp at hs
  | wake =>
    simp only [step] at hs
    split at hs
    · rename_i c rest h1 h2 h3
      simp only [Option.some.injEq] at hs; subst hs
      exact inv_wake h c rest h2 h3
    · simp at hs
  | mk =>
    simp only [step] at hs
    split at hs
    · rename_i c h1 h2
      simp only [Option.some.injEq] at hs; subst hs
      have hlt : c < s.n := (h.below c).1 (by simp [h2])
      refine { h with madeId := ?_, remoteMade := ?_, ranMade := ?_ }
      · intro t ht
        rcases List.mem_cons.1 ht with rfl | ht
        · exact ⟨hlt, Nat.le_refl _⟩
        · exact h.madeId t ht
      · intro p hp
        obtain ⟨t, ht, h3⟩ := h.remoteMade p hp
        exact ⟨t, by simp [ht], h3⟩
      · intro p hp
        obtain ⟨t, ht, h3⟩ := h.ranMade p hp
        exact ⟨t, by simp [ht], h3⟩
    · simp at hs
  | yield =>
    simp only [step] at hs
    split at hs
    · rename_i c h1 h2
      simp only [Option.some.injEq] at hs; subst hs
      refine inv_move h c h2 _ rfl rfl rfl rfl rfl rfl rfl rfl (Or.inl rfl) ?_
      rw [h2]; simp
    · simp at hs
  | next =>
    simp only [step] at hs
    split at hs
    · simp only [Option.some.injEq] at hs; subst hs; exact { h with }
    · simp at hs
  | exit =>
    simp only [step] at hs
    split at hs
    · rename_i c h1 h2
      simp only [Option.some.injEq] at hs; subst hs
      unfold exitCo
      split
      · exact { h with }
      · rename_i ha
        simp only [not_or] at ha
        split
        · refine inv_move h c h2 _ rfl rfl rfl rfl rfl rfl rfl rfl (Or.inr ⟨rfl, ha.1⟩) ?_
          rw [h2]
          have : List.Perm (s.susp ++ (s.free ++ [c])) (c :: (s.susp ++ s.free)) := by
            rw [← List.append_assoc]
            exact List.perm_append_comm.trans (by simp)
          simpa using ((this.append_right s.gc).append_right s.dead)
        · refine inv_move h c h2 _ rfl rfl rfl rfl rfl rfl rfl rfl (Or.inr ⟨rfl, ha.1⟩) ?_
          rw [h2]
          have : List.Perm (s.susp ++ s.free ++ (s.gc ++ [c])) (c :: (s.susp ++ s.free ++ s.gc)) := by
            rw [← List.append_assoc]
            exact List.perm_append_comm.trans (by simp)
          simpa using (this.append_right s.dead)
    · simp at hs
  | callHere c i =>
    simp only [step] at hs
    split at hs
    · rename_i hc; simp only [Option.some.injEq] at hs; subst hs; exact inv_doResume h c i hc.2
    · simp at hs
  | callThere c i =>
    simp only [step] at hs
    split at hs
    · rename_i hc
      simp only [Option.some.injEq] at hs; subst hs
      refine { h with remoteMade := ?_ }
      intro p hp
      rcases List.mem_cons.1 hp with rfl | hp
      · exact hc.2
      · exact h.remoteMade p hp
    · simp at hs
  | runQueued c i =>
    simp only [step] at hs
    split at hs
    · rename_i hc; simp only [Option.some.injEq] at hs; subst hs
      refine inv_doResume ?_ c i (h.remoteMade _ hc.2.1)
      exact { h with remoteMade := fun p hp => h.remoteMade p (List.mem_of_mem_erase hp) }
    · simp at hs
  | sweep =>
    simp only [step] at hs
    split at hs
    · rename_i hc; simp only [Option.some.injEq] at hs; subst hs
      have e : List.Perm (s.cur.toList ++ s.susp ++ s.free ++ [] ++ (s.gc ++ s.dead))
          (s.cur.toList ++ s.susp ++ s.free ++ s.gc ++ s.dead) := by simp
      refine { h with places := e.nodup_iff.2 h.places, below := fun k => e.mem_iff.trans (h.below k) }
    · simp at hs
  | tune k =>
    simp only [step] at hs
    split at hs
    · simp only [Option.some.injEq] at hs; subst hs; exact { h with }
    · simp at hs

theorem inv_reach {s : St} (h : Reach s) : Inv s := by
  induction h with
  | init => exact inv_init
  | step l _ hs ih => exact inv_step ih l hs

/-! ### C28 -/

/-- **C28 (at most once).**  In every execution each suspension of a coroutine is ended at most
once, and only by a resume closure made in the running period that ended with that suspension
(before it was ended, that closure was called and processed). -/
theorem c28_once {s : St} (h : Reach s) (c i : Nat) :
    s.woken.count (c, i) ≤ 1 ∧
    ((c, i) ∈ s.woken → (c, i) ∈ s.ran ∧ ∃ t ∈ s.made, t.1 = c ∧ t.2.1 = i) := by
  have hi := inv_reach h
  refine ⟨List.nodup_iff_count_le_one.1 hi.wokenNodup _, fun hw => ?_⟩
  have hr := hi.wokenRan _ hw
  exact ⟨hr, hi.ranMade _ hr⟩

/-- **C28 (stale closures do nothing).**  Processing a closure made before the coroutine was last
switched to, or one whose coroutine is parked, already scheduled, or gone, changes nothing
(except the ghost log). -/
theorem c28_stale {s : St} (c i : Nat)
    (hst : i ≠ s.id c ∨ attached s c ∨ c ∈ s.dead) :
    doResume s c i = { s with ran := (c, i) :: s.ran } := by
  unfold doResume
  split
  · rfl
  · rename_i hd
    rw [if_neg]
    rintro ⟨h1, h2⟩
    rcases hst with h3 | h3 | h3
    · exact h3 h1.symm
    · exact h2 h3
    · exact hd h3

/-- **C28 (no wake-up is lost).**  If a closure made in the current period of a coroutine has been
processed – even before the coroutine yielded – then once the coroutine is suspended it is
scheduled to be resumed. -/
theorem c28_not_lost {s : St} (h : Reach s) (c : Nat) (hr : (c, s.id c) ∈ s.ran)
    (hs : c ∈ s.susp) : c ∈ s.ready := (inv_reach h).ranReady c hr hs

/-- Drain the ready list: what `Run` does before anything else (co_runner.cc:254-259), when the
resumed coroutines yield again at once. -/
def drain : Nat → List Lab
  | 0 => []
  | k + 1 => .wake :: .yield :: drain k

/-- **C28 (scheduled coroutines do run).**  From every reachable state in which the runner is in
its main coroutine, each scheduled coroutine can be switched to, in order, without running
anything else. -/
theorem c28_progress {s : St} (ha : s.aborted = false) (hc : s.cur = none) (c : Nat)
    (hr : c ∈ s.ready) :
    ∃ k s', runLabs s (drain k) = some s' ∧ s'.ready.head? = some c ∧ s'.cur = none ∧
      s'.aborted = false ∧ ∃ s'', step s' .wake = some s'' ∧ s''.cur = some c := by
  have key : ∀ (l : List Nat) (s : St), s.ready = l → s.aborted = false → s.cur = none → c ∈ l →
      ∃ k s', runLabs s (drain k) = some s' ∧ s'.ready.head? = some c ∧ s'.cur = none ∧
        s'.aborted = false := by
    intro l
    induction l with
    | nil => intro s _ _ _ hm; simp at hm
    | cons x xs ih =>
      intro s hl ha hc hm
      by_cases hx : x = c
      · subst hx
        exact ⟨0, s, rfl, by rw [hl]; rfl, hc, ha⟩
      · have hm' : c ∈ xs := by simpa [Ne.symm hx] using hm
        let s1 := activate { s with ready := xs, susp := s.susp.erase x, woken := (x, s.id x) :: s.woken } x
        have hw : step s .wake = some s1 := by
          simp only [step]; rw [hl]; simp only [ha, hc]; simp only [s1, ha, hc]
        have hy : step s1 .yield = some { s1 with susp := x :: s1.susp, cur := none } := by
          have : s1.aborted = false := ha
          have hcu : s1.cur = some x := rfl
          simp only [step, this, hcu]
        obtain ⟨k, s', h1, h2⟩ := ih { s1 with susp := x :: s1.susp, cur := none } rfl ha rfl hm'
        refine ⟨k + 1, s', ?_, h2⟩
        show (step s .wake).bind _ = _
        rw [hw]
        show (step s1 .yield).bind _ = _
        rw [hy]
        exact h1
  obtain ⟨k, s', h1, h2, h3, h4⟩ := key s.ready s rfl ha hc hr
  refine ⟨k, s', h1, h2, h3, h4, ?_⟩
  cases hl : s'.ready with
  | nil => rw [hl] at h2; simp at h2
  | cons x xs =>
    rw [hl] at h2
    simp only [List.head?_cons, Option.some.injEq] at h2
    subst h2
    refine ⟨activate { s' with ready := xs, susp := s'.susp.erase x, woken := (x, s'.id x) :: s'.woken } x,
      ?_, rfl⟩
    simp only [step, h4, h3, hl]

/-- **C28 (the lists are used correctly).**  No coroutine is ever in a list twice or in two lists
or in a list while it is gone: the obligations of the intrusive lists (C29) are met. -/
theorem c28_lists {s : St} (h : Reach s) : (s.ready ++ s.free ++ s.gc).Nodup ∧
    ∀ c ∈ s.ready ++ s.free ++ s.gc, c ∉ s.dead := by
  have hi := inv_reach h
  have hp := hi.places
  simp only [List.nodup_append, List.mem_append, Option.mem_toList] at hp
  obtain ⟨⟨⟨⟨-, p2⟩, p3, p4⟩, p5, p6⟩, p7, p8⟩ := hp
  have hw : ∀ c ∈ s.ready, c ∈ s.susp ∨ s.cur = some c := hi.readyWhere
  have hw' : ∀ c ∈ s.ready, s.cur = some c ∨ c ∈ s.susp := fun c hc => (hw c hc).symm
  refine ⟨?_, ?_⟩
  · simp only [List.nodup_append, List.mem_append]
    refine ⟨⟨hi.readyNodup, p3, ?_⟩, p5, ?_⟩
    · intro a ha b hb; exact p4 a (hw' a ha) b hb
    · intro a ha b hb
      rcases ha with ha | ha
      · exact p6 a (Or.inl (hw' a ha)) b hb
      · exact p6 a (Or.inr ha) b hb
  · intro c hc hd
    rcases List.mem_append.1 hc with hc | hc
    · rcases List.mem_append.1 hc with hc | hc
      · exact p8 c (Or.inl (Or.inl (hw' c hc))) c hd rfl
      · exact p8 c (Or.inl (Or.inr hc)) c hd rfl
    · exact p8 c (Or.inr hc) c hd rfl

/-- **C28 (no failed check), for tasks that wait whenever they make a resume closure.**  A task may
end when no closure of the running period exists; then no execution aborts. -/
theorem c28_no_abort_partial {s s' : St} (h : Reach s) (l : Lab) (hs : step s l = some s')
    (ha : s.aborted = false)
    (hd : l = .exit → ∀ c, s.cur = some c → ∀ t ∈ s.made, ¬ (t.1 = c ∧ t.2.1 = s.id c)) :
    s'.aborted = false := by
  have hi := inv_reach h
  have hdr : ∀ (s0 : St) (c i : Nat), s0.aborted = false → (doResume s0 c i).aborted = false := by
    intro s0 c i h0
    unfold doResume; split
    · exact h0
    · split <;> exact h0
  cases l with
  | exit =>
    simp only [step] at hs
    split at hs
    · rename_i c h1 h2
      simp only [Option.some.injEq] at hs; subst hs
      unfold exitCo
      split
      · rename_i hat
        exfalso
        have hp := hi.places
        simp only [List.nodup_append, List.mem_append, Option.mem_toList] at hp
        obtain ⟨⟨⟨-, p3, p4⟩, p5, p6⟩, p7, p8⟩ := hp
        rcases hat with h3 | h3 | h3
        · obtain ⟨t, ht, h4, h5⟩ := hi.ranMade _ (hi.readyRan c h3)
          exact hd rfl c h2 t ht ⟨h4, h5⟩
        · exact p4 c (Or.inl h2) c h3 rfl
        · exact p6 c (Or.inl (Or.inl h2)) c h3 rfl
      · split <;> exact ha
    · simp at hs
  | spawn =>
    simp only [step] at hs
    split at hs
    · simp only [Option.some.injEq] at hs; subst hs
      unfold spawn activate; split <;> exact ha
    · simp at hs
  | callHere c i =>
    simp only [step] at hs
    split at hs
    · simp only [Option.some.injEq] at hs; subst hs; exact hdr s c i ha
    · simp at hs
  | runQueued c i =>
    simp only [step] at hs
    split at hs
    · simp only [Option.some.injEq] at hs; subst hs; exact hdr _ c i ha
    · simp at hs
  | _ =>
    simp only [step] at hs
    repeat' split at hs
    all_goals first
      | (simp only [Option.some.injEq] at hs; subst hs; exact ha)
      | simp at hs

/-- **C28 violated: a closure of an earlier task resumes the next one.**  A task makes a closure and
ends without waiting; the same coroutine runs the next task, which waits with a closure of its own
that is never called; calling the first task's closure ends that wait. -/
theorem c28_violation_other_task :
    (runLabs init [.spawn, .mk, .next, .mk, .yield, .callHere 0 1, .wake]).map
      (fun s => (s.made, s.ran, s.woken, s.task 0, s.cur)) =
      some ([(0, 1, 1), (0, 1, 0)], [(0, 1)], [(0, 1)], 1, some 0) := by decide +kernel

/-- **C28 violated: calling a closure of a task that ended without waiting aborts the process**, when
it is called from a later task of the same coroutine. -/
theorem c28_violation_abort :
    (runLabs init [.spawn, .mk, .next, .callHere 0 1, .exit]).map (fun s => s.aborted) = some true := by
  decide +kernel

/-- Two coroutines wait, are woken by closures called here and from another thread, one of them
before it yields; stale and duplicate calls are ignored. -/
theorem c28_witness :
    (runLabs init [.spawn, .mk, .yield, .spawn, .mk, .callHere 1 1, .callHere 1 1, .yield,
      .callThere 0 1, .wake, .callHere 1 1, .runQueued 0 1, .exit, .wake, .exit, .spawn]).map
      (fun s => (s.woken, s.free, s.ready, s.cur, s.aborted)) =
      some ([(0, 1), (1, 1)], [0], [], some 1, false) := by decide +kernel

end Ltio.Coro
