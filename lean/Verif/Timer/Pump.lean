import Verif.Timer.WheelSpec

/-
Model of the timer part of base/message_loop/event_pump.cc and timeout_event.cc (C26).
-/
namespace Ltio.Wheel

open Spec (Op Cfg)

attribute [local irreducible] passed elapsed timeoutWheel timeoutSlot add64 nextExpiry update

/-- The flags of a `TimeoutEvent` (timeout_event.cc:31-34): repeating timers are `TIMEOUT_INT`, all
others `TIMEOUT_ABS`. -/
def pumpCfg (repeated : Nat → Bool) : Cfg := { isInt := repeated, isAbs := fun i => !repeated i }

/-- `EventPump::AddTimeoutEvent` / `add_timer_internal` (event_pump.cc:104-120): what is passed to
`timeouts_add` when the clock reads `now` and the timer's interval is `ms`. -/
def addOp (repeated : Nat → Bool) (now id ms : Nat) : Op :=
  .add id (if repeated id then ms else now + ms)

/-- Delivery without handlers that touch timers: the loop of `ProcessTimerEvent`
(event_pump.cc:125-134). -/
def drain : Nat → T → List Nat × T
  | 0, t => ([], t)
  | n + 1, t => match get t with
    | (none, t') => ([], t')
    | (some id, t') => (id :: (drain n t').1, (drain n t').2)

theorem sim_after (cfg : Cfg) (period : Nat → Nat) (hp : ∀ i, period i < 2 ^ 63) (ops : List Op)
    (hv : ∀ op ∈ ops, op.valid) : ∃ s, Sim cfg (wheelAfter cfg period ops) s := by
  obtain ⟨s, _, h⟩ := sim_run ops (sim_init cfg period hp) hv
  exact ⟨s, h⟩

theorem get_some {t : T} {id : Nat} {rest : List Nat} (hx : t.expired = id :: rest) :
    (get t).1 = some id ∧ (get t).2.expired = rest ∧ (get t).2.cur = t.cur ∧
    ∀ i, i ≠ id → (get t).2.tm i = t.tm i := by
  unfold get
  rw [hx]
  simp only []
  split
  · refine ⟨rfl, rfl, rfl, fun i hi => ?_⟩
    simp [readd, schedFuture, setTm, setExpires, setNone, hi]
  · exact ⟨rfl, rfl, rfl, fun i hi => setTm_ne _ _ hi⟩

theorem drain_spec {cfg : Cfg} : ∀ (n : Nat) {t : T} {s : Spec.St}, Sim cfg t s → t.expired.length ≤ n →
    (drain n t).1 = t.expired ∧ (drain n t).2.expired = [] ∧ (drain n t).2.cur = t.cur ∧
    (∃ s', Sim cfg (drain n t).2 s') ∧
    ∀ i, i ∉ t.expired → (drain n t).2.tm i = t.tm i := by
  intro n
  induction n with
  | zero =>
    intro t s h hl
    have : t.expired = [] := List.length_eq_zero_iff.1 (by omega)
    exact ⟨this.symm, this, rfl, ⟨s, h⟩, fun _ _ => rfl⟩
  | succ n ih =>
    intro t s h hl
    rcases hx : t.expired with _ | ⟨id, rest⟩
    · have hg : get t = (none, t) := by unfold get; rw [hx]
      simp only [drain, hg]
      exact ⟨trivial, hx, trivial, ⟨s, h⟩, fun _ _ => trivial⟩
    · obtain ⟨g1, g2, g3, g4⟩ := get_some hx
      obtain ⟨s1, _, h1⟩ := sim_step h (op := .get) trivial
      have h1 : Sim cfg (get t).2 s1 := h1
      have hd : drain (n + 1) t = (id :: (drain n (get t).2).1, (drain n (get t).2).2) := by
        simp only [drain]
        split
        · rename_i t' hh; rw [hh] at g1; simp at g1
        · rename_i i t' hh
          rw [hh] at g1 ⊢
          simp only [Option.some.injEq] at g1
          rw [g1]
      obtain ⟨i1, i2, i3, i4, i5⟩ := ih h1 (by rw [g2]; rw [hx] at hl; simp at hl; omega)
      rw [hd]
      refine ⟨by simp only []; rw [i1, g2], i2, by rw [i3, g3], i4, fun i hi => ?_⟩
      simp only [List.mem_cons, not_or] at hi
      simp only []
      rw [i5 i (by rw [g2]; exact hi.2), g4 i hi.1]

/-- **C26 (one pass of the loop delivers exactly the due timers, each once).**  After any history, if
the clock then reads `n`, the pass delivers without repetition exactly the timers that were already
ready and the armed timers whose deadline is at most `n`, and afterwards nothing is left to
deliver. -/
theorem c26_pass (cfg : Cfg) (period : Nat → Nat) (hp : ∀ i, period i < 2 ^ 63) (ops : List Op)
    (hv : ∀ op ∈ ops, op.valid) (n : Nat) (hn : n < 2 ^ 63) :
    ∃ k, (drain k (update (wheelAfter cfg period ops) n)).1.Nodup ∧
      (∀ id, id ∈ (drain k (update (wheelAfter cfg period ops) n)).1 ↔
        ((wheelAfter cfg period ops).tm id).place = some .expired ∨
        ∃ d, armedFor (wheelAfter cfg period ops) id = some d ∧ d ≤ n) ∧
      (get (drain k (update (wheelAfter cfg period ops) n)).2).1 = none := by
  obtain ⟨s, h⟩ := sim_after cfg period hp ops hv
  obtain ⟨p, q, r, u⟩ := update_spec h.shape h.timed h.small hn
  obtain ⟨s1, _, h1⟩ := sim_step h (op := .update n) hn
  have h1 : Sim cfg (update (wheelAfter cfg period ops) n) s1 := h1
  generalize wheelAfter cfg period ops = t at h p q r u h1 ⊢
  generalize update t n = t' at p q r u h1 ⊢
  obtain ⟨d1, d2, _, _, _⟩ := drain_spec t'.expired.length h1 (Nat.le_refl _)
  refine ⟨t'.expired.length, by rw [d1]; exact p.ndExp, ?_, by rw [get_none]; exact d2⟩
  intro id
  rw [d1, p.memExp]
  obtain ⟨pl, e, h1, h2⟩ := u id
  rw [e]
  show id ∉ [] ∧ pl = some .expired ↔ _
  rw [h2]
  unfold armedFor
  constructor
  · rintro ⟨_, e | ⟨e1, e2⟩⟩
    · exact Or.inl e
    · exact Or.inr ⟨_, by rw [if_neg e1], e2⟩
  · rintro (e | ⟨d, e1, e2⟩)
    · exact ⟨by simp, Or.inl e⟩
    · split at e1
      · simp at e1
      · rename_i hne
        simp only [Option.some.injEq] at e1
        exact ⟨by simp, Or.inr ⟨hne, by omega⟩⟩

/-- **C26 (a one-shot timer is armed for its delay from now).**  Whatever the loop did before, adding
a one-shot timer of `ms` milliseconds when the clock reads `now` arms it for `now + ms`; every other
timer is left as it is. -/
theorem c26_oneshot (repeated : Nat → Bool) (period : Nat → Nat) (hp : ∀ i, period i < 2 ^ 63)
    (ops : List Op) (hv : ∀ op ∈ ops, op.valid) (now id ms : Nat) (hr : repeated id = false) :
    armedFor (step (wheelAfter (pumpCfg repeated) period ops) (addOp repeated now id ms)).2 id = some (now + ms) ∧
    ∀ i, i ≠ id →
      armedFor (step (wheelAfter (pumpCfg repeated) period ops) (addOp repeated now id ms)).2 i =
        armedFor (wheelAfter (pumpCfg repeated) period ops) i := by
  obtain ⟨s, h⟩ := sim_after (pumpCfg repeated) period hp ops hv
  generalize wheelAfter (pumpCfg repeated) period ops = t at h ⊢
  obtain ⟨p, q, r⟩ := add_spec h.shape h.timed id (now + ms)
  have e : (step t (addOp repeated now id ms)).2 = add t id (now + ms) := by
    simp [step, addOp, hr]
  rw [e]
  have ha : (t.tm id).isAbs = true := by rw [h.flagA]; simp [pumpCfg, hr]
  refine ⟨?_, fun i hi => ?_⟩
  · unfold armedFor; rw [r.self]; simp [ha]
  · unfold armedFor; rw [r.others i hi]

/-- **C26 violated: a repeating timer is counted from the last clock update of the loop, not from
now.**  If the loop was busy since `cur` (a task that ran for `now - cur` milliseconds), a repeating
timer of `ms` milliseconds added at `now` is armed for `cur + ms`: early by `now - cur`, and at once
if the loop was busy for longer than the period. -/
theorem c26_violation_repeating (repeated : Nat → Bool) (period : Nat → Nat) (hp : ∀ i, period i < 2 ^ 63)
    (ops : List Op) (hv : ∀ op ∈ ops, op.valid) (now id ms : Nat) (hms : ms < 2 ^ 63)
    (hr : repeated id = true) :
    armedFor (step (wheelAfter (pumpCfg repeated) period ops) (addOp repeated now id ms)).2 id =
      some ((wheelAfter (pumpCfg repeated) period ops).cur + ms) := by
  obtain ⟨s, h⟩ := sim_after (pumpCfg repeated) period hp ops hv
  generalize wheelAfter (pumpCfg repeated) period ops = t at h ⊢
  obtain ⟨p, q, r⟩ := add_spec h.shape h.timed id ms
  have e : (step t (addOp repeated now id ms)).2 = add t id ms := by
    simp [step, addOp, hr]
  rw [e]
  have ha : (t.tm id).isAbs = false := by rw [h.flagA]; simp [pumpCfg, hr]
  unfold armedFor
  rw [r.self]
  simp [ha, add64_small h.small hms]

/-- So for every period there is a history in which a repeating timer is delivered in the very
millisecond in which it is added: the loop updates its clock at 1000, runs a task for `ms`
milliseconds, which ends by adding the timer, and delivers it in the pass that follows at once. -/
theorem c26_violation_at_once (ms : Nat) (hms : ms < 2 ^ 62) :
    ∃ k, 7 ∈ (drain k (update (wheelAfter (pumpCfg (fun _ => true)) (fun _ => ms)
      [.update 1000, addOp (fun _ => true) (1000 + ms) 7 ms]) (1000 + ms))).1 := by
  have hv : ∀ op ∈ [Op.update 1000, addOp (fun _ => true) (1000 + ms) 7 ms], op.valid := by
    intro op hop
    simp only [addOp, if_true, List.mem_cons, List.not_mem_nil, or_false] at hop
    rcases hop with rfl | rfl
    · show 1000 < 2 ^ 63; omega
    · show ms < 2 ^ 63; omega
  have hv1 : ∀ op ∈ [Op.update 1000], op.valid := by
    intro op hop
    simp only [List.mem_cons, List.not_mem_nil, or_false] at hop
    subst hop
    show 1000 < 2 ^ 63; omega
  have hpp : ∀ i : Nat, (fun _ : Nat => ms) i < 2 ^ 63 := fun _ => by show ms < 2 ^ 63; omega
  have h1 := c26_violation_repeating (fun _ => true) (fun _ => ms) hpp [.update 1000] hv1 (1000 + ms) 7 ms
    (by omega) rfl
  obtain ⟨s0, h0⟩ := sim_after (pumpCfg (fun _ => true)) (fun _ => ms) hpp [] (by simp)
  have hc1 : (wheelAfter (pumpCfg (fun _ => true)) (fun _ => ms) [.update 1000]).cur = 1000 :=
    (update_spec h0.shape h0.timed h0.small (by omega)).2.2.1
  rw [hc1] at h1
  obtain ⟨k, _, hk, _⟩ := c26_pass (pumpCfg (fun _ => true)) (fun _ => ms) hpp
    [.update 1000, addOp (fun _ => true) (1000 + ms) 7 ms] hv (1000 + ms) (by omega)
  exact ⟨k, (hk 7).2 (Or.inr ⟨_, h1, Nat.le_refl _⟩)⟩

/-- `EventPump::NextTimeout` (event_pump.cc:149-162) after its clock update: how long the loop waits
for input. -/
def nextTimeout (t : T) : Nat :=
  if t.expired ≠ [] then 0
  else if timeoutsPending t then min 50 (timeoutsTimeout t) else 50

/-- **C26 (the loop is awake in time).**  After any history the loop waits at most 50 milliseconds and
never past the deadline of an armed timer, and it does not wait at all exactly if a timer is ready. -/
theorem c26_wait (cfg : Cfg) (period : Nat → Nat) (hp : ∀ i, period i < 2 ^ 63) (ops : List Op)
    (hv : ∀ op ∈ ops, op.valid) (n : Nat) (hn : n < 2 ^ 63) :
    nextTimeout (update (wheelAfter cfg period ops) n) ≤ 50 ∧
    (∀ id d, armedFor (update (wheelAfter cfg period ops) n) id = some d →
      nextTimeout (update (wheelAfter cfg period ops) n) ≤ d - n) ∧
    (nextTimeout (update (wheelAfter cfg period ops) n) = 0 ↔
      (get (update (wheelAfter cfg period ops) n)).1 ≠ none) := by
  have hw : wheelAfter cfg period (ops ++ [.update n]) = update (wheelAfter cfg period ops) n := by
    show after _ _ = _
    rw [after_append]; rfl
  have hv' : ∀ op ∈ ops ++ [.update n], op.valid := by
    intro op hop
    rcases List.mem_append.1 hop with h | h
    · exact hv op h
    · simp only [List.mem_cons, List.not_mem_nil, or_false] at h; subst h; exact hn
  obtain ⟨s0, h0⟩ := sim_after cfg period hp ops hv
  have hc : (update (wheelAfter cfg period ops) n).cur = n :=
    (update_spec h0.shape h0.timed h0.small hn).2.2.1
  obtain ⟨s, h⟩ := sim_after cfg period hp _ hv'
  obtain ⟨a, b, c, d⟩ := c26_sleep cfg period hp (ops ++ [.update n]) hv'
  rw [hw] at a b c d h
  generalize update (wheelAfter cfg period ops) n = t at a b c d h hc ⊢
  rw [ne_eq, get_none] at b ⊢
  unfold nextTimeout
  rw [hc] at a
  by_cases hx : t.expired = []
  · rw [if_neg (by simp [hx])]
    have hpos : timeoutsTimeout t ≠ 0 := fun e => absurd hx (b.1 e)
    refine ⟨?_, ?_, ?_⟩
    · split
      · exact Nat.min_le_left _ _
      · exact Nat.le_refl _
    · intro id dd ha
      have hpend : timeoutsPending t = true := by
        rw [d]
        unfold armedFor at ha
        split at ha
        · simp at ha
        · rename_i hne
          refine ⟨id, hne, fun e => ?_⟩
          have := (h.shape.memExp id).2 ⟨by simp, e⟩
          rw [hx] at this; simp at this
      rw [if_pos hpend]
      exact Nat.le_trans (Nat.min_le_right _ _) (a id dd ha)
    · constructor
      · intro e
        split at e
        · omega
        · omega
      · intro e; exact absurd hx e
  · rw [if_pos hx]
    exact ⟨by omega, fun _ _ _ => by omega, by simp [hx]⟩

/-- Three one-shot timers (far beyond one turn of the top wheel, far, near), one removed, clock jumps
over all of them: exactly the other two are delivered, in one pass. -/
theorem c26_witness :
    (drain 5 (update (wheelAfter (pumpCfg (fun _ => false)) (fun _ => 0)
      [.update 1000, addOp (fun _ => false) 1000 1 20000000, addOp (fun _ => false) 1000 2 5000,
       addOp (fun _ => false) 1000 3 10, .del 2, .update 1009, .get, .update 17000000, .get]) 90000000)).1 = [1] ∧
    (answers (init (fresh (pumpCfg (fun _ => false)) (fun _ => 0)))
      [.update 1000, addOp (fun _ => false) 1000 1 20000000, addOp (fun _ => false) 1000 2 5000,
       addOp (fun _ => false) 1000 3 10, .del 2, .update 1009, .get, .update 17000000, .get, .get]).map Prod.snd =
      [none, none, none, none, none, none, none, none, some 3, none] := by
  constructor <;> decide +kernel

end Ltio.Wheel
