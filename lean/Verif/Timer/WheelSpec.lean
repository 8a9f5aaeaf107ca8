import Verif.Timer.WheelInv

/-
What a set of timers is supposed to do, independently of wheels, and the proof that the timing wheel
does it (C26).
-/
namespace Ltio.Wheel

/-! ### Specification -/

namespace Spec

/-- What the user fixes for each timer: repeating or not, absolute or relative times. -/
structure Cfg where
  isInt : Nat → Bool
  isAbs : Nat → Bool

/-- Timers: the time they were last told, which timers are armed, with their deadline and whether the
deadline has been reached, and the period of the repeating ones. -/
structure St where
  now : Nat
  armed : Nat → Option (Nat × Bool)
  period : Nat → Nat

/-- Operations of a user. -/
inductive Op where
  | add (id timeout : Nat)
  | del (id : Nat)
  | setInterval (id ms : Nat)
  | update (now : Nat)
  | get

/-- Change one entry. -/
def upd {α : Type} (f : Nat → α) (id : Nat) (v : α) : Nat → α := fun i => if i = id then v else f i

/-- The first time `d + k·p` (k ≥ 1) after `now`, for `d` in the past (or `d + p`, if `d` is not). -/
def nextDue (d p now : Nat) : Nat := d + p * ((now - d) / p + 1)

/-- What each operation does, and which answers are allowed. -/
inductive Step (cfg : Cfg) : St → Op → Option Nat → St → Prop where
  /-- arm (or re-arm) a timer -/
  | add (s : St) (id tmo : Nat) :
      Step cfg s (.add id tmo) none
        { s with
          armed := upd s.armed id (some (if cfg.isAbs id then tmo else s.now + tmo,
            decide ((if cfg.isAbs id then tmo else s.now + tmo) ≤ s.now)))
          period := if cfg.isInt id then upd s.period id (max 1 tmo) else s.period }
  /-- disarm a timer -/
  | del (s : St) (id : Nat) : Step cfg s (.del id) none { s with armed := upd s.armed id none }
  | setInterval (s : St) (id ms : Nat) :
      Step cfg s (.setInterval id ms) none { s with period := upd s.period id ms }
  /-- time passes: every armed timer whose deadline is reached is due -/
  | update (s : St) (n : Nat) :
      Step cfg s (.update n) none
        { s with
          now := n
          armed := fun i => (s.armed i).map (fun a => (a.1, a.2 || decide (a.1 ≤ n))) }
  /-- nothing to deliver: only if no timer is due -/
  | nothing (s : St) (h : ∀ i d, s.armed i ≠ some (d, true)) : Step cfg s .get none s
  /-- a due timer is delivered and disarmed -/
  | once (s : St) (id d : Nat) (h : s.armed id = some (d, true))
      (hr : ¬ (cfg.isInt id = true ∧ 0 < s.period id)) :
      Step cfg s .get (some id) { s with armed := upd s.armed id none }
  /-- a due repeating timer is delivered and armed for its next due time -/
  | again (s : St) (id d : Nat) (h : s.armed id = some (d, true))
      (hr : cfg.isInt id = true ∧ 0 < s.period id) :
      Step cfg s .get (some id)
        { s with armed := upd s.armed id (some (nextDue d (s.period id) s.now, false)) }

/-- Histories with their answers. -/
inductive Run (cfg : Cfg) : St → List (Op × Option Nat) → St → Prop where
  | nil (s : St) : Run cfg s [] s
  | cons {s s1 s2 : St} {op : Op} {out : Option Nat} {rest : List (Op × Option Nat)} :
      Step cfg s op out s1 → Run cfg s1 rest s2 → Run cfg s ((op, out) :: rest) s2

/-- At the start no timer is armed. -/
def init (period : Nat → Nat) : St := { now := 0, armed := fun _ => none, period }

/-- Times and periods are below 2^63 milliseconds. -/
def Op.valid : Op → Prop
  | .add _ tmo => tmo < 2 ^ 63
  | .del _ => True
  | .setInterval _ ms => ms < 2 ^ 63
  | .update n => n < 2 ^ 63
  | .get => True

end Spec

open Spec (Op Cfg)

/-- The wheel's answer to an operation. -/
def step (t : T) : Op → Option Nat × T
  | .add id tmo => (none, add t id tmo)
  | .del id => (none, del t id)
  | .setInterval id ms => (none, setInterval t id ms)
  | .update n => (none, update t n)
  | .get => get t

/-- The wheel's answers to a history. -/
def answers (t : T) : List Op → List (Op × Option Nat)
  | [] => []
  | op :: ops => (op, (step t op).1) :: answers (step t op).2 ops

/-- The wheel after a history. -/
def after (t : T) : List Op → T
  | [] => t
  | op :: ops => after (step t op).2 ops

/-! ### Refinement -/

attribute [local irreducible] passed elapsed timeoutWheel timeoutSlot add64 nextExpiry update

/-- What a place means. -/
def abs (tm : Tm) : Option (Nat × Bool) :=
  match tm.place with
  | none => none
  | some .expired => some (tm.expires, true)
  | some (.slot _ _) => some (tm.expires, false)

/-- Wheel and specification agree. -/
structure Sim (cfg : Cfg) (t : T) (s : Spec.St) : Prop where
  shape : Shape t []
  timed : Timed t t.cur
  now : t.cur = s.now
  small : t.cur < 2 ^ 63
  armed : ∀ i, s.armed i = abs (t.tm i)
  period : ∀ i, s.period i = (t.tm i).interval
  flagI : ∀ i, (t.tm i).isInt = cfg.isInt i
  flagA : ∀ i, (t.tm i).isAbs = cfg.isAbs i
  pSmall : ∀ i, (t.tm i).interval < 2 ^ 63
  dSmall : ∀ i, (t.tm i).place = some .expired → (t.tm i).expires < 2 ^ 63

theorem add64_small {a b : Nat} (ha : a < 2 ^ 63) (hb : b < 2 ^ 63) : add64 a b = a + b := by
  unfold add64; exact Nat.mod_eq_of_lt (by omega)

theorem add64_small' {a b : Nat} (h : a + b < 2 ^ 64) : add64 a b = a + b := by
  unfold add64; exact Nat.mod_eq_of_lt h

theorem nextExpiry_eq {cur e p : Nat} (hc : cur < 2 ^ 63) (he : e < 2 ^ 63) (hp : p < 2 ^ 63) (h0 : 0 < p) :
    nextExpiry cur e p = Spec.nextDue e p cur ∧ cur < nextExpiry cur e p := by
  unfold nextExpiry Spec.nextDue
  rw [add64_small he hp]
  have hr : (cur - (e + p)) % p < p := Nat.mod_lt _ h0
  split
  · rename_i hle
    rw [add64_small' (by omega)]
    refine ⟨?_, by omega⟩
    have h1 := Nat.div_add_mod (cur - (e + p)) p
    have h2 : (cur - e) / p = (cur - (e + p)) / p + 1 := by
      rw [show cur - e = cur - (e + p) + p by omega, Nat.add_div_right _ h0]
    rw [h2, Nat.mul_add, Nat.mul_add]
    omega
  · rename_i hgt
    refine ⟨?_, by omega⟩
    have : (cur - e) / p = 0 := Nat.div_eq_of_lt (by omega)
    rw [this]; omega

theorem abs_placeFor (tm : Tm) (cur : Nat) (h : tm.place = some (placeFor cur tm.expires)) :
    abs tm = some (tm.expires, decide (tm.expires ≤ cur)) := by
  unfold abs
  rw [h]
  unfold placeFor
  by_cases hc : cur < tm.expires
  · simp [hc]
  · simp [hc]; omega

/-- One operation: the wheel's answer is allowed. -/
theorem sim_step {cfg : Cfg} {t : T} {s : Spec.St} (h : Sim cfg t s) {op : Op} (hv : op.valid) :
    ∃ s', Spec.Step cfg s op (step t op).1 s' ∧ Sim cfg (step t op).2 s' := by
  cases op with
  | add id tmo =>
    have hv : tmo < 2 ^ 63 := hv
    obtain ⟨p, q, r⟩ := add_spec h.shape h.timed id tmo
    have hd : (if (t.tm id).isAbs then tmo else add64 t.cur tmo) =
        (if cfg.isAbs id then tmo else s.now + tmo) := by
      rw [h.flagA, add64_small h.small hv, h.now]
    rw [hd] at r
    refine ⟨_, .add s id tmo, p, by show Timed _ (add t id tmo).cur; rw [r.cur]; exact q, ?_, ?_, ?_, ?_, ?_, ?_, ?_, ?_⟩
    · show (add t id tmo).cur = _; rw [r.cur]; exact h.now
    · show (add t id tmo).cur < _; rw [r.cur]; exact h.small
    · intro i
      show Spec.upd _ _ _ i = abs ((add t id tmo).tm i)
      unfold Spec.upd
      by_cases hi : i = id
      · subst hi
        rw [if_pos rfl, r.self, abs_placeFor _ t.cur rfl, h.now]
      · rw [if_neg hi, r.others i hi]; exact h.armed i
    · intro i
      show (if cfg.isInt id then Spec.upd s.period id (max 1 tmo) else s.period) i = ((add t id tmo).tm i).interval
      by_cases hi : i = id
      · subst hi
        rw [r.self]
        simp only [h.flagI]
        by_cases hI : cfg.isInt i = true
        · simp [hI, Spec.upd]
        · simp only [hI]; exact h.period i
      · rw [r.others i hi]
        by_cases hI : cfg.isInt id = true
        · simp only [hI, if_true, Spec.upd, hi, if_false]; exact h.period i
        · simp only [hI]; exact h.period i
    · intro i
      show ((add t id tmo).tm i).isInt = _
      by_cases hi : i = id
      · subst hi; rw [r.self]; exact h.flagI i
      · rw [r.others i hi]; exact h.flagI i
    · intro i
      show ((add t id tmo).tm i).isAbs = _
      by_cases hi : i = id
      · subst hi; rw [r.self]; exact h.flagA i
      · rw [r.others i hi]; exact h.flagA i
    · intro i
      show ((add t id tmo).tm i).interval < _
      by_cases hi : i = id
      · subst hi; rw [r.self]
        have := h.pSmall i
        simp only []
        split
        · omega
        · exact this
      · rw [r.others i hi]; exact h.pSmall i
    · intro i
      show ((add t id tmo).tm i).place = _ → ((add t id tmo).tm i).expires < _
      by_cases hi : i = id
      · subst hi; rw [r.self]
        simp only [Option.some.injEq]
        generalize (if cfg.isAbs i = true then tmo else s.now + tmo) = D
        unfold placeFor
        split
        · intro e; simp at e
        · intro _; have := h.small; omega
      · rw [r.others i hi]; exact h.dSmall i
  | del id =>
    obtain ⟨p, q, r⟩ := del_spec h.shape h.timed id
    refine ⟨_, .del s id, p, by show Timed _ (del t id).cur; rw [r.cur]; exact q, ?_, ?_, ?_, ?_, ?_, ?_, ?_, ?_⟩
    · show (del t id).cur = _; rw [r.cur]; exact h.now
    · show (del t id).cur < _; rw [r.cur]; exact h.small
    · intro i
      show Spec.upd _ _ _ i = abs ((del t id).tm i)
      unfold Spec.upd
      by_cases hi : i = id
      · subst hi; rw [if_pos rfl, r.self]; rfl
      · rw [if_neg hi, r.others i hi]; exact h.armed i
    · intro i
      show s.period i = ((del t id).tm i).interval
      by_cases hi : i = id
      · subst hi; rw [r.self]; exact h.period i
      · rw [r.others i hi]; exact h.period i
    · intro i
      show ((del t id).tm i).isInt = _
      by_cases hi : i = id
      · subst hi; rw [r.self]; exact h.flagI i
      · rw [r.others i hi]; exact h.flagI i
    · intro i
      show ((del t id).tm i).isAbs = _
      by_cases hi : i = id
      · subst hi; rw [r.self]; exact h.flagA i
      · rw [r.others i hi]; exact h.flagA i
    · intro i
      show ((del t id).tm i).interval < _
      by_cases hi : i = id
      · subst hi; rw [r.self]; exact h.pSmall i
      · rw [r.others i hi]; exact h.pSmall i
    · intro i
      show ((del t id).tm i).place = _ → ((del t id).tm i).expires < _
      by_cases hi : i = id
      · subst hi; rw [r.self]; intro e; simp at e
      · rw [r.others i hi]; exact h.dSmall i
  | setInterval id ms =>
    have hv : ms < 2 ^ 63 := hv
    obtain ⟨p, q, r⟩ := setInterval_spec h.shape h.timed id ms
    refine ⟨_, .setInterval s id ms, p, q, h.now, h.small, ?_, ?_, ?_, ?_, ?_, ?_⟩
    · intro i
      show s.armed i = abs ((setInterval t id ms).tm i)
      by_cases hi : i = id
      · subst hi; rw [r.self]; exact h.armed i
      · rw [r.others i hi]; exact h.armed i
    · intro i
      show Spec.upd _ _ _ i = ((setInterval t id ms).tm i).interval
      unfold Spec.upd
      by_cases hi : i = id
      · subst hi; rw [if_pos rfl, r.self]
      · rw [if_neg hi, r.others i hi]; exact h.period i
    · intro i
      show ((setInterval t id ms).tm i).isInt = _
      by_cases hi : i = id
      · subst hi; rw [r.self]; exact h.flagI i
      · rw [r.others i hi]; exact h.flagI i
    · intro i
      show ((setInterval t id ms).tm i).isAbs = _
      by_cases hi : i = id
      · subst hi; rw [r.self]; exact h.flagA i
      · rw [r.others i hi]; exact h.flagA i
    · intro i
      show ((setInterval t id ms).tm i).interval < _
      by_cases hi : i = id
      · subst hi; rw [r.self]; exact hv
      · rw [r.others i hi]; exact h.pSmall i
    · intro i
      show ((setInterval t id ms).tm i).place = _ → ((setInterval t id ms).tm i).expires < _
      by_cases hi : i = id
      · subst hi; rw [r.self]; exact h.dSmall i
      · rw [r.others i hi]; exact h.dSmall i
  | update n =>
    have hv : n < 2 ^ 63 := hv
    obtain ⟨p, q, r, u⟩ := update_spec h.shape h.timed h.small hv
    refine ⟨_, .update s n, p, by show Timed _ (update t n).cur; rw [r]; exact q, r, ?_, ?_, ?_, ?_, ?_, ?_, ?_⟩
    · show (update t n).cur < _; rw [r]; exact hv
    · intro i
      show (s.armed i).map _ = abs ((update t n).tm i)
      obtain ⟨pl, e, h1, h2⟩ := u i
      rw [h.armed, e]
      unfold abs
      simp only []
      rcases hp : (t.tm i).place with _ | plc
      · rw [h1.2 hp]; rfl
      · rw [hp] at h1 h2
        have hne : pl ≠ none := fun e => by have := h1.1 e; simp at this
        cases plc with
        | expired => rw [h2.2 (Or.inl rfl)]; simp
        | slot w s' =>
          by_cases hd : (t.tm i).expires ≤ n
          · rw [h2.2 (Or.inr ⟨by simp, hd⟩)]; simp [hd]
          · rcases pl with _ | pl
            · exact absurd rfl hne
            · cases pl with
              | expired =>
                have := h2.1 rfl
                rcases this with e | e
                · simp at e
                · exact absurd e.2 hd
              | slot _ _ => simp [hd]
    · intro i
      show s.period i = ((update t n).tm i).interval
      obtain ⟨pl, e, _, _⟩ := u i
      rw [e]; exact h.period i
    · intro i
      show ((update t n).tm i).isInt = _
      obtain ⟨pl, e, _, _⟩ := u i
      rw [e]; exact h.flagI i
    · intro i
      show ((update t n).tm i).isAbs = _
      obtain ⟨pl, e, _, _⟩ := u i
      rw [e]; exact h.flagA i
    · intro i
      show ((update t n).tm i).interval < _
      obtain ⟨pl, e, _, _⟩ := u i
      rw [e]; exact h.pSmall i
    · intro i
      show ((update t n).tm i).place = _ → ((update t n).tm i).expires < _
      obtain ⟨pl, e, h1, h2⟩ := u i
      rw [e]
      intro hp
      rcases h2.1 hp with e' | e'
      · exact h.dSmall i e'
      · show (t.tm i).expires < _; omega
  | get =>
    simp only [step]
    unfold get
    split
    · rename_i hx
      refine ⟨s, .nothing s ?_, h⟩
      intro i d he
      rw [h.armed] at he
      unfold abs at he
      split at he
      · simp at he
      · rename_i hp
        have := (h.shape.memExp i).2 ⟨by simp, hp⟩
        rw [hx] at this; simp at this
      · simp at he
    · rename_i id rest hx
      have hp : (t.tm id).place = some .expired := ((h.shape.memExp id).1 (by rw [hx]; simp)).2
      have ha : s.armed id = some ((t.tm id).expires, true) := by rw [h.armed]; unfold abs; rw [hp]
      obtain ⟨p, q⟩ := shape_pop h.shape hx h.timed
      have hself : (setNone { t with expired := rest } id).tm id = { t.tm id with place := none } := setTm_same _ _ _
      have hoth : ∀ i, i ≠ id → (setNone { t with expired := rest } id).tm i = t.tm i := fun i hi => setTm_ne _ _ hi
      have hcur : (setNone { t with expired := rest } id).cur = t.cur := rfl
      generalize setNone { t with expired := rest } id = t1 at *
      split
      · rename_i hr
        have hr' : cfg.isInt id = true ∧ 0 < s.period id := by
          rw [h.period, ← h.flagI]; exact hr
        obtain ⟨ne1, ne2⟩ := nextExpiry_eq h.small (h.dSmall id hp) (h.pSmall id) hr.2
        have hid1 : nextExpiry t1.cur (t1.tm id).expires (t1.tm id).interval =
            nextExpiry t.cur (t.tm id).expires (t.tm id).interval := by rw [hself, hcur]
        obtain ⟨p2, q2, r2⟩ := readd_spec p (by rw [hcur]; exact q) (id := id) (by rw [hself])
          (by rw [hid1, hcur]; exact ne2)
        rw [hid1, hcur, hself] at r2
        rw [hcur] at q2
        refine ⟨_, .again s id _ ha hr', p2, ?_, ?_, ?_, ?_, ?_, ?_, ?_, ?_, ?_⟩
        · show Timed _ (readd t1 id).cur; rw [r2.cur, hcur]; exact q2
        · show (readd t1 id).cur = _; rw [r2.cur, hcur]; exact h.now
        · show (readd t1 id).cur < _; rw [r2.cur, hcur]; exact h.small
        · intro i
          show Spec.upd _ _ _ i = abs ((readd t1 id).tm i)
          unfold Spec.upd
          by_cases hi : i = id
          · subst hi
            rw [if_pos rfl, r2.self, abs_placeFor _ t.cur rfl]
            simp only []
            rw [h.period, ← h.now, ← ne1]
            have : ¬ nextExpiry t.cur (t.tm i).expires (t.tm i).interval ≤ t.cur := by omega
            simp [this]
          · rw [if_neg hi, r2.others i hi, hoth i hi]; exact h.armed i
        · intro i
          show s.period i = ((readd t1 id).tm i).interval
          by_cases hi : i = id
          · subst hi; rw [r2.self]; exact h.period i
          · rw [r2.others i hi, hoth i hi]; exact h.period i
        · intro i
          show ((readd t1 id).tm i).isInt = _
          by_cases hi : i = id
          · subst hi; rw [r2.self]; exact h.flagI i
          · rw [r2.others i hi, hoth i hi]; exact h.flagI i
        · intro i
          show ((readd t1 id).tm i).isAbs = _
          by_cases hi : i = id
          · subst hi; rw [r2.self]; exact h.flagA i
          · rw [r2.others i hi, hoth i hi]; exact h.flagA i
        · intro i
          show ((readd t1 id).tm i).interval < _
          by_cases hi : i = id
          · subst hi; rw [r2.self]; exact h.pSmall i
          · rw [r2.others i hi, hoth i hi]; exact h.pSmall i
        · intro i
          show ((readd t1 id).tm i).place = _ → ((readd t1 id).tm i).expires < _
          by_cases hi : i = id
          · subst hi; rw [r2.self]
            simp only [Option.some.injEq]
            unfold placeFor
            rw [if_pos ne2]
            intro e; simp at e
          · rw [r2.others i hi, hoth i hi]; exact h.dSmall i
      · rename_i hr
        have hr' : ¬ (cfg.isInt id = true ∧ 0 < s.period id) := by
          rw [h.period, ← h.flagI]; exact hr
        refine ⟨_, .once s id _ ha hr', p, ?_, ?_, ?_, ?_, ?_, ?_, ?_, ?_, ?_⟩
        · show Timed _ t1.cur; rw [hcur]; exact q
        · show t1.cur = _; rw [hcur]; exact h.now
        · show t1.cur < _; rw [hcur]; exact h.small
        · intro i
          show Spec.upd _ _ _ i = abs (t1.tm i)
          unfold Spec.upd
          by_cases hi : i = id
          · subst hi; rw [if_pos rfl, hself]; rfl
          · rw [if_neg hi, hoth i hi]; exact h.armed i
        · intro i
          show s.period i = (t1.tm i).interval
          by_cases hi : i = id
          · subst hi; rw [hself]; exact h.period i
          · rw [hoth i hi]; exact h.period i
        · intro i
          show (t1.tm i).isInt = _
          by_cases hi : i = id
          · subst hi; rw [hself]; exact h.flagI i
          · rw [hoth i hi]; exact h.flagI i
        · intro i
          show (t1.tm i).isAbs = _
          by_cases hi : i = id
          · subst hi; rw [hself]; exact h.flagA i
          · rw [hoth i hi]; exact h.flagA i
        · intro i
          show (t1.tm i).interval < _
          by_cases hi : i = id
          · subst hi; rw [hself]; exact h.pSmall i
          · rw [hoth i hi]; exact h.pSmall i
        · intro i
          show (t1.tm i).place = _ → (t1.tm i).expires < _
          by_cases hi : i = id
          · subst hi; rw [hself]; intro e; simp at e
          · rw [hoth i hi]; exact h.dSmall i

/-- Fresh timers, as `timeout_init` (timeout.c:639-644) and the constructor of `TimeoutEvent`
(base/message_loop/timeout_event.cc:31-34) leave them. -/
def fresh (cfg : Cfg) (period : Nat → Nat) : Nat → Tm := fun i =>
  { isInt := cfg.isInt i, isAbs := cfg.isAbs i, expires := 0, interval := period i, place := none }

theorem sim_init (cfg : Cfg) (period : Nat → Nat) (hp : ∀ i, period i < 2 ^ 63) :
    Sim cfg (init (fresh cfg period)) (Spec.init period) where
  shape := shape_init _ (fun _ => rfl)
  timed := by intro w s i hm; simp [init] at hm
  now := rfl
  small := by show 0 < _; omega
  armed := fun _ => rfl
  period := fun _ => rfl
  flagI := fun _ => rfl
  flagA := fun _ => rfl
  pSmall := hp
  dSmall := by intro i e; simp [init, fresh] at e

theorem sim_run {cfg : Cfg} : ∀ (ops : List Op) {t : T} {s : Spec.St}, Sim cfg t s → (∀ op ∈ ops, op.valid) →
    ∃ s', Spec.Run cfg s (answers t ops) s' ∧ Sim cfg (after t ops) s' := by
  intro ops
  induction ops with
  | nil => intro t s h _; exact ⟨s, .nil s, h⟩
  | cons op ops ih =>
    intro t s h hv
    obtain ⟨s1, h1, h2⟩ := sim_step h (hv op (by simp))
    obtain ⟨s2, h3, h4⟩ := ih h2 (fun o ho => hv o (by simp [ho]))
    exact ⟨s2, .cons h1 h3, h4⟩

/-- **C26 (the timing wheel is a correct set of timers).**  For every history of arming, disarming,
clock updates – forwards or backwards, by any amount – and deliveries, the wheel's answers are allowed
by the specification: a timer is delivered only if it is armed and a clock update has reached its
deadline, nothing is answered only if no timer is due, and every operation on one timer leaves all
others as they are. -/
theorem c26_refines (cfg : Cfg) (period : Nat → Nat) (hp : ∀ i, period i < 2 ^ 63) (ops : List Op)
    (hv : ∀ op ∈ ops, op.valid) :
    ∃ s, Spec.Run cfg (Spec.init period) (answers (init (fresh cfg period)) ops) s := by
  obtain ⟨s, h, _⟩ := sim_run ops (sim_init cfg period hp) hv
  exact ⟨s, h⟩

/-! ### Consequences in plain terms -/

/-- The wheel after a history from the start. -/
abbrev wheelAfter (cfg : Cfg) (period : Nat → Nat) (ops : List Op) : T := after (init (fresh cfg period)) ops

theorem after_append (t : T) (a b : List Op) : after t (a ++ b) = after (after t a) b := by
  induction a generalizing t with
  | nil => rfl
  | cons op a ih => exact ih _

/-- Deliveries one after the other, `n` times. -/
def deliver : Nat → T → List Nat
  | 0, _ => []
  | n + 1, t => match (get t).1 with
    | none => []
    | some id => id :: deliver n (get t).2

/-- Is the timer armed (`IsAttached`, timeout_event.h:57), and for when. -/
def armedFor (t : T) (id : Nat) : Option Nat := if (t.tm id).place = none then none else some (t.tm id).expires

theorem get_none (t : T) : (get t).1 = none ↔ t.expired = [] := by
  unfold get
  split
  · rename_i hx; simp [hx]
  · rename_i id rest hx
    constructor
    · intro h; split at h <;> simp at h
    · intro h; rw [hx] at h; simp at h

/-- **C26 (never early, never late).**  After any history, right after the clock was set to `n`, the
next timer delivered was armed for a time that a clock update of the history had reached, and nothing
is delivered only if every armed timer is for later. -/
theorem c26_due (cfg : Cfg) (period : Nat → Nat) (hp : ∀ i, period i < 2 ^ 63) (ops : List Op)
    (hv : ∀ op ∈ ops, op.valid) (n : Nat) (hn : n < 2 ^ 63) :
    ((get (update (wheelAfter cfg period ops) n)).1 = none ↔
      (∀ id d, armedFor (update (wheelAfter cfg period ops) n) id = some d → n < d)
        ∧ (update (wheelAfter cfg period ops) n).expired = []) ∧
    (∀ id d, armedFor (update (wheelAfter cfg period ops) n) id = some d → d ≤ n →
      id ∈ (update (wheelAfter cfg period ops) n).expired) ∧
    (update (wheelAfter cfg period ops) n).expired.Nodup := by
  obtain ⟨s, _, h⟩ := sim_run ops (sim_init cfg period hp) hv
  obtain ⟨p, q, r, u⟩ := update_spec h.shape h.timed h.small hn
  rw [get_none]
  have hw : after (init (fresh cfg period)) ops = wheelAfter cfg period ops := rfl
  rw [hw] at p q r u
  generalize update (wheelAfter cfg period ops) n = t' at p q r u ⊢
  have hmem : ∀ id d, armedFor t' id = some d → d ≤ n → id ∈ t'.expired := by
    intro id d ha hd
    obtain ⟨pl, e, h1, h2⟩ := u id
    unfold armedFor at ha
    rw [p.memExp]
    refine ⟨by simp, ?_⟩
    rw [e] at ha ⊢
    simp only [] at ha ⊢
    rw [h2]
    split at ha
    · simp at ha
    · rename_i hne
      simp only [Option.some.injEq] at ha
      exact Or.inr ⟨fun e => hne (h1.2 e), by omega⟩
  refine ⟨?_, hmem, p.ndExp⟩
  constructor
  · intro hx
    refine ⟨fun id d ha => ?_, hx⟩
    by_contra hle
    have := hmem id d ha (by omega)
    rw [hx] at this; simp at this
  · exact fun e => e.2

/-- **C26 (a disarmed timer is not delivered), however late it is disarmed.**  It is in no list. -/
theorem c26_cancelled (cfg : Cfg) (period : Nat → Nat) (hp : ∀ i, period i < 2 ^ 63) (ops : List Op)
    (hv : ∀ op ∈ ops, op.valid) (id : Nat) :
    armedFor (del (wheelAfter cfg period ops) id) id = none ∧
    (get (del (wheelAfter cfg period ops) id)).1 ≠ some id ∧
    ∀ i, i ≠ id → armedFor (del (wheelAfter cfg period ops) id) i = armedFor (wheelAfter cfg period ops) i := by
  obtain ⟨s, _, h⟩ := sim_run ops (sim_init cfg period hp) hv
  obtain ⟨p, q, r⟩ := del_spec h.shape h.timed id
  refine ⟨?_, ?_, ?_⟩
  · unfold armedFor; rw [r.self]; simp
  · unfold get
    split
    · simp
    · rename_i i rest hx
      have hi : i ≠ id := by
        intro e
        subst e
        have := ((p.memExp i).1 (by rw [hx]; simp)).2
        rw [r.self] at this; simp at this
      split <;> simp [hi]
  · intro i hi; unfold armedFor; rw [r.others i hi]

/-- The clock of the history never goes back (`CLOCK_MONOTONIC`, base/time/time_utils.cc:23-28). -/
def Monotone : Nat → List Op → Prop
  | _, [] => True
  | c, .update n :: ops => c ≤ n ∧ Monotone n ops
  | c, _ :: ops => Monotone c ops

theorem early_step {cfg : Cfg} {t : T} {s : Spec.St} (h : Sim cfg t s) {op : Op} (hv : op.valid)
    (hm : ∀ n, op = .update n → t.cur ≤ n)
    (he : ∀ i, (t.tm i).place = some .expired → (t.tm i).expires ≤ t.cur) :
    (∀ i, ((step t op).2.tm i).place = some .expired → ((step t op).2.tm i).expires ≤ (step t op).2.cur) ∧
    ((∀ n, op ≠ .update n) → (step t op).2.cur = t.cur) ∧
    (∀ n, op = .update n → (step t op).2.cur = n) := by
  cases op with
  | add id tmo =>
    obtain ⟨p, q, r⟩ := add_spec h.shape h.timed id tmo
    refine ⟨?_, fun _ => r.cur, fun n e => by simp at e⟩
    intro i
    show ((add t id tmo).tm i).place = _ → ((add t id tmo).tm i).expires ≤ (add t id tmo).cur
    rw [r.cur]
    by_cases hi : i = id
    · subst hi; rw [r.self]
      simp only [Option.some.injEq]
      generalize (if (t.tm i).isAbs = true then tmo else add64 t.cur tmo) = D
      unfold placeFor
      split
      · intro e; simp at e
      · intro _; omega
    · rw [r.others i hi]; exact he i
  | del id =>
    obtain ⟨p, q, r⟩ := del_spec h.shape h.timed id
    refine ⟨?_, fun _ => r.cur, fun n e => by simp at e⟩
    intro i
    show ((del t id).tm i).place = _ → ((del t id).tm i).expires ≤ (del t id).cur
    rw [r.cur]
    by_cases hi : i = id
    · subst hi; rw [r.self]; intro e; simp at e
    · rw [r.others i hi]; exact he i
  | setInterval id ms =>
    obtain ⟨p, q, r⟩ := setInterval_spec h.shape h.timed id ms
    refine ⟨?_, fun _ => r.cur, fun n e => by simp at e⟩
    intro i
    show ((setInterval t id ms).tm i).place = _ → ((setInterval t id ms).tm i).expires ≤ (setInterval t id ms).cur
    rw [r.cur]
    by_cases hi : i = id
    · subst hi; rw [r.self]; exact he i
    · rw [r.others i hi]; exact he i
  | update n =>
    have hv : n < 2 ^ 63 := hv
    have hle := hm n rfl
    obtain ⟨p, q, r, u⟩ := update_spec h.shape h.timed h.small hv
    have hst : (step t (.update n)).2 = update t n := rfl
    rw [hst]
    generalize update t n = t' at p q r u ⊢
    refine ⟨?_, fun hh => absurd rfl (hh n), fun m e => ?_⟩
    · intro i
      obtain ⟨pl, e, h1, h2⟩ := u i
      rw [e, r]
      intro hp
      rcases h2.1 hp with e' | e'
      · have := he i e'
        exact Nat.le_trans this hle
      · exact e'.2
    · simp only [Op.update.injEq] at e
      rw [r, e]
  | get =>
    have hcur : (get t).2.cur = t.cur := by
      unfold get
      split
      · rfl
      · split <;> rfl
    refine ⟨?_, fun _ => hcur, fun n e => by simp at e⟩
    intro i
    show ((get t).2.tm i).place = _ → ((get t).2.tm i).expires ≤ (get t).2.cur
    rw [hcur]
    unfold get
    split
    · exact he i
    · rename_i id rest hx
      have hself : (setNone { t with expired := rest } id).tm id = { t.tm id with place := none } := setTm_same _ _ _
      have hoth : ∀ i, i ≠ id → (setNone { t with expired := rest } id).tm i = t.tm i := fun i hi => setTm_ne _ _ hi
      split
      · intro hp
        by_cases hi : i = id
        · subst hi
          simp [readd, schedFuture, setTm] at hp
        · have e1 : ((readd (setNone { t with expired := rest } id) id).tm i) = t.tm i := by
            simp [readd, schedFuture, setTm, setExpires, setNone, hi]
          simp only [] at hp ⊢
          rw [e1] at hp ⊢
          exact he i hp
      · intro hp
        simp only [] at hp ⊢
        by_cases hi : i = id
        · subst hi; rw [hself] at hp; simp at hp
        · rw [hoth i hi] at hp ⊢; exact he i hp

/-- **C26 (never early).**  With a clock that does not go back, a timer that is delivered was armed for
the current time of the wheel or before. -/
theorem c26_not_early (cfg : Cfg) (period : Nat → Nat) (hp : ∀ i, period i < 2 ^ 63) (ops : List Op)
    (hv : ∀ op ∈ ops, op.valid) (hm : Monotone 0 ops) (id : Nat)
    (hg : (get (wheelAfter cfg period ops)).1 = some id) :
    ∃ d, armedFor (wheelAfter cfg period ops) id = some d ∧ d ≤ (wheelAfter cfg period ops).cur := by
  have key : ∀ (ops : List Op) {t : T} {s : Spec.St}, Sim cfg t s → (∀ op ∈ ops, op.valid) →
      Monotone t.cur ops → (∀ i, (t.tm i).place = some .expired → (t.tm i).expires ≤ t.cur) →
      ∀ i, ((after t ops).tm i).place = some .expired → ((after t ops).tm i).expires ≤ (after t ops).cur := by
    intro ops
    induction ops with
    | nil => intro t s _ _ _ he; exact he
    | cons op ops ih =>
      intro t s h hv hm he
      obtain ⟨s1, _, h2⟩ := sim_step h (hv op (by simp))
      have hmm : ∀ n, op = .update n → t.cur ≤ n := by
        rintro n rfl; exact hm.1
      obtain ⟨e1, e2, e3⟩ := early_step h (hv op (by simp)) hmm he
      refine ih h2 (fun o ho => hv o (by simp [ho])) ?_ e1
      cases op with
      | update n => rw [e3 n rfl]; exact hm.2
      | add _ _ => rw [e2 (by simp)]; exact hm
      | del _ => rw [e2 (by simp)]; exact hm
      | setInterval _ _ => rw [e2 (by simp)]; exact hm
      | get => rw [e2 (by simp)]; exact hm
  obtain ⟨s, _, h⟩ := sim_run ops (sim_init cfg period hp) hv
  have hall := key ops (sim_init cfg period hp) hv hm (by intro i e; simp [init, fresh] at e)
  have hw : after (init (fresh cfg period)) ops = wheelAfter cfg period ops := rfl
  rw [hw] at h hall
  generalize wheelAfter cfg period ops = t at h hall hg ⊢
  have hmem : id ∈ t.expired := by
    unfold get at hg
    split at hg
    · simp at hg
    · rename_i i rest hx
      have : i = id := by split at hg <;> simpa using hg
      rw [hx, this]; simp
  have hpl := ((h.shape.memExp id).1 hmem).2
  exact ⟨(t.tm id).expires, by unfold armedFor; rw [hpl]; simp, hall id hpl⟩

/-! ### How long the loop may sleep -/

/-- `ctz` (bitops.h:14-15), for a non-empty set. -/
def ctz (v : BitVec 64) : Nat := ((List.range 64).find? (fun i => v.getLsbD i)).getD 64

/-- The time until wheel `w` needs attention (timeout.c:446-462). -/
def wheelInt (t : T) (w : Nat) : Nat :=
  ((ctz (rotr (t.mask w) (63 &&& (t.cur >>> (w * wheelBit)))) +
    (if (t.mask w).getLsbD (63 &&& (t.cur >>> (w * wheelBit))) then 1 else 0)) <<< (w * wheelBit))
    - (t.cur % 64 ^ w)

/-- `timeouts_int` (timeout.c:441-471); `relmask` is `64 ^ w - 1`. -/
def timeoutsInt (t : T) : Nat :=
  [0, 1, 2, 3].foldl (fun acc w => if t.mask w = 0#64 then acc else min (wheelInt t w) acc) (2 ^ 64 - 1)

/-- `timeouts_timeout` (timeout.c:477-483). -/
def timeoutsTimeout (t : T) : Nat := if t.expired = [] then timeoutsInt t else 0

/-- `timeouts_pending` (timeout.c:412-419). -/
def timeoutsPending (t : T) : Bool :=
  (t.mask 0 ||| t.mask 1 ||| t.mask 2 ||| t.mask 3) ≠ 0#64

theorem ctz_spec {v : BitVec 64} {j : Nat} (hj : j < 64) (h : v.getLsbD j = true) :
    ctz v ≤ j ∧ v.getLsbD (ctz v) = true := by
  unfold ctz
  rcases hf : (List.range 64).find? (fun i => v.getLsbD i) with _ | k
  · rw [List.find?_eq_none] at hf
    exact absurd h (hf j (List.mem_range.2 hj))
  · have hk := List.find?_some hf
    refine ⟨?_, hk⟩
    rw [Option.getD_some]
    rw [List.find?_range_eq_some] at hf
    by_contra hlt
    have := hf.2.2 j (by omega)
    rw [h] at this; simp at this

theorem wheelInt_bound {t : T} (h : Shape t []) (hT : Timed t t.cur) {w s id : Nat} (hm : id ∈ t.slots w s) :
    wheelInt t w ≤ (t.tm id).expires - t.cur ∧ 0 < wheelInt t w := by
  obtain ⟨h1, h2, _⟩ := hT w s id hm
  have hrg := h.range w s (List.ne_nil_of_mem hm)
  have hbit : (t.mask w).getLsbD s = true := (h.maskOk w s hrg.2).2 (List.ne_nil_of_mem hm)
  unfold wheelInt
  rw [and63, shr, Nat.shiftLeft_eq, show (2 : Nat) ^ (w * wheelBit) = 64 ^ w by rw [Nat.mul_comm, Nat.pow_mul]; rfl]
  have hp : 0 < 64 ^ w := Nat.pow_pos (by omega)
  have hcm := Nat.mod_lt t.cur hp
  have hc1 := Nat.div_add_mod t.cur (64 ^ w)
  have he1 := Nat.div_mul_le_self (t.tm id).expires (64 ^ w)
  have hsl : t.cur / 64 ^ w % 64 < 64 := Nat.mod_lt _ (by omega)
  -- k steps of this wheel are enough, k as found
  have key : ∀ k, 1 ≤ k → k ≤ (t.tm id).expires / 64 ^ w - t.cur / 64 ^ w →
      k * 64 ^ w - t.cur % 64 ^ w ≤ (t.tm id).expires - t.cur ∧ 0 < k * 64 ^ w - t.cur % 64 ^ w := by
    intro k hk1 hk
    have a1 : (k + t.cur / 64 ^ w) * 64 ^ w ≤ (t.tm id).expires / 64 ^ w * 64 ^ w :=
      Nat.mul_le_mul_right _ (by omega)
    have a2 : 1 * 64 ^ w ≤ k * 64 ^ w := Nat.mul_le_mul_right _ hk1
    rw [Nat.add_mul] at a1
    rw [Nat.mul_comm (64 ^ w)] at hc1
    omega
  by_cases hb : (t.mask w).getLsbD (t.cur / 64 ^ w % 64) = true
  · have h0 : (rotr (t.mask w) (t.cur / 64 ^ w % 64)).getLsbD 0 = true := by
      rw [getLsbD_rotr _ _ _ (by omega)]
      rw [Nat.zero_add, Nat.mod_mod]; exact hb
    have hz := (ctz_spec (by omega) h0).1
    rw [if_pos hb, show ctz (rotr (t.mask w) (t.cur / 64 ^ w % 64)) = 0 by omega, Nat.zero_add]
    exact key 1 (by omega) (by omega)
  · rw [if_neg hb, Nat.add_zero]
    have hj : (rotr (t.mask w) (t.cur / 64 ^ w % 64)).getLsbD ((s + 64 - t.cur / 64 ^ w % 64) % 64) = true := by
      rw [getLsbD_rotr _ _ _ (Nat.mod_lt _ (by omega))]
      have : ((s + 64 - t.cur / 64 ^ w % 64) % 64 + t.cur / 64 ^ w % 64) % 64 = s := by
        have := hrg.2; omega
      rw [this]; exact hbit
    obtain ⟨c1, c2⟩ := ctz_spec (Nat.mod_lt _ (by omega)) hj
    apply key
    · by_contra h0
      have h0 : ctz (rotr (t.mask w) (t.cur / 64 ^ w % 64)) = 0 := by omega
      rw [h0, getLsbD_rotr _ _ _ (by omega), Nat.zero_add, Nat.mod_mod] at c2
      exact hb c2
    · refine Nat.le_trans c1 ?_
      rw [h1]
      omega

theorem mask_ne_zero {t : T} (h : Shape t []) {w : Nat} : t.mask w ≠ 0#64 ↔ ∃ s, t.slots w s ≠ [] := by
  constructor
  · intro hne
    by_contra hall
    apply hne
    apply BitVec.eq_of_getLsbD_eq
    intro i hi
    rw [BitVec.getLsbD_zero]
    rcases hb : (t.mask w).getLsbD i with _ | _
    · rfl
    · exact absurd ⟨i, (h.maskOk w i hi).1 hb⟩ hall
  · rintro ⟨s, hs⟩ e
    have := (h.maskOk w s (h.range w s hs).2).2 hs
    rw [e, BitVec.getLsbD_zero] at this; simp at this

/-- **C26 (the loop never oversleeps).**  The time the wheel asks to be called again is positive and
not after the deadline of any waiting timer; it is zero if a timer is ready for delivery; and it is
the largest possible value if no timer is armed.  It reports a waiting timer exactly if there is
one. -/
theorem c26_sleep (cfg : Cfg) (period : Nat → Nat) (hp : ∀ i, period i < 2 ^ 63) (ops : List Op)
    (hv : ∀ op ∈ ops, op.valid) :
    (∀ id d, armedFor (wheelAfter cfg period ops) id = some d →
      timeoutsTimeout (wheelAfter cfg period ops) ≤ d - (wheelAfter cfg period ops).cur) ∧
    (timeoutsTimeout (wheelAfter cfg period ops) = 0 ↔ (get (wheelAfter cfg period ops)).1 ≠ none) ∧
    ((∀ id, armedFor (wheelAfter cfg period ops) id = none) →
      timeoutsTimeout (wheelAfter cfg period ops) = 2 ^ 64 - 1) ∧
    (timeoutsPending (wheelAfter cfg period ops) = true ↔
      ∃ id, ((wheelAfter cfg period ops).tm id).place ≠ none ∧
        ((wheelAfter cfg period ops).tm id).place ≠ some .expired) := by
  obtain ⟨s, _, h⟩ := sim_run ops (sim_init cfg period hp) hv
  have hw : after (init (fresh cfg period)) ops = wheelAfter cfg period ops := rfl
  rw [hw] at h
  generalize wheelAfter cfg period ops = t at h ⊢
  have hS := h.shape
  have hT := h.timed
  have hpos : 0 < timeoutsInt t := by
    have hw : ∀ w, t.mask w ≠ 0#64 → 0 < wheelInt t w := by
      intro w hne
      obtain ⟨s, hs⟩ := (mask_ne_zero hS).1 hne
      obtain ⟨id, hid⟩ := List.exists_mem_of_ne_nil _ hs
      exact (wheelInt_bound hS hT hid).2
    have : ∀ (ws : List Nat) acc, 0 < acc →
        0 < ws.foldl (fun acc w => if t.mask w = 0#64 then acc else min (wheelInt t w) acc) acc := by
      intro ws
      induction ws with
      | nil => intro acc ha; exact ha
      | cons w ws ih =>
        intro acc ha
        simp only [List.foldl_cons]
        apply ih
        split
        · exact ha
        · rename_i hne; have := hw w hne; omega
    exact this _ _ (by omega)
  have hle : ∀ w, w < 4 → t.mask w ≠ 0#64 → timeoutsInt t ≤ wheelInt t w := by
    intro w hw hne
    have mono : ∀ (ws : List Nat) acc,
        ws.foldl (fun acc w => if t.mask w = 0#64 then acc else min (wheelInt t w) acc) acc ≤ acc := by
      intro ws
      induction ws with
      | nil => intro acc; exact Nat.le_refl _
      | cons v ws ih =>
        intro acc
        simp only [List.foldl_cons]
        refine Nat.le_trans (ih _) ?_
        split
        · exact Nat.le_refl _
        · exact Nat.min_le_right _ _
    have : ∀ (ws : List Nat) acc, w ∈ ws →
        ws.foldl (fun acc w => if t.mask w = 0#64 then acc else min (wheelInt t w) acc) acc ≤ wheelInt t w := by
      intro ws
      induction ws with
      | nil => intro acc hm; simp at hm
      | cons v ws ih =>
        intro acc hm
        simp only [List.foldl_cons]
        by_cases he : w = v
        · subst he
          rw [if_neg hne]
          exact Nat.le_trans (mono _ _) (Nat.min_le_left _ _)
        · exact ih _ (by rcases List.mem_cons.1 hm with e | e; exact absurd e he; exact e)
    refine this _ _ ?_
    have h4 : w = 0 ∨ w = 1 ∨ w = 2 ∨ w = 3 := by omega
    rcases h4 with rfl | rfl | rfl | rfl <;> simp
  have hg : (get t).1 ≠ none ↔ t.expired ≠ [] := by rw [ne_eq, get_none]
  refine ⟨?_, ?_, ?_, ?_⟩
  · intro id d ha
    unfold armedFor at ha
    split at ha
    · simp at ha
    · rename_i hne
      simp only [Option.some.injEq] at ha
      unfold timeoutsTimeout
      rcases hpl : (t.tm id).place with _ | pl
      · exact absurd hpl hne
      · cases pl with
        | expired =>
          have := (hS.memExp id).2 ⟨by simp, hpl⟩
          rw [if_neg (List.ne_nil_of_mem this)]; omega
        | slot w s =>
          have hm := (hS.memSlot w s id).2 ⟨by simp, hpl⟩
          have hnn := List.ne_nil_of_mem hm
          split
          · rw [← ha]
            exact Nat.le_trans (hle w (hS.range w s hnn).1 ((mask_ne_zero hS).2 ⟨s, hnn⟩))
              (wheelInt_bound hS hT hm).1
          · omega
  · rw [hg]
    unfold timeoutsTimeout
    split
    · rename_i hx; simp [hx]; omega
    · rename_i hx; simp [hx]
  · intro hall
    have he : t.expired = [] := by
      by_contra hne
      obtain ⟨id, hid⟩ := List.exists_mem_of_ne_nil _ hne
      have := hall id
      unfold armedFor at this
      rw [((hS.memExp id).1 hid).2] at this; simp at this
    have hm0 : ∀ w, t.mask w = 0#64 := by
      intro w
      by_contra hne
      obtain ⟨s, hs⟩ := (mask_ne_zero hS).1 hne
      obtain ⟨id, hid⟩ := List.exists_mem_of_ne_nil _ hs
      have := hall id
      unfold armedFor at this
      rw [((hS.memSlot _ _ id).1 hid).2] at this; simp at this
    unfold timeoutsTimeout timeoutsInt
    simp [he, hm0]
  · have hor : timeoutsPending t = true ↔ ∃ w, w < 4 ∧ t.mask w ≠ 0#64 := by
      unfold timeoutsPending
      rw [decide_eq_true_eq]
      constructor
      · intro hne
        by_contra hall
        have hz : ∀ w, w < 4 → t.mask w = 0#64 := fun w hw => by
          by_contra hh; exact hall ⟨w, hw, hh⟩
        apply hne
        rw [hz 0 (by omega), hz 1 (by omega), hz 2 (by omega), hz 3 (by omega)]
        rfl
      · rintro ⟨w, hw, hne⟩ e
        apply hne
        have h4 : w = 0 ∨ w = 1 ∨ w = 2 ∨ w = 3 := by omega
        apply BitVec.eq_of_getLsbD_eq
        intro i hi
        have := congrArg (fun v => BitVec.getLsbD v i) e
        simp only [BitVec.getLsbD_or, BitVec.getLsbD_zero, Bool.or_eq_false_iff] at this
        rw [BitVec.getLsbD_zero]
        rcases h4 with rfl | rfl | rfl | rfl
        · exact this.1.1.1
        · exact this.1.1.2
        · exact this.1.2
        · exact this.2
    rw [hor]
    constructor
    · rintro ⟨w, _, hne⟩
      obtain ⟨s, hs⟩ := (mask_ne_zero hS).1 hne
      obtain ⟨id, hid⟩ := List.exists_mem_of_ne_nil _ hs
      have := ((hS.memSlot _ _ id).1 hid).2
      exact ⟨id, by rw [this]; simp, by rw [this]; simp⟩
    · rintro ⟨id, h1, h2⟩
      rcases hpl : (t.tm id).place with _ | pl
      · exact absurd hpl h1
      · cases pl with
        | expired => exact absurd hpl h2
        | slot w s =>
          have hm := (hS.memSlot w s id).2 ⟨by simp, hpl⟩
          have hnn := List.ne_nil_of_mem hm
          exact ⟨w, (hS.range w s hnn).1, (mask_ne_zero hS).2 ⟨s, hnn⟩⟩

end Ltio.Wheel
