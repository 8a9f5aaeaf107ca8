import Verif.Client.Connector

/-
Model of the connection management and channel selection of net_io/clients/client.cc, and C38.

The work loop serialises everything here.  Dials are tokens: queued (`PostTask`), delayed
(`PostDelayTask`) or in progress in the connector; `count` is the connector's reported number of
dials in progress with the update points shown in `Ltio.Connector` (C52).
-/
namespace Ltio.Pool

/-- The client (client.h:156-197) and its dials. -/
structure St where
  /-- `config_.connections` -/
  required : Nat
  /-- `channels_` (its size is `channels_count_`) -/
  connected : Nat
  stopping : Bool
  /-- the client object is destroyed -/
  gone : Bool
  queued : Nat
  delayed : Nat
  inprog : Nat
  /-- `connector_->InprocessCount()` -/
  count : Nat
  /-- `next_reconnect_interval_`, a `uint32_t`, not initialised by the constructor -/
  interval : Nat
  /-- delays used so far (ghost) -/
  delays : List Nat
  /-- a dial called back a destroyed client (ghost) -/
  dangling : Bool

/-- `kConnetBatchCount` (client.cc:47). -/
def batch : Nat := 10

/-- `kMaxReconInterval` (client.cc:48). -/
def maxInterval : Nat := 10000

/-- After `Initialize` (client.cc:74-84); `garbage` is what `next_reconnect_interval_` happens to
hold. -/
def init (required garbage : Nat) : St :=
  { required, connected := 0, stopping := false, gone := false, queued := min batch required,
    delayed := 0, inprog := 0, count := 0, interval := garbage % 2 ^ 32, delays := [], dangling := false }

/-- `next_reconnect_interval_ += 10`. -/
def bump (n : Nat) : Nat := (n + 10) % 2 ^ 32

/-- `OnConnectFailed` (client.cc:104-125). -/
def onFailed (s : St) : St :=
  if s.gone then { s with dangling := true }
  else if s.stopping = true ∨ s.required ≤ s.connected then s
  else if batch < s.count then { s with interval := bump s.interval }
  else { s with interval := bump s.interval, delayed := s.delayed + 1,
                delays := min (bump s.interval) maxInterval :: s.delays }

/-- `launch_next_if_need` (client.cc:139-149). -/
def launch (s : St) : St :=
  if s.stopping = true ∨ s.required ≤ s.connected + s.count then s
  else { s with queued := s.queued + 1 }

/-- `OnConnected` (client.cc:167-210). -/
def onConnected (s : St) : St :=
  if s.gone then { s with dangling := true }
  else launch { s with interval := 0, connected := s.connected + 1 }

/-- `Connector::Dial` with the three ways it can go (see `Ltio.Connector.dial`). -/
def dial (s : St) : Connector.AtOnce → St
  | .connected => onConnected s
  | .pending => { s with inprog := s.inprog + 1 }
  | .failed => onFailed s

/-- How a dial in progress ends (C52): `HandleError` tells the client, then updates the count;
`HandleWrite` does not update it. -/
inductive EndBy where
  | error
  | writeFailed
  | writeOk

/-- The end of a dial in progress. -/
def endDial (s : St) : EndBy → St
  | .error => { onFailed s with inprog := s.inprog - 1, count := s.inprog - 1 }
  | .writeFailed => onFailed { s with inprog := s.inprog - 1 }
  | .writeOk => onConnected { s with inprog := s.inprog - 1 }

/-- What can happen. -/
inductive Lab where
  | runQueued (r : Connector.AtOnce)
  | runDelayed (r : Connector.AtOnce)
  | endDial (e : EndBy)
  /-- a channel is closed by the peer: `OnClientChannelClosed` (client.cc:226-254) -/
  | close
  /-- `Finalize` (client.cc:86-102) and the posted `Connector::Stop` -/
  | finalize
  /-- `~Client` (client.cc:66-69), which finalizes -/
  | destroy

/-- `Finalize`. -/
def finalize (s : St) : St :=
  if s.stopping then s else { s with stopping := true, inprog := 0, count := 0 }

/-- One step. -/
def step (s : St) : Lab → Option St
  | .runQueued r => if 0 < s.queued then some (dial { s with queued := s.queued - 1 } r) else none
  | .runDelayed r => if 0 < s.delayed then some (dial { s with delayed := s.delayed - 1 } r) else none
  | .endDial e => if 0 < s.inprog then some (endDial s e) else none
  | .close =>
    if 0 < s.connected ∧ s.gone = false then some (launch { s with connected := s.connected - 1 }) else none
  | .finalize => if s.gone then none else some (finalize s)
  | .destroy => if s.gone then none else some { finalize s with gone := true }

/-- A schedule. -/
def runLabs (s : St) : List Lab → Option St
  | [] => some s
  | l :: ls => (step s l).bind (fun s' => runLabs s' ls)

/-- Executions of a client with the given configuration in which every label satisfies `ok`. -/
inductive Reach (required : Nat) (ok : Lab → Prop) : St → Prop where
  | init (g : Nat) : Reach required ok (init required g)
  | step {s s' : St} (l : Lab) : Reach required ok s → ok l → step s l = some s' → Reach required ok s'

/-- All dials under way. -/
abbrev dials (s : St) : Nat := s.queued + s.delayed + s.inprog

theorem reach_run {n : Nat} {ok : Lab → Prop} {s : St} (h : Reach n ok s) :
    ∀ (ls : List Lab) {s' : St}, (∀ l ∈ ls, ok l) → runLabs s ls = some s' → Reach n ok s' := by
  intro ls
  induction ls generalizing s with
  | nil => intro s' _ hs; simp only [runLabs, Option.some.injEq] at hs; exact hs ▸ h
  | cons l ls ih =>
    intro s' hok hs
    simp only [runLabs, Option.bind_eq_some_iff] at hs
    obtain ⟨s1, h1, h2⟩ := hs
    exact ih (.step l h (hok l (by simp)) h1) (fun l' hl' => hok l' (by simp [hl'])) h2

/-! ### Back-off -/

theorem onFailed_interval (s : St) (hg : s.gone = false) (hst : s.stopping = false)
    (hr : s.connected < s.required) : (onFailed s).interval = bump s.interval := by
  unfold onFailed
  rw [hg]
  simp only [Bool.false_eq_true, if_false]
  rw [if_neg (by rw [hst]; simp; omega)]
  split <;> rfl

theorem delays_cases (s : St) : (onFailed s).delays = s.delays ∨
    (onFailed s).delays = min (bump s.interval) maxInterval :: s.delays := by
  unfold onFailed
  repeat' split
  all_goals first | exact Or.inl rfl | exact Or.inr rfl

theorem launch_delays (s : St) : (launch s).delays = s.delays := by unfold launch; split <;> rfl

theorem onConnected_delays (s : St) : (onConnected s).delays = s.delays := by
  unfold onConnected; split
  · rfl
  · rw [launch_delays]

/-- **C38 (bounded back-off).**  Every delay before a repeated dial is at most ten seconds, whatever
happens. -/
theorem c38_backoff_bound {n : Nat} {ok : Lab → Prop} {s : St} (h : Reach n ok s) :
    ∀ d ∈ s.delays, d ≤ 10000 := by
  have hf : ∀ s : St, (∀ d ∈ s.delays, d ≤ 10000) → ∀ d ∈ (onFailed s).delays, d ≤ 10000 := by
    intro s hs d hd
    rcases delays_cases s with e | e
    · exact hs d (e ▸ hd)
    · rw [e] at hd
      rcases List.mem_cons.1 hd with rfl | hd
      · exact Nat.min_le_right _ _
      · exact hs d hd
  have hdial : ∀ (s : St) r, (∀ d ∈ s.delays, d ≤ 10000) → ∀ d ∈ (dial s r).delays, d ≤ 10000 := by
    intro s r hs
    cases r with
    | connected => simp only [dial, onConnected_delays]; exact hs
    | pending => exact hs
    | failed => exact hf s hs
  induction h with
  | init g => simp [init]
  | @step s s' l _ _ hs ih =>
    cases l with
    | runQueued r =>
      simp only [step] at hs; split at hs
      · simp only [Option.some.injEq] at hs; subst hs; exact hdial _ r ih
      · simp at hs
    | runDelayed r =>
      simp only [step] at hs; split at hs
      · simp only [Option.some.injEq] at hs; subst hs; exact hdial _ r ih
      · simp at hs
    | endDial e =>
      simp only [step] at hs; split at hs
      · simp only [Option.some.injEq] at hs; subst hs
        cases e with
        | error => exact hf s ih
        | writeFailed => exact hf _ ih
        | writeOk => simp only [endDial, onConnected_delays]; exact ih
      · simp at hs
    | close =>
      simp only [step] at hs; split at hs
      · simp only [Option.some.injEq] at hs; subst hs; rw [launch_delays]; exact ih
      · simp at hs
    | finalize =>
      simp only [step] at hs; split at hs
      · simp at hs
      · simp only [Option.some.injEq] at hs; subst hs
        unfold finalize; split <;> exact ih
    | destroy =>
      simp only [step] at hs; split at hs
      · simp at hs
      · simp only [Option.some.injEq] at hs; subst hs
        unfold finalize; split <;> exact ih

/-- `k` failed dials in a row. -/
def failures (s : St) : Nat → St
  | 0 => s
  | k + 1 => onFailed { (failures s k) with delayed := (failures s k).delayed - 1 }

/-- **C38 (linear back-off).**  After a success, the k-th failure in a row is retried after
min(10k, 10000) milliseconds. -/
theorem c38_backoff_linear (s : St) (hg : s.gone = false) (hst : s.stopping = false)
    (hr : s.connected < s.required) (hc : s.count ≤ batch) (hi : s.interval = 0) (k : Nat)
    (hk : 10 * (k + 1) < 2 ^ 32) :
    (failures s (k + 1)).delays.head? = some (min (10 * (k + 1)) 10000) := by
  have inv : ∀ j, 10 * j < 2 ^ 32 → (failures s j).gone = false ∧ (failures s j).stopping = false ∧
      (failures s j).connected = s.connected ∧ (failures s j).required = s.required ∧
      (failures s j).count = s.count ∧ (failures s j).interval = 10 * j := by
    intro j
    induction j with
    | zero => intro _; exact ⟨hg, hst, rfl, rfl, rfl, by simpa [failures] using hi⟩
    | succ j ih =>
      intro hj
      obtain ⟨a, b, c, d, e, f⟩ := ih (by omega)
      simp only [failures, onFailed, a, Bool.false_eq_true, if_false]
      rw [if_neg (by rw [b, c, d]; simp; omega), if_neg (by rw [e]; omega)]
      refine ⟨rfl, b, c, d, e, ?_⟩
      show bump (failures s j).interval = _
      unfold bump; rw [f]; omega
  obtain ⟨a, b, c, d, e, f⟩ := inv k (by omega)
  simp only [failures, onFailed, a, Bool.false_eq_true, if_false]
  rw [if_neg (by rw [b, c, d]; simp; omega), if_neg (by rw [e]; omega)]
  show some (min (bump (failures s k).interval) maxInterval) = _
  unfold bump maxInterval
  rw [f]
  congr 2
  omega

/-! ### How many connections -/

/-- **C38 (a client of one connection has at most one), for every interleaving.** -/
theorem c38_single {ok : Lab → Prop} {s : St} (h : Reach 1 ok s) : s.connected + dials s ≤ 1 := by
  have key : s.required = 1 ∧ s.connected + dials s ≤ 1 := by
    have hf : ∀ s : St, s.required = 1 ∧ s.connected + dials s ≤ 0 →
        (onFailed s).required = 1 ∧ (onFailed s).connected + dials (onFailed s) ≤ 1 := by
      rintro s ⟨h1, h2⟩
      unfold onFailed
      simp only [dials] at *
      repeat' split
      all_goals exact ⟨h1, by first | omega | (simp only []; omega)⟩
    have hl : ∀ s : St, s.required = 1 ∧ s.connected + dials s ≤ 1 →
        (s.connected = 1 ∨ s.connected + dials s ≤ 0) →
        (launch s).required = 1 ∧ (launch s).connected + dials (launch s) ≤ 1 := by
      rintro s ⟨h1, h2⟩ h3
      unfold launch
      simp only [dials] at *
      split
      · exact ⟨h1, h2⟩
      · rename_i hn
        simp only [not_or] at hn
        exact ⟨h1, by first | omega | (simp only []; omega)⟩
    have hc : ∀ s : St, s.required = 1 ∧ s.connected + dials s ≤ 0 →
        (onConnected s).required = 1 ∧ (onConnected s).connected + dials (onConnected s) ≤ 1 := by
      rintro s ⟨h1, h2⟩
      unfold onConnected
      split
      · exact ⟨h1, by simp only [dials] at *; omega⟩
      · apply hl
        · exact ⟨h1, by simp only [dials] at *; omega⟩
        · left; simp only [dials] at *; omega
    have hd : ∀ (s : St) r, s.required = 1 ∧ s.connected + dials s ≤ 0 →
        (dial s r).required = 1 ∧ (dial s r).connected + dials (dial s r) ≤ 1 := by
      intro s r hs
      cases r with
      | connected => exact hc s hs
      | pending => exact ⟨hs.1, by have := hs.2; simp only [dial, dials] at *; omega⟩
      | failed => exact hf s hs
    induction h with
    | init g => exact ⟨rfl, by simp [init, dials, batch]⟩
    | @step s s' l _ _ hs ih =>
      obtain ⟨i1, i2⟩ := ih
      cases l with
      | runQueued r =>
        simp only [step] at hs; split at hs
        · simp only [Option.some.injEq] at hs; subst hs
          exact hd _ r ⟨i1, by simp only [dials] at *; omega⟩
        · simp at hs
      | runDelayed r =>
        simp only [step] at hs; split at hs
        · simp only [Option.some.injEq] at hs; subst hs
          exact hd _ r ⟨i1, by simp only [dials] at *; omega⟩
        · simp at hs
      | endDial e =>
        simp only [step] at hs; split at hs
        · rename_i hpos
          simp only [Option.some.injEq] at hs; subst hs
          have hpre : ({ s with inprog := s.inprog - 1 } : St).required = 1 ∧
              ({ s with inprog := s.inprog - 1 } : St).connected + dials { s with inprog := s.inprog - 1 } ≤ 0 :=
            ⟨i1, by simp only [dials] at *; omega⟩
          cases e with
          | error =>
            unfold endDial onFailed
            simp only [dials] at *
            repeat' split
            all_goals exact ⟨i1, by first | omega | (simp only []; omega)⟩
          | writeFailed => exact hf _ hpre
          | writeOk => exact hc _ hpre
        · simp at hs
      | close =>
        simp only [step] at hs; split at hs
        · rename_i hpos
          simp only [Option.some.injEq] at hs; subst hs
          apply hl
          · exact ⟨i1, by simp only [dials] at *; omega⟩
          · right; simp only [dials] at *; omega
        · simp at hs
      | finalize =>
        simp only [step] at hs; split at hs
        · simp at hs
        · simp only [Option.some.injEq] at hs; subst hs
          unfold finalize; split
          · exact ⟨i1, i2⟩
          · exact ⟨i1, by simp only [dials] at *; omega⟩
      | destroy =>
        simp only [step] at hs; split at hs
        · simp at hs
        · simp only [Option.some.injEq] at hs; subst hs
          unfold finalize; split
          · exact ⟨i1, i2⟩
          · exact ⟨i1, by simp only [dials] at *; omega⟩
  exact key.2

/-- The dials of the start-up connect at once, one after the other. -/
def allConnect (k : Nat) : List Lab := List.replicate k (.runQueued .connected)

/-- **C38 violated: more connections than configured.**  If every dial connects at once, a client
configured for `n` connections opens `min(10, n) + n - 1` of them: 19 instead of 10. -/
theorem c38_violation_too_many (n g : Nat) (hn : 0 < n) :
    ∃ s, Reach n (fun _ => True) s ∧ s.required = n ∧ s.connected = min 10 n + n - 1 ∧ dials s = 0 := by
  -- the first n - 1 successes each launch another dial, the rest do not
  have phase1 : ∀ (k : Nat) (s : St), s.stopping = false → s.gone = false → s.count = 0 → s.required = n →
      s.delayed = 0 → s.inprog = 0 → 0 < s.queued → s.connected + k < n →
      ∃ s', runLabs s (allConnect k) = some s' ∧ s'.stopping = false ∧ s'.gone = false ∧ s'.count = 0 ∧
        s'.required = n ∧ s'.delayed = 0 ∧ s'.inprog = 0 ∧ s'.queued = s.queued ∧ s'.connected = s.connected + k := by
    intro k
    induction k with
    | zero => intro s a b c d e f _ _; exact ⟨s, rfl, a, b, c, d, e, f, rfl, rfl⟩
    | succ k ih =>
      intro s a b c d e f g0 hk
      let s1 : St := { s with interval := 0, connected := s.connected + 1, queued := s.queued - 1 + 1 }
      have hs : step s (.runQueued .connected) = some s1 := by
        simp only [step, g0, if_true, dial, onConnected, b, Bool.false_eq_true, if_false, launch]
        rw [if_neg (by simp only [a, d, c]; simp; omega)]
        simp only [s1, b]
      obtain ⟨s', h1, h2, h3, h4, h5, h6, h7, h8, h9⟩ := ih s1 a b c d e f (by simp [s1]) (by
        show s.connected + 1 + k < n; omega)
      refine ⟨s', ?_, h2, h3, h4, h5, h6, h7, by rw [h8]; show s.queued - 1 + 1 = s.queued; omega,
        by rw [h9]; show s.connected + 1 + k = _; omega⟩
      show (step s (.runQueued .connected)).bind _ = _
      rw [hs]; exact h1
  have phase2 : ∀ (k : Nat) (s : St), s.stopping = false → s.gone = false → s.count = 0 → s.required = n →
      s.delayed = 0 → s.inprog = 0 → s.queued = k → n ≤ s.connected + 1 →
      ∃ s', runLabs s (allConnect k) = some s' ∧ s'.required = n ∧ s'.connected = s.connected + k ∧ dials s' = 0 := by
    intro k
    induction k with
    | zero => intro s _ _ _ d e f g0 _; exact ⟨s, rfl, d, rfl, by simp [dials, e, f, g0]⟩
    | succ k ih =>
      intro s a b c d e f g0 hk
      let s1 : St := { s with interval := 0, connected := s.connected + 1, queued := s.queued - 1 }
      have hs : step s (.runQueued .connected) = some s1 := by
        have : 0 < s.queued := by omega
        simp only [step, this, if_true, dial, onConnected, b, Bool.false_eq_true, if_false, launch]
        rw [if_pos (by right; simp only [d, c]; omega)]
        simp only [s1, b]
      obtain ⟨s', h1, h2, h3, h4⟩ := ih s1 a b c d e f (by show s.queued - 1 = k; omega)
        (by show n ≤ s.connected + 1 + 1; omega)
      refine ⟨s', ?_, h2, by rw [h3]; show s.connected + 1 + k = _; omega, h4⟩
      show (step s (.runQueued .connected)).bind _ = _
      rw [hs]; exact h1
  obtain ⟨s1, a0, a1, a2, a3, a4, a5, a6, a7, a8⟩ := phase1 (n - 1) (init n g) rfl rfl rfl rfl rfl rfl
    (by simp [init, batch]; omega) (by simp [init]; omega)
  obtain ⟨s2, b0, b1, b2, b3⟩ := phase2 (min 10 n) s1 a1 a2 a3 a4 a5 a6 (by rw [a7]; rfl)
    (by rw [a8]; simp [init]; omega)
  refine ⟨s2, reach_run (reach_run (.init g) _ (by simp) a0) _ (by simp) b0, b1, ?_, b3⟩
  rw [b2, a8]
  simp only [init]
  omega

/-- A connection comes up and breaks, `k` times. -/
def flap : Nat → List Lab
  | 0 => []
  | k + 1 => .runQueued .connected :: .close :: flap k

/-- **C38 violated: no bound at all.**  With two configured connections, each time one comes up and
breaks again a dial is added: for every `m` there is an execution with `m` connections. -/
theorem c38_violation_unbounded (m : Nat) :
    ∃ s, Reach 2 (fun _ => True) s ∧ s.required = 2 ∧ m ≤ s.connected := by
  have fl : ∀ (k : Nat) (s : St), s.stopping = false → s.gone = false → s.count = 0 → s.required = 2 →
      s.connected = 0 → 0 < s.queued →
      ∃ s', runLabs s (flap k) = some s' ∧ s'.stopping = false ∧ s'.gone = false ∧ s'.count = 0 ∧
        s'.required = 2 ∧ s'.connected = 0 ∧ s'.queued = s.queued + k := by
    intro k
    induction k with
    | zero => intro s a b c d e _; exact ⟨s, rfl, a, b, c, d, e, rfl⟩
    | succ k ih =>
      intro s a b c d e f
      let s1 : St := { s with interval := 0, connected := s.connected + 1, queued := s.queued - 1 + 1 }
      let s2 : St := { s1 with connected := s1.connected - 1, queued := s1.queued + 1 }
      have h1 : step s (.runQueued .connected) = some s1 := by
        simp only [step, f, if_true, dial, onConnected, b, Bool.false_eq_true, if_false, launch]
        rw [if_neg (by simp only [a, d, c, e]; simp)]
        simp only [s1, b]
      have h2 : step s1 .close = some s2 := by
        have hp : 0 < s1.connected ∧ s1.gone = false := ⟨by simp [s1], b⟩
        simp only [step]
        rw [if_pos hp]
        simp only [launch]
        rw [if_neg (by simp only [s1, a, d, c, e]; simp)]
      obtain ⟨s', g1, g2, g3, g4, g5, g6, g7⟩ := ih s2 a b c d (by show s.connected + 1 - 1 = 0; omega)
        (by simp [s2])
      refine ⟨s', ?_, g2, g3, g4, g5, g6, ?_⟩
      · show (step s (.runQueued .connected)).bind _ = _
        rw [h1]
        show (step s1 .close).bind _ = _
        rw [h2]; exact g1
      · rw [g7]; show s.queued - 1 + 1 + 1 + k = _; omega
  have up : ∀ (k : Nat) (s : St), s.gone = false → k ≤ s.queued → s.required = 2 →
      ∃ s', runLabs s (allConnect k) = some s' ∧ s'.required = 2 ∧ s'.connected = s.connected + k := by
    intro k
    induction k with
    | zero => intro s _ _ d; exact ⟨s, rfl, d, rfl⟩
    | succ k ih =>
      intro s b hq d
      let s0 : St := { s with interval := 0, connected := s.connected + 1, queued := s.queued - 1 }
      have h1 : step s (.runQueued .connected) = some (launch s0) := by
        have : 0 < s.queued := by omega
        simp only [step, this, if_true, dial, onConnected, b, Bool.false_eq_true, if_false]
        simp only [s0, b]
      have hl : (launch s0).gone = false ∧ k ≤ (launch s0).queued ∧ (launch s0).required = 2 ∧
          (launch s0).connected = s.connected + 1 := by
        unfold launch; split
        · exact ⟨b, by show k ≤ s.queued - 1; omega, d, rfl⟩
        · exact ⟨b, by show k ≤ s.queued - 1 + 1; omega, d, rfl⟩
      obtain ⟨s', g1, g2, g3⟩ := ih (launch s0) hl.1 hl.2.1 hl.2.2.1
      refine ⟨s', ?_, g2, by rw [g3, hl.2.2.2]; omega⟩
      show (step s (.runQueued .connected)).bind _ = _
      rw [h1]; exact g1
  obtain ⟨s1, a0, a1, a2, a3, a4, a5, a6⟩ := fl m (init 2 0) rfl rfl rfl rfl rfl (by simp [init, batch])
  obtain ⟨s2, b0, b1, b2⟩ := up m s1 a2 (by rw [a6]; omega) a4
  exact ⟨s2, reach_run (reach_run (.init 0) _ (by simp) a0) _ (by simp) b0, b1, by omega⟩

/-! ### Reconnecting -/

/-- Dials that end by `HandleWrite` are excluded. -/
def viaError : Lab → Prop
  | .endDial .writeOk => False
  | .endDial .writeFailed => False
  | _ => True

structure Alive (s : St) : Prop where
  count : s.count ≤ s.inprog
  live : s.stopping = false → s.connected < s.required → 0 < dials s
  stop : s.gone = true → s.stopping = true

theorem alive_failed {s : St} (h1 : s.count ≤ s.inprog) (h3 : s.gone = true → s.stopping = true) :
    Alive (onFailed s) := by
  unfold onFailed
  split
  · rename_i hg
    exact ⟨h1, fun e => by have := h3 hg; simp [this] at e, h3⟩
  · split
    · rename_i hc
      refine ⟨h1, ?_, h3⟩
      intro e1 e2
      rcases hc with hc | hc
      · rw [hc] at e1; simp at e1
      · omega
    · split
      · rename_i hb
        exact ⟨h1, fun _ _ => by simp only [dials, batch] at *; omega, h3⟩
      · exact ⟨h1, fun _ _ => by simp only [dials]; omega, h3⟩

theorem alive_launch {s : St} (h1 : s.count ≤ s.inprog) (h3 : s.gone = true → s.stopping = true) :
    Alive (launch s) := by
  unfold launch
  split
  · rename_i hc
    refine ⟨h1, ?_, h3⟩
    intro e1 e2
    rcases hc with hc | hc
    · rw [hc] at e1; simp at e1
    · simp only [dials]; omega
  · exact ⟨h1, fun _ _ => by simp only [dials]; omega, h3⟩

theorem alive_connected {s : St} (h1 : s.count ≤ s.inprog) (h3 : s.gone = true → s.stopping = true) :
    Alive (onConnected s) := by
  unfold onConnected
  split
  · rename_i hg
    exact ⟨h1, fun e => by have := h3 hg; simp [this] at e, h3⟩
  · exact alive_launch (s := { s with interval := 0, connected := s.connected + 1 }) h1 h3

theorem alive_dial {s : St} (r : Connector.AtOnce) (h1 : s.count ≤ s.inprog)
    (h3 : s.gone = true → s.stopping = true) : Alive (dial s r) := by
  cases r with
  | connected => exact alive_connected h1 h3
  | pending => exact ⟨by simp only [dial]; omega, fun _ _ => by simp only [dial, dials]; omega, h3⟩
  | failed => exact alive_failed h1 h3

/-- **C38 (a client that lacks connections keeps dialling), when dials in progress end with an error
event.**  Until it is stopped, whenever it has fewer connections than configured a dial is queued,
delayed or in progress. -/
theorem c38_alive_partial {n : Nat} {s : St} (h : Reach n viaError s) (hst : s.stopping = false)
    (hc : s.connected < n) : 0 < dials s := by
  have hreq : s.required = n := by
    have hl : ∀ s : St, (launch s).required = s.required := by intro s; unfold launch; split <;> rfl
    have hf : ∀ s : St, (onFailed s).required = s.required := by
      intro s; unfold onFailed; repeat' split
      all_goals rfl
    have hcn : ∀ s : St, (onConnected s).required = s.required := by
      intro s; unfold onConnected; split
      · rfl
      · rw [hl]
    have hd : ∀ (s : St) r, (dial s r).required = s.required := by
      intro s r; cases r with
      | connected => exact hcn s
      | pending => rfl
      | failed => exact hf s
    clear hc hst
    induction h with
    | init g => rfl
    | @step s s' l _ _ hs ih =>
      cases l with
      | runQueued r =>
        simp only [step] at hs; split at hs
        · simp only [Option.some.injEq] at hs; subst hs; rw [hd]; exact ih
        · simp at hs
      | runDelayed r =>
        simp only [step] at hs; split at hs
        · simp only [Option.some.injEq] at hs; subst hs; rw [hd]; exact ih
        · simp at hs
      | endDial e =>
        simp only [step] at hs; split at hs
        · simp only [Option.some.injEq] at hs; subst hs
          cases e with
          | error => exact (hf s).trans ih
          | writeFailed => simp only [endDial, hf]; exact ih
          | writeOk => simp only [endDial, hcn]; exact ih
        · simp at hs
      | close =>
        simp only [step] at hs; split at hs
        · simp only [Option.some.injEq] at hs; subst hs; rw [hl]; exact ih
        · simp at hs
      | finalize =>
        simp only [step] at hs; split at hs
        · simp at hs
        · simp only [Option.some.injEq] at hs; subst hs; unfold finalize; split <;> exact ih
      | destroy =>
        simp only [step] at hs; split at hs
        · simp at hs
        · simp only [Option.some.injEq] at hs; subst hs; unfold finalize; split <;> exact ih
  have key : Alive s := by
    clear hst hc hreq
    induction h with
    | init g =>
      refine ⟨Nat.le_refl _, fun _ hc => ?_, by simp [init]⟩
      simp only [init] at hc
      simp only [dials, init, batch]; omega
    | @step s s' l _ hok hs ih =>
      cases l with
      | runQueued r =>
        simp only [step] at hs; split at hs
        · simp only [Option.some.injEq] at hs; subst hs
          exact alive_dial (s := { s with queued := s.queued - 1 }) r ih.count ih.stop
        · simp at hs
      | runDelayed r =>
        simp only [step] at hs; split at hs
        · simp only [Option.some.injEq] at hs; subst hs
          exact alive_dial (s := { s with delayed := s.delayed - 1 }) r ih.count ih.stop
        · simp at hs
      | endDial e =>
        simp only [step] at hs; split at hs
        · rename_i hpos
          simp only [Option.some.injEq] at hs; subst hs
          cases e with
          | error =>
            have hin := ih.count
            have hsp := ih.stop
            have hfg : ∀ s : St, (onFailed s).gone = s.gone ∧ (onFailed s).stopping = s.stopping ∧
                (onFailed s).connected = s.connected ∧ (onFailed s).required = s.required ∧
                (onFailed s).queued = s.queued ∧
                (s.gone = false → s.stopping = false → s.connected < s.required → s.count ≤ batch →
                  0 < (onFailed s).delayed) := by
              intro s
              unfold onFailed
              split
              · rename_i hg
                exact ⟨rfl, rfl, rfl, rfl, rfl, fun e => by simp [hg] at e⟩
              · split
                · rename_i hc
                  exact ⟨rfl, rfl, rfl, rfl, rfl, fun _ e1 e2 _ => by
                    rcases hc with hc | hc
                    · rw [hc] at e1; simp at e1
                    · omega⟩
                · split
                  · exact ⟨rfl, rfl, rfl, rfl, rfl, fun _ _ _ e => by omega⟩
                  · exact ⟨rfl, rfl, rfl, rfl, rfl, fun _ _ _ _ => Nat.succ_pos _⟩
            obtain ⟨f1, f2, f3, f4, f5, f6⟩ := hfg s
            refine ⟨Nat.le_refl _, ?_, ?_⟩
            · intro e1 e2
              have e1 : s.stopping = false := f2 ▸ e1
              have e2 : s.connected < s.required := by
                have : (onFailed s).connected < (onFailed s).required := e2
                rwa [f3, f4] at this
              have e0 : s.gone = false := by
                rcases hgg : s.gone with _ | _
                · rfl
                · rw [hsp hgg] at e1; simp at e1
              show 0 < (onFailed s).queued + (onFailed s).delayed + (s.inprog - 1)
              by_cases hb : s.count ≤ batch
              · have := f6 e0 e1 e2 hb; omega
              · simp only [batch] at hb; omega
            · intro e
              have e : s.gone = true := f1 ▸ e
              show (onFailed s).stopping = true
              rw [f2]; exact hsp e
          | writeFailed => exact absurd hok (by simp [viaError])
          | writeOk => exact absurd hok (by simp [viaError])
        · simp at hs
      | close =>
        simp only [step] at hs; split at hs
        · simp only [Option.some.injEq] at hs; subst hs
          exact alive_launch (s := { s with connected := s.connected - 1 }) ih.count ih.stop
        · simp at hs
      | finalize =>
        simp only [step] at hs; split at hs
        · simp at hs
        · simp only [Option.some.injEq] at hs; subst hs
          unfold finalize; split
          · exact ih
          · exact ⟨Nat.le_refl _, by simp, fun _ => rfl⟩
      | destroy =>
        simp only [step] at hs; split at hs
        · simp at hs
        · simp only [Option.some.injEq] at hs; subst hs
          unfold finalize; split
          · rename_i hst; exact ⟨ih.count, fun e => by simp [hst] at e, fun _ => hst⟩
          · exact ⟨Nat.le_refl _, by simp, fun _ => rfl⟩
  exact key.live hst (by rw [hreq]; exact hc)

/-- **C38 violated: a client that never dials again.**  The stale number of dials in progress makes
the client believe that enough are under way: it ends with no connection and no dial, not
stopped. -/
theorem c38_violation_dead :
    (runLabs (init 2 0) [.runQueued .connected, .runQueued .pending, .runQueued .pending, .close,
      .runQueued .pending, .endDial .error, .endDial .writeOk, .endDial .writeOk,
      .runDelayed .failed, .close, .close]).map
      (fun s => (s.required, s.connected, dials s, s.stopping, s.count)) = some (2, 0, 0, false, 2) := by
  decide +kernel

/-- **C38 violated: a dial outlives the client.**  A client destroyed while a repeated dial is
delayed (or queued) is called back by it. -/
theorem c38_violation_dangling (n g : Nat) (hn : 0 < n) :
    ∃ s, Reach n (fun _ => True) s ∧ s.gone = true ∧ s.dangling = true ∧ s.stopping = true := by
  let s0 := init n g
  have hq : 0 < s0.queued := by simp [s0, init, batch]; omega
  let s1 : St := { s0 with stopping := true, inprog := 0, count := 0, gone := true }
  have h1 : step s0 .destroy = some s1 := by
    simp [step, s0, s1, init, finalize]
  have h2 : step s1 (.runQueued .failed) = some { s1 with queued := s1.queued - 1, dangling := true } := by
    have : 0 < s1.queued := hq
    simp only [step, this, if_true, dial, onFailed]
    rfl
  exact ⟨_, .step _ (.step _ (.init g) trivial h1) trivial h2, rfl, rfl, rfl⟩

theorem dangling_onFailed {s : St} (h : s.gone = false) : (onFailed s).dangling = s.dangling ∧ (onFailed s).gone = false := by
  unfold onFailed
  rw [if_neg (by rw [h]; simp)]
  split
  · exact ⟨rfl, h⟩
  · split <;> exact ⟨rfl, h⟩

theorem dangling_onConnected {s : St} (h : s.gone = false) : (onConnected s).dangling = s.dangling ∧ (onConnected s).gone = false := by
  unfold onConnected
  rw [if_neg (by rw [h]; simp)]
  unfold launch
  split <;> exact ⟨rfl, h⟩

theorem dangling_dial {s : St} (h : s.gone = false) (r : Connector.AtOnce) : (dial s r).dangling = s.dangling ∧ (dial s r).gone = false := by
  cases r with
  | connected => exact dangling_onConnected h
  | pending => exact ⟨rfl, h⟩
  | failed => exact dangling_onFailed h

/-- **C38.** As long as the client object exists, no dial calls back a destroyed client. -/
theorem c38_no_dangling_partial {n : Nat} {ok : Lab → Prop} {s : St} (h : Reach n ok s) (hg : s.gone = false) : s.dangling = false := by
  have key : ∀ {s : St}, Reach n ok s → s.gone = false → s.dangling = false := by
    intro s h
    induction h with
    | init g => intro _; rfl
    | @step s s' l _ _ hs ih =>
      intro hg'
      by_cases hg : s.gone = false
      · have hd := ih hg
        cases l with
        | runQueued r =>
          simp only [step] at hs; split at hs
          · simp only [Option.some.injEq] at hs; subst hs
            rw [(dangling_dial (s := { s with queued := s.queued - 1 }) hg r).1]; exact hd
          · simp at hs
        | runDelayed r =>
          simp only [step] at hs; split at hs
          · simp only [Option.some.injEq] at hs; subst hs
            rw [(dangling_dial (s := { s with delayed := s.delayed - 1 }) hg r).1]; exact hd
          · simp at hs
        | endDial e =>
          simp only [step] at hs; split at hs
          · simp only [Option.some.injEq] at hs; subst hs
            cases e with
            | error => exact (dangling_onFailed hg).1.trans hd
            | writeFailed => exact (dangling_onFailed (s := { s with inprog := s.inprog - 1 }) hg).1.trans hd
            | writeOk => exact (dangling_onConnected (s := { s with inprog := s.inprog - 1 }) hg).1.trans hd
          · simp at hs
        | close =>
          simp only [step] at hs; split at hs
          · simp only [Option.some.injEq] at hs; subst hs
            unfold launch; split <;> exact hd
          · simp at hs
        | finalize =>
          simp only [step] at hs; split at hs
          · simp at hs
          · simp only [Option.some.injEq] at hs; subst hs
            unfold finalize; split <;> exact hd
        | destroy =>
          simp only [step] at hs; split at hs
          · simp at hs
          · simp only [Option.some.injEq] at hs; subst hs
            simp at hg'
      · exfalso
        have hgt : s.gone = true := by simpa using hg
        have hof : (onFailed s).gone = true := by unfold onFailed; rw [if_pos hgt]; exact hgt
        have hdl : ∀ (q : St) r, q.gone = true → (dial q r).gone = true := by
          intro q r hq
          cases r with
          | connected => simp only [dial, onConnected]; rw [if_pos hq]; exact hq
          | pending => exact hq
          | failed => simp only [dial, onFailed]; rw [if_pos hq]; exact hq
        have : s'.gone = true := by
          cases l with
          | runQueued r =>
            simp only [step] at hs; split at hs
            · simp only [Option.some.injEq] at hs; subst hs; exact hdl _ r hgt
            · simp at hs
          | runDelayed r =>
            simp only [step] at hs; split at hs
            · simp only [Option.some.injEq] at hs; subst hs; exact hdl _ r hgt
            · simp at hs
          | endDial e =>
            simp only [step] at hs; split at hs
            · simp only [Option.some.injEq] at hs; subst hs
              cases e with
              | error => exact hof
              | writeFailed => exact hdl { s with inprog := s.inprog - 1 } .failed hgt
              | writeOk => exact hdl { s with inprog := s.inprog - 1 } .connected hgt
            · simp at hs
          | close => simp [step, hgt] at hs
          | finalize => simp [step, hgt] at hs
          | destroy => simp [step, hgt] at hs
        rw [this] at hg'; simp at hg'
  exact key h hg

end Ltio.Pool
