import Mathlib.Tactic.ByContra
/-
Model of server connection accounting and shutdown: `IOService` (net_io/io_service.cc) and
`BaseServer` (net_io/server/generic_server.h) with `n` io services (one per io loop with
LTIO_ENABLE_REUSER_PORT, otherwise n = 1), as a transition system over all interleavings of the
loops.  A step is one loop task, except that `OnNewConnection` is two steps (the limit test and the
store), because other loops can run in between.  Tasks posted to a loop are the `pend…` lists; any
posted task may run next.  Connections are numbers, never reused (they are object addresses kept
alive by the tasks that mention them).
-/
namespace Ltio.Server

structure St where
  count : Nat                     -- client_count_ (generic_server.h:219)
  codecs : Nat → List Nat         -- codecs_ of each io service
  stopping : Nat → Bool           -- is_stopping_
  checked : Nat → Bool            -- inside OnNewConnection, limit test passed
  live : List Nat                 -- ioservices_
  serving : Bool                  -- serving_flag_
  pendStop : List Nat             -- posted IOService::Stop
  pendForce : List (Nat × Nat)    -- posted forced closes (io_service.cc:89-94)
  pendRemove : List (Nat × Nat)   -- posted RemoveProtocolService
  used : List (Nat × Nat)         -- connections created so far (service, connection)
  callbacks : Nat                 -- calls of closed_callback_

/-- After `ServeAddress` (generic_server.h:72-107). -/
def St.init (n : Nat) : St :=
  ⟨0, fun _ => [], fun _ => false, fun _ => false, List.range n, true, [], [], [], [], 0⟩

def upd {α : Type} (f : Nat → α) (i : Nat) (v : α) : Nat → α := fun j => if j = i then v else f j

/-- `IOServiceStoped` (generic_server.h:154-163). -/
def St.stoped (s : St) (i : Nat) : St :=
  { s with live := s.live.filter (· ≠ i), callbacks := s.callbacks + (if s.live.filter (· ≠ i) = [] then 1 else 0) }

inductive Lab where
  | check (i : Nat)       -- OnNewConnection: CanCreateNewChannel (io_service.cc:151)
  | store (i c : Nat)     -- StoreProtocolService (182-188)
  | close (i c : Nat)     -- the connection notifies OnCodecClosed (166-176)
  | stopServer            -- StopServer (generic_server.h:109-118)
  | stop (i : Nat)        -- IOService::Stop on the acceptor loop (71-98)
  | force (i c : Nat)     -- the forced close runs on the connection's loop (89-94)
  | remove (i c : Nat)    -- RemoveProtocolService (190-203)
deriving DecidableEq, Repr

/-- `RemoveProtocolService` (io_service.cc:190-203). -/
def St.removeCodec (s : St) (i c : Nat) : St :=
  if c ∈ s.codecs i then { s with codecs := upd s.codecs i ((s.codecs i).erase c), count := s.count - 1 } else s

def St.afterRemove (s : St) (i : Nat) : St :=
  if s.stopping i ∧ s.codecs i = [] then s.stoped i else s

/-- One step; `limit` is `kClientConnLimit`. -/
def St.step (n limit : Nat) (s : St) : Lab → Option St
  | .check i =>
    if i < n ∧ s.checked i = false ∧ s.stopping i = false then
      if s.count < limit then some { s with checked := upd s.checked i true } else some s
    else none
  | .store i c =>
    if i < n ∧ s.checked i = true ∧ c ∉ s.used.map (·.2) then
      some { s with codecs := upd s.codecs i (s.codecs i ++ [c]), count := s.count + 1, checked := upd s.checked i false, used := s.used ++ [(i, c)] }
    else none
  | .close i c => if (i, c) ∈ s.used then some { s with pendRemove := s.pendRemove ++ [(i, c)] } else none
  | .stopServer => if s.serving then some { s with serving := false, pendStop := s.live } else none
  | .stop i =>
    if i ∈ s.pendStop ∧ s.checked i = false then
      if s.codecs i = [] then
        some (({ s with stopping := upd s.stopping i true, pendStop := s.pendStop.erase i } : St).stoped i)
      else
        some { s with stopping := upd s.stopping i true, pendStop := s.pendStop.erase i, pendForce := s.pendForce ++ (s.codecs i).map (fun c => (i, c)) }
    else none
  | .force i c =>
    if (i, c) ∈ s.pendForce then
      some { s with pendForce := s.pendForce.erase (i, c), pendRemove := s.pendRemove ++ [(i, c)] }
    else none
  | .remove i c =>
    if (i, c) ∈ s.pendRemove ∧ s.checked i = false then
      some ((({ s with pendRemove := s.pendRemove.erase (i, c) } : St).removeCodec i c).afterRemove i)
    else none

inductive Reach (n limit : Nat) : St → Prop
  | init : Reach n limit (St.init n)
  | step {s s' l} : Reach n limit s → s.step n limit l = some s' → Reach n limit s'

/-! ### Specification helpers -/

def total (f : Nat → Nat) : Nat → Nat
  | 0 => 0
  | n + 1 => total f n + f n

/-- The number of live connections of the server. -/
def St.connections (s : St) (n : Nat) : Nat := total (fun i => (s.codecs i).length) n

/-! ### Invariants -/

def b2n (b : Bool) : Nat := if b then 1 else 0

theorem total_upd (f : Nat → Nat) (i v : Nat) : ∀ n, i < n → total (upd f i v) n + f i = total f n + v := by
  have same : ∀ m, m ≤ i → total (upd f i v) m = total f m := by
    intro m
    induction m with
    | zero => intro _; rfl
    | succ m ih => intro h; simp only [total]; rw [ih (by omega)]; simp [upd, show m ≠ i by omega]
  intro n
  induction n with
  | zero => intro h; omega
  | succ n ih =>
    intro h
    simp only [total]
    by_cases hi : i = n
    · subst hi; rw [same i (Nat.le_refl _)]; simp [upd]; omega
    · have := ih (by omega)
      simp only [upd, show n ≠ i by omega, if_false] at this ⊢
      omega

theorem total_congr {f g : Nat → Nat} (h : ∀ i, f i = g i) (n : Nat) : total f n = total g n := by
  have : f = g := funext h
  rw [this]

theorem total_ge (f : Nat → Nat) (i : Nat) : ∀ n, i < n → f i ≤ total f n := by
  intro n
  induction n with
  | zero => intro h; omega
  | succ n ih =>
    intro h
    simp only [total]
    by_cases hi : i = n
    · subst hi; omega
    · have := ih (by omega); omega

theorem total_le_one (f : Nat → Nat) (h : ∀ i, f i ≤ 1) : ∀ n, total f n ≤ n := by
  intro n
  induction n with
  | zero => exact Nat.le_refl _
  | succ n ih => simp only [total]; have := h n; omega

structure Inv (n limit : Nat) (s : St) : Prop where
  acc : s.count = s.connections n
  lim : 0 < n → 0 < limit → s.count + total (fun i => b2n (s.checked i)) n ≤ limit + n - 1
  own : ∀ i c, c ∈ s.codecs i → (i, c) ∈ s.used ∧ i < n
  usedLt : ∀ i c, (i, c) ∈ s.used → i < n
  nodup : ∀ i, (s.codecs i).Nodup
  chk : ∀ i, s.checked i = true → s.stopping i = false
  dead : ∀ i, i < n → i ∉ s.live → s.stopping i = true ∧ s.codecs i = []
  drain : ∀ i, s.stopping i = true → i ∈ s.live → s.codecs i ≠ []
  forced : ∀ i c, s.stopping i = true → c ∈ s.codecs i → (i, c) ∈ s.pendForce ∨ (i, c) ∈ s.pendRemove
  stopPend : s.serving = false → ∀ i, i < n → s.stopping i = true ∨ i ∈ s.pendStop
  liveLt : ∀ i, i ∈ s.live → i < n
  pendLive : ∀ i, i ∈ s.pendStop → i < n ∧ i ∈ s.live ∧ s.stopping i = false
  pendNodup : s.pendStop.Nodup
  liveNodup : s.live.Nodup
  called : (s.live = [] ∧ 0 < n → 1 ≤ s.callbacks) ∧ (s.live ≠ [] → s.callbacks = 0)
  servingStop : s.serving = true → s.pendStop = [] ∧ (∀ i, s.stopping i = false) ∧ s.live = List.range n

theorem inv_init (n limit : Nat) : Inv n limit (St.init n) := by
  have h0 : ∀ n, total (fun _ => 0) n = 0 := by
    intro n; induction n with
    | zero => rfl
    | succ n ih => simp [total, ih]
  refine ⟨?_, ?_, by simp [St.init], by simp [St.init], by simp [St.init], by simp [St.init], ?_, by simp [St.init],
    by simp [St.init], by simp [St.init], ?_, by simp [St.init], by simp [St.init], ?_, ?_, by simp [St.init]⟩
  · simp [St.init, St.connections, h0]
  · intro h1 h2; simp [St.init, b2n, h0]; try omega
  · intro i hi hn; simp [St.init] at hn; omega
  · intro i hi; simpa [St.init] using hi
  · simp [St.init, List.nodup_range]
  · refine ⟨?_, by simp [St.init]⟩
    rintro ⟨h1, h2⟩
    simp [St.init] at h1; omega

/-- `IOServiceStoped` for a stopped service without connections. -/
theorem inv_stoped {n limit : Nat} {s : St} {i : Nat}
    (acc : s.count = s.connections n)
    (lim : 0 < n → 0 < limit → s.count + total (fun i => b2n (s.checked i)) n ≤ limit + n - 1)
    (own : ∀ i c, c ∈ s.codecs i → (i, c) ∈ s.used ∧ i < n)
    (usedLt : ∀ i c, (i, c) ∈ s.used → i < n)
    (nodup : ∀ i, (s.codecs i).Nodup)
    (chk : ∀ i, s.checked i = true → s.stopping i = false)
    (dead : ∀ j, j < n → j ∉ s.live → s.stopping j = true ∧ s.codecs j = [])
    (drain : ∀ j, j ≠ i → s.stopping j = true → j ∈ s.live → s.codecs j ≠ [])
    (forced : ∀ i c, s.stopping i = true → c ∈ s.codecs i → (i, c) ∈ s.pendForce ∨ (i, c) ∈ s.pendRemove)
    (stopPend : s.serving = false → ∀ i, i < n → s.stopping i = true ∨ i ∈ s.pendStop)
    (liveLt : ∀ i, i ∈ s.live → i < n)
    (pendLive : ∀ i, i ∈ s.pendStop → i < n ∧ i ∈ s.live ∧ s.stopping i = false)
    (pendNodup : s.pendStop.Nodup)
    (liveNodup : s.live.Nodup)
    (called : (s.live = [] ∧ 0 < n → 1 ≤ s.callbacks) ∧ (s.live ≠ [] → s.callbacks = 0))
    (serv : s.serving = false)
    (hstop : s.stopping i = true) (hemp : s.codecs i = []) : Inv n limit (s.stoped i) := by
  refine ⟨acc, lim, own, usedLt, nodup, chk, ?_, ?_, forced, stopPend, ?_, ?_, pendNodup, ?_, ?_, ?_⟩
  · intro j hj hl
    simp only [St.stoped, List.mem_filter, decide_eq_true_eq, not_and, not_not] at hl
    by_cases hji : j = i
    · subst hji; exact ⟨hstop, hemp⟩
    · exact dead j hj (fun h => hji (by simpa using hl h))
  · intro j hs hl
    simp only [St.stoped, List.mem_filter, decide_eq_true_eq] at hl
    exact drain j (by simpa using hl.2) hs hl.1
  · intro j hl
    simp only [St.stoped, List.mem_filter] at hl
    exact liveLt j hl.1
  · intro j hj
    obtain ⟨a, b, c⟩ := pendLive j hj
    refine ⟨a, ?_, c⟩
    simp only [St.stoped, List.mem_filter]
    refine ⟨b, ?_⟩
    have : j ≠ i := by intro h; subst h; rw [hstop] at c; simp at c
    simpa using this
  · exact liveNodup.filter _
  · simp only [St.stoped]
    constructor
    · rintro ⟨h1, h2⟩
      simp only [h1, if_true]; omega
    · intro h1
      simp only [h1, if_false]
      exact called.2 (by intro h2; rw [h2] at h1; simp at h1)
  · intro h; simp only [St.stoped] at h; rw [serv] at h; simp at h

theorem step_inv {n limit : Nat} {s s' : St} {l : Lab} (i : Inv n limit s)
    (h : s.step n limit l = some s') : Inv n limit s' := by
  obtain ⟨acc, lim, own, usedLt, nodup, chk, dead, drain, forced, stopPend, liveLt, pendLive, pendNodup, liveNodup, called, servingStop⟩ := i
  cases l with
  | check k =>
    simp only [St.step] at h
    split at h
    · rename_i hc
      split at h
      · rename_i hlt
        simp only [Option.some.injEq] at h; subst h
        refine ⟨acc, ?_, own, usedLt, nodup, ?_, dead, drain, forced, stopPend, liveLt, pendLive, pendNodup, liveNodup, called, servingStop⟩
        · intro h1 h2
          have hone := total_le_one (fun j => b2n (upd s.checked k true j)) (by intro j; unfold b2n; split <;> omega) n
          simp only
          omega
        · intro j hj
          simp only [upd] at hj
          split at hj
          · rename_i hjk; subst hjk; exact hc.2.2
          · exact chk j hj
      · simp only [Option.some.injEq] at h; subst h
        exact ⟨acc, lim, own, usedLt, nodup, chk, dead, drain, forced, stopPend, liveLt, pendLive, pendNodup, liveNodup, called, servingStop⟩
    · simp at h
  | store k c =>
    simp only [St.step] at h
    split at h
    · rename_i hc
      simp only [Option.some.injEq] at h; subst h
      have hns := chk k hc.2.1
      have hnew : c ∉ s.codecs k := fun hm => hc.2.2 (List.mem_map.2 ⟨(k, c), (own k c hm).1, rfl⟩)
      have hkl : k ∈ s.live := by
        by_contra hx; have := (dead k hc.1 hx).1; rw [hns] at this; simp at this
      refine ⟨?_, ?_, ?_, ?_, ?_, ?_, ?_, ?_, ?_, stopPend, liveLt, pendLive, pendNodup, liveNodup, called, servingStop⟩
      · have := total_upd (fun i => (s.codecs i).length) k (s.codecs k ++ [c]).length n hc.1
        simp only [St.connections] at acc ⊢
        have e : total (fun i => (upd s.codecs k (s.codecs k ++ [c]) i).length) n =
            total (upd (fun i => (s.codecs i).length) k (s.codecs k ++ [c]).length) n :=
          total_congr (fun j => by simp only [upd]; split <;> simp_all) n
        rw [e]
        simp only [List.length_append, List.length_cons, List.length_nil] at this ⊢
        omega
      · intro h1 h2
        have := total_upd (fun i => b2n (s.checked i)) k (b2n false) n hc.1
        have e : total (fun i => b2n (upd s.checked k false i)) n = total (upd (fun i => b2n (s.checked i)) k (b2n false)) n :=
          total_congr (fun j => by simp only [upd]; split <;> simp_all) n
        have := lim h1 h2
        simp only
        rw [e]
        have hb : b2n (s.checked k) = 1 := by rw [hc.2.1]; rfl
        have hb0 : b2n false = 0 := rfl
        omega
      · intro j d hd
        simp only [upd] at hd
        split at hd
        · rename_i hjk; subst hjk
          rcases List.mem_append.1 hd with hd | hd
          · exact ⟨List.mem_append_left _ (own j d hd).1, hc.1⟩
          · simp at hd; subst hd; exact ⟨by simp, hc.1⟩
        · exact ⟨List.mem_append_left _ (own j d hd).1, (own j d hd).2⟩
      · intro j d hd
        simp only [List.mem_append, List.mem_singleton, Prod.mk.injEq] at hd
        rcases hd with hd | ⟨rfl, _⟩
        · exact usedLt j d hd
        · exact hc.1
      · intro j
        simp only [upd]
        split
        · rw [List.nodup_append]
          exact ⟨nodup k, by simp, by intro a ha b hb; simp at hb; subst hb; intro hab; subst hab; exact hnew ha⟩
        · exact nodup j
      · intro j hj
        simp only [upd] at hj
        split at hj
        · simp at hj
        · exact chk j hj
      · intro j hj hl
        have := dead j hj hl
        refine ⟨this.1, ?_⟩
        simp only [upd]
        rw [if_neg (by intro hx; subst hx; exact hl hkl)]
        exact this.2
      · intro j hs hl
        simp only [upd]
        split
        · simp
        · exact drain j hs hl
      · intro j d hs hd
        simp only [upd] at hd
        split at hd
        · rename_i hjk; subst hjk; rw [hns] at hs; simp at hs
        · exact forced j d hs hd
    · simp at h
  | close k c =>
    simp only [St.step] at h
    split at h
    · simp only [Option.some.injEq] at h; subst h
      refine ⟨acc, lim, own, usedLt, nodup, chk, dead, drain, ?_, stopPend, liveLt, pendLive, pendNodup, liveNodup, called, servingStop⟩
      intro j d hs hd
      rcases forced j d hs hd with h1 | h1
      · exact Or.inl h1
      · exact Or.inr (List.mem_append_left _ h1)
    · simp at h
  | stopServer =>
    simp only [St.step] at h
    split at h
    · rename_i hsv
      simp only [Option.some.injEq] at h; subst h
      obtain ⟨a, b, c⟩ := servingStop hsv
      refine ⟨acc, lim, own, usedLt, nodup, chk, dead, drain, forced, ?_, liveLt, ?_, ?_, liveNodup, called, ?_⟩
      · intro _ j hj; right; simp only; rw [c]; simpa using hj
      · intro j hj; exact ⟨liveLt j hj, hj, b j⟩
      · exact liveNodup
      · simp
    · simp at h
  | stop k =>
    simp only [St.step] at h
    split at h
    · rename_i hc
      obtain ⟨hk1, hk2, hk3⟩ := pendLive k hc.1
      have hserv : s.serving = false := by
        by_contra hx
        have := (servingStop (by simpa using hx)).1
        rw [this] at hc; simp at hc
      have hsp : ∀ j, j < n → upd s.stopping k true j = true ∨ j ∈ s.pendStop.erase k := by
        intro j hj
        by_cases hjk : j = k
        · left; simp [upd, hjk]
        · rcases stopPend hserv j hj with h1 | h1
          · left; simp [upd, hjk, h1]
          · right; exact (List.mem_erase_of_ne hjk).2 h1
      have hchk : ∀ j, s.checked j = true → upd s.stopping k true j = false := by
        intro j hj
        have : j ≠ k := by intro hx; subst hx; rw [hc.2] at hj; simp at hj
        simp only [upd, this, if_false]; exact chk j hj
      have hpl : ∀ j, j ∈ s.pendStop.erase k → j < n ∧ j ∈ s.live ∧ upd s.stopping k true j = false := by
        intro j hj
        have hjk : j ≠ k := by intro hx; subst hx; exact (pendNodup.not_mem_erase hj)
        obtain ⟨a, b, c⟩ := pendLive j (List.mem_of_mem_erase hj)
        exact ⟨a, b, by simp only [upd, hjk, if_false]; exact c⟩
      have hdead : ∀ j, j < n → j ∉ s.live → upd s.stopping k true j = true ∧ s.codecs j = [] := by
        intro j hj hl
        obtain ⟨a, b⟩ := dead j hj hl
        exact ⟨by simp only [upd]; split <;> simp_all, b⟩
      split at h
      · rename_i hemp
        simp only [Option.some.injEq] at h; subst h
        refine inv_stoped acc lim own usedLt nodup hchk hdead ?_ ?_ (fun _ => hsp) liveLt hpl (pendNodup.erase _) liveNodup called hserv
          (by simp [upd]) hemp
        · intro j hjk hs hl
          simp only [upd, hjk, if_false] at hs
          exact drain j hs hl
        · intro j d hs hd
          by_cases hjk : j = k
          · subst hjk; simp only [hemp] at hd; simp at hd
          · simp only [upd, hjk, if_false] at hs; exact forced j d hs hd
      · rename_i hne
        simp only [Option.some.injEq] at h; subst h
        refine ⟨acc, lim, own, usedLt, nodup, hchk, hdead, ?_, ?_, fun _ => hsp, liveLt, hpl, pendNodup.erase _, liveNodup, called, ?_⟩
        · intro j hs hl
          by_cases hjk : j = k
          · subst hjk; exact hne
          · simp only [upd, hjk, if_false] at hs; exact drain j hs hl
        · intro j d hs hd
          by_cases hjk : j = k
          · subst hjk; left; simp only [List.mem_append]; right; exact List.mem_map.2 ⟨d, hd, rfl⟩
          · simp only [upd, hjk, if_false] at hs
            rcases forced j d hs hd with h1 | h1
            · exact Or.inl (List.mem_append_left _ h1)
            · exact Or.inr h1
        · intro hx; simp only at hx; rw [hserv] at hx; simp at hx
    · simp at h
  | force k c =>
    simp only [St.step] at h
    split at h
    · simp only [Option.some.injEq] at h; subst h
      refine ⟨acc, lim, own, usedLt, nodup, chk, dead, drain, ?_, stopPend, liveLt, pendLive, pendNodup, liveNodup, called, servingStop⟩
      intro j d hs hd
      by_cases hjd : (j, d) = (k, c)
      · right; rw [hjd]; simp
      · rcases forced j d hs hd with h1 | h1
        · exact Or.inl ((List.mem_erase_of_ne hjd).2 h1)
        · exact Or.inr (List.mem_append_left _ h1)
    · simp at h
  | remove k c =>
    simp only [St.step] at h
    split at h
    · rename_i hc
      simp only [Option.some.injEq] at h
      -- facts about the state after the erase
      let t : St := ({ s with pendRemove := s.pendRemove.erase (k, c) } : St).removeCodec k c
      have ht : ({ s with pendRemove := s.pendRemove.erase (k, c) } : St).removeCodec k c = t := rfl
      rw [ht] at h
      have hcod : ∀ j, t.codecs j = if j = k then (s.codecs k).erase c else s.codecs j := by
        intro j
        simp only [t, St.removeCodec]
        split
        · simp only [upd]
        · rename_i hn
          split
          · rename_i hjk; subst hjk; rw [List.erase_of_not_mem hn]
          · rfl
      have heq : t.stopping = s.stopping ∧ t.checked = s.checked ∧ t.live = s.live ∧ t.serving = s.serving ∧
          t.pendStop = s.pendStop ∧ t.pendForce = s.pendForce ∧ t.pendRemove = s.pendRemove.erase (k, c) ∧
          t.used = s.used ∧ t.callbacks = s.callbacks := by
        simp only [t, St.removeCodec]; split <;> simp
      obtain ⟨e1, e2, e3, e4, e5, e6, e7, e8, e9⟩ := heq
      have hcount : t.count = t.connections n ∧ t.count ≤ s.count := by
        simp only [t, St.removeCodec]
        split
        · rename_i hm
          have hk := (own k c hm).2
          have := total_upd (fun i => (s.codecs i).length) k ((s.codecs k).erase c).length n hk
          have e : total (fun i => (upd s.codecs k ((s.codecs k).erase c) i).length) n =
              total (upd (fun i => (s.codecs i).length) k ((s.codecs k).erase c).length) n :=
            total_congr (fun j => by simp only [upd]; split <;> simp_all) n
          have hl := List.length_erase_of_mem hm
          have hpos : 0 < (s.codecs k).length := List.length_pos_of_mem hm
          simp only [St.connections] at acc ⊢
          rw [e]
          omega
        · exact ⟨acc, Nat.le_refl _⟩
      have hlim : 0 < n → 0 < limit → t.count + total (fun i => b2n (t.checked i)) n ≤ limit + n - 1 := by
        intro h1 h2; have := lim h1 h2; have := hcount.2; rw [e2]; omega
      have hmem : ∀ j d, d ∈ t.codecs j → d ∈ s.codecs j ∧ (j, d) ≠ (k, c) := by
        intro j d hd
        rw [hcod j] at hd
        split at hd
        · rename_i hjk; subst hjk
          have := (nodup j).mem_erase_iff.1 hd
          exact ⟨this.2, by simpa using this.1⟩
        · rename_i hjk; exact ⟨hd, by simp [hjk]⟩
      have hown : ∀ j d, d ∈ t.codecs j → (j, d) ∈ t.used ∧ j < n := by
        intro j d hd; rw [e8]; exact own j d (hmem j d hd).1
      have hnod : ∀ j, (t.codecs j).Nodup := by
        intro j; rw [hcod j]; split
        · exact (nodup k).erase _
        · exact nodup j
      have hdead : ∀ j, j < n → j ∉ t.live → t.stopping j = true ∧ t.codecs j = [] := by
        intro j hj hl
        rw [e3] at hl
        obtain ⟨a, b⟩ := dead j hj hl
        refine ⟨by rw [e1]; exact a, ?_⟩
        rw [hcod j]; split
        · rename_i hjk; subst hjk; rw [b]; rfl
        · exact b
      have hforced : ∀ j d, t.stopping j = true → d ∈ t.codecs j → (j, d) ∈ t.pendForce ∨ (j, d) ∈ t.pendRemove := by
        intro j d hs hd
        rw [e1] at hs
        obtain ⟨h1, h2⟩ := hmem j d hd
        rw [e6, e7]
        rcases forced j d hs h1 with h3 | h3
        · exact Or.inl h3
        · exact Or.inr ((List.mem_erase_of_ne h2).2 h3)
      have hdrain : ∀ j, j ≠ k → t.stopping j = true → j ∈ t.live → t.codecs j ≠ [] := by
        intro j hj hs hl
        rw [hcod j, if_neg hj]
        rw [e1] at hs; rw [e3] at hl
        exact drain j hs hl
      subst h
      unfold St.afterRemove
      split
      · rename_i hcond
        have hserv : t.serving = false := by
          rw [e4]; by_contra hx
          have := (servingStop (by simpa using hx)).2.1 k
          rw [← e1] at this; rw [this] at hcond; simp at hcond
        exact inv_stoped hcount.1 hlim hown (by rw [e8]; exact usedLt) hnod (by rw [e1, e2]; exact chk) hdead hdrain hforced
          (by rw [e4, e1, e5]; exact stopPend) (by rw [e3]; exact liveLt) (by rw [e5, e3, e1]; exact pendLive)
          (by rw [e5]; exact pendNodup) (by rw [e3]; exact liveNodup) (by rw [e3, e9]; exact called) hserv hcond.1 hcond.2
      · rename_i hcond
        refine ⟨hcount.1, hlim, hown, by rw [e8]; exact usedLt, hnod, by rw [e1, e2]; exact chk, hdead, ?_, hforced,
          by rw [e4, e1, e5]; exact stopPend, by rw [e3]; exact liveLt, by rw [e5, e3, e1]; exact pendLive,
          by rw [e5]; exact pendNodup, by rw [e3]; exact liveNodup, by rw [e3, e9]; exact called, by rw [e4, e5, e1, e3]; exact servingStop⟩
        intro j hs hl
        by_cases hj : j = k
        · subst hj
          intro hx; exact hcond ⟨hs, hx⟩
        · exact hdrain j hj hs hl
    · simp at h

theorem reach_inv {n limit : Nat} {s : St} (h : Reach n limit s) : Inv n limit s := by
  induction h with
  | init => exact inv_init n limit
  | step _ h ih => exact step_inv ih h

end Ltio.Server
