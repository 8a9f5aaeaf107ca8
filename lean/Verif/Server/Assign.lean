import Mathlib.Tactic.ByContra
/-
Model of the assignment of connections to io loops and of the life cycle of a server object:
`BaseServer::{ServeAddress, StopServer, GetNextIOWorkLoop, IOServiceStoped}` (net_io/server/generic_server.h:72-163),
built without LTIO_ENABLE_REUSER_PORT (one io service per `ServeAddress`, whose connections are spread over the
loops; with the option a connection stays on the loop that accepted it).

`index` is a function-local `static` of a member of a class template (generic_server.h:138): there is one 32-bit
counter for all servers of the same `Configurator` — `RawCoroServer`, `HttpCoroServer` and `WsServer` are all
`BaseServer<DefaultConfigurator>` (raw_server.h:61, http_server.h:44, ws_server.h:47).
-/
namespace Ltio.Server.Assign

/-! ### Assignment of connections -/

/-- `GetNextIOWorkLoop` (generic_server.h:134-141): the loop's position for a server with `n` loops, and the counter
afterwards (`fetch_add` on a `uint32_t`). -/
def next (index n : Nat) : Nat × Nat := (index % n, (index + 1) % 2 ^ 32)

/-- Connections accepted one after the other, each by server `j` with `loops j` loops: the loops they are
given to. -/
def assign (loops : Nat → Nat) (index : Nat) : List Nat → List (Nat × Nat)
  | [] => []
  | j :: t => (j, (next index (loops j)).1) :: assign loops (next index (loops j)).2 t

/-- How many connections of server `j` loop `i` was given. -/
def load (a : List (Nat × Nat)) (j i : Nat) : Nat := a.countP (fun x => x == (j, i))

/-! ### Counting residues -/

/-- How many of `k` consecutive numbers from `a` have residue `i` modulo `n`. -/
def hits (n i a : Nat) : Nat → Nat
  | 0 => 0
  | k + 1 => (if a % n = i then 1 else 0) + hits n i (a + 1) k

theorem hits_snoc (n i a k : Nat) : hits n i a (k + 1) = hits n i a k + (if (a + k) % n = i then 1 else 0) := by
  induction k generalizing a with
  | zero => simp [hits]
  | succ k ih =>
    rw [hits, ih (a + 1), hits]
    have : a + 1 + k = a + (k + 1) := by omega
    rw [this]
    omega

theorem hits_block (n i a : Nat) (hi : i < n) : hits n i a n = 1 := by
  induction a with
  | zero =>
    have : ∀ k, k ≤ n → hits n i 0 k = if i < k then 1 else 0 := by
      intro k
      induction k with
      | zero => intro _; simp [hits]
      | succ k ih =>
        intro hk
        rw [hits_snoc, ih (by omega), Nat.zero_add, Nat.mod_eq_of_lt (by omega : k < n)]
        by_cases h1 : i < k
        · rw [if_pos h1, if_neg (by omega), if_pos (by omega)]
        · by_cases h2 : k = i
          · rw [if_neg h1, if_pos h2, if_pos (by omega)]
          · rw [if_neg h1, if_neg h2, if_neg (by omega)]
    rw [this n (Nat.le_refl _), if_pos hi]
  | succ a ih =>
    have h1 := hits_snoc n i a n
    have h2 : hits n i a (n + 1) = (if a % n = i then 1 else 0) + hits n i (a + 1) n := rfl
    rw [ih, Nat.add_mod_right] at h1
    omega

theorem hits_add (n i a k l : Nat) : hits n i a (k + l) = hits n i a k + hits n i (a + k) l := by
  induction k generalizing a with
  | zero => simp [hits]
  | succ k ih =>
    have : k + 1 + l = (k + l) + 1 := by omega
    rw [this, hits, hits, ih (a + 1)]
    have : a + 1 + k = a + (k + 1) := by omega
    rw [this]
    omega

theorem hits_le_one (n i a k : Nat) (hi : i < n) (hk : k ≤ n) : hits n i a k ≤ 1 := by
  have h1 := hits_block n i a hi
  have h2 := hits_add n i a k (n - k)
  rw [show k + (n - k) = n by omega] at h2
  omega

/-- Of `k` consecutive numbers, every residue modulo `n` is hit `⌊k/n⌋` or `⌈k/n⌉` times. -/
theorem hits_bounds (n i a k : Nat) (hi : i < n) : k / n ≤ hits n i a k ∧ hits n i a k ≤ k / n + (if n ∣ k then 0 else 1) := by
  have main : ∀ q r, r < n → hits n i a (n * q + r) = q + hits n i (a + n * q) r := by
    intro q
    induction q with
    | zero => intro r _; simp
    | succ q ih =>
      intro r hr
      have h1 : n * (q + 1) + r = (n * q) + (n + r) := by rw [Nat.mul_succ]; omega
      rw [h1, hits_add, hits_add n i _ n r, hits_block n i _ hi]
      have h2 := ih 0 (by omega)
      simp only [Nat.add_zero, hits] at h2
      rw [h2]
      have h3 : a + n * q + n = a + n * (q + 1) := by rw [Nat.mul_succ]; omega
      rw [h3]
      omega
  have hk : k = n * (k / n) + k % n := (Nat.div_add_mod k n).symm
  have hr : k % n < n := Nat.mod_lt _ (by omega)
  have hm := main (k / n) (k % n) hr
  rw [← hk] at hm
  have h1 := hits_le_one n i (a + n * (k / n)) (k % n) hi (Nat.le_of_lt hr)
  refine ⟨by omega, ?_⟩
  split
  · rename_i hd
    rw [Nat.mod_eq_zero_of_dvd hd] at hm
    simp only [hits] at hm
    omega
  · omega

/-! ### One server -/

theorem hits_shift (n i M : Nat) (hb : n ∣ M) : ∀ (m c : Nat), hits n i c m = hits n i (c + M) m := by
  intro m
  induction m with
  | zero => intro c; rfl
  | succ m ihm =>
    intro c
    have h1 : (c + M) % n = c % n := by
      obtain ⟨q, hq⟩ := hb
      rw [hq, Nat.add_mul_mod_self_left]
    have h2 : c + 1 + M = c + M + 1 := by omega
    rw [hits, hits, ihm (c + 1), h1, h2]

theorem assign_single (loops : Nat → Nat) (j i : Nat) : ∀ (k index : Nat),
    index < 2 ^ 32 → (index + k ≤ 2 ^ 32 ∨ loops j ∣ 2 ^ 32) →
    load (assign loops index (List.replicate k j)) j i = hits (loops j) i index k := by
  intro k
  induction k with
  | zero => intro index _ _; rfl
  | succ k ih =>
    intro index hi hb
    rw [List.replicate_succ, assign, load, List.countP_cons, ← load]
    have hidx : hits (loops j) i ((index + 1) % 2 ^ 32) k = hits (loops j) i (index + 1) k := by
      by_cases hlt : index + 1 < 2 ^ 32
      · rw [Nat.mod_eq_of_lt hlt]
      · have he : index + 1 = 2 ^ 32 := by omega
        rcases hb with hb | hb
        · have : k = 0 := by omega
          subst this; rfl
        · rw [he, Nat.mod_self]
          rw [hits_shift (loops j) i (2 ^ 32) hb k 0, Nat.zero_add]
    have hstep : (next index (loops j)).2 = (index + 1) % 2 ^ 32 := rfl
    rw [hstep, ih ((index + 1) % 2 ^ 32) (Nat.mod_lt _ (by omega)) (by
      rcases hb with hb | hb
      · by_cases hlt : index + 1 < 2 ^ 32
        · rw [Nat.mod_eq_of_lt hlt]; left; omega
        · left
          have he : index + 1 = 2 ^ 32 := by omega
          rw [he, Nat.mod_self]; omega
      · exact Or.inr hb), hidx, hits]
    have he : ((j, (next index (loops j)).1) == (j, i)) = decide (index % loops j = i) := by
      rw [Bool.eq_iff_iff, beq_iff_eq, decide_eq_true_eq, Prod.mk.injEq]
      exact ⟨fun h => h.2, fun h => ⟨rfl, h⟩⟩
    rw [he]
    by_cases hq : index % loops j = i
    · simp [hq]; omega
    · simp [hq]

/-- **C146.** If it is the only server of its configuration, the loops of a server are given the same number
of connections up to one: after `k` connections every loop has `⌊k/n⌋` or `⌈k/n⌉`, for the first `2^32`
connections, and for ever if the number of loops is a power of two. -/
theorem c146_even (loops : Nat → Nat) (j k i : Nat) (hi : i < loops j) (hk : k ≤ 2 ^ 32 ∨ loops j ∣ 2 ^ 32) :
    k / loops j ≤ load (assign loops 0 (List.replicate k j)) j i ∧
    load (assign loops 0 (List.replicate k j)) j i ≤ k / loops j + (if loops j ∣ k then 0 else 1) := by
  rw [assign_single loops j i k 0 (by omega) (by rw [Nat.zero_add]; exact hk)]
  exact hits_bounds (loops j) i 0 k hi

/-- **C146.** Every connection is given to exactly one loop, and to an existing one, whatever servers share the
counter. -/
theorem c146_valid (loops : Nat → Nat) (hl : ∀ j, 0 < loops j) (acc : List Nat) (index : Nat) :
    (assign loops index acc).map Prod.fst = acc ∧ ∀ x ∈ assign loops index acc, x.2 < loops x.1 := by
  induction acc generalizing index with
  | nil => simp [assign]
  | cons j t ih =>
    have := ih (next index (loops j)).2
    refine ⟨by rw [assign, List.map_cons, this.1], ?_⟩
    intro x hx
    rw [assign, List.mem_cons] at hx
    rcases hx with rfl | hx
    · exact Nat.mod_lt _ (hl j)
    · exact this.2 x hx

/-- **C146.** Consecutive connections of one server go to different loops (as long as the counter does not
wrap, and there is more than one loop). -/
theorem c146_consecutive (index n : Nat) (hn : 2 ≤ n) (hi : index + 1 < 2 ^ 32) :
    (next index n).1 ≠ (next (next index n).2 n).1 := by
  simp only [next]
  rw [Nat.mod_eq_of_lt hi]
  intro h
  have h1 := Nat.div_add_mod index n
  have h2 := Nat.div_add_mod (index + 1) n
  have h3 := Nat.mod_lt index (show 0 < n by omega)
  rw [← h] at h2
  have h4 : n * ((index + 1) / n) = n * (index / n) + 1 := by omega
  have h5 : n ∣ 1 := by
    have a : n ∣ n * ((index + 1) / n) := ⟨_, rfl⟩
    rw [h4] at a
    exact (Nat.dvd_add_right ⟨_, rfl⟩).1 a
  have := Nat.le_of_dvd (by omega) h5
  omega

/-- **C147, violation.** The counter is shared by all servers of the same configuration: two servers with two loops
each that accept in turn use one loop each — all connections of the first go to its loop 0, all of the second to
its loop 1, for ever. -/
theorem c147_shared_counter_violated (k : Nat) :
    ∀ x ∈ assign (fun _ => 2) 0 (List.replicate k [0, 1]).flatten, x.2 = x.1 := by
  have : ∀ (k index : Nat), index % 2 = 0 → index < 2 ^ 32 →
      ∀ x ∈ assign (fun _ => 2) index (List.replicate k [0, 1]).flatten, x.2 = x.1 := by
    intro k
    induction k with
    | zero => intro index _ _ x hx; simp [assign] at hx
    | succ k ih =>
      intro index he hl x hx
      rw [List.replicate_succ, List.flatten_cons, List.cons_append, List.cons_append, List.nil_append, assign, assign] at hx
      simp only [next, List.mem_cons] at hx
      rcases hx with rfl | rfl | hx
      · exact he
      · show (index + 1) % 2 ^ 32 % 2 = 1
        omega
      · exact ih _ (by omega) (by omega) x hx
  exact this k 0 rfl (by omega)

/-- The loads of that history: the first server's loop 0 has everything, its loop 1 nothing. -/
theorem c147_shared_counter_load (k : Nat) :
    load (assign (fun _ => 2) 0 (List.replicate k [0, 1]).flatten) 0 1 = 0 := by
  rw [load, List.countP_eq_zero]
  intro x hx
  have := c147_shared_counter_violated k x hx
  simp only [beq_iff_eq]
  intro hc
  rw [hc] at this
  simp at this

/-- **C147, violation.** When the 32-bit counter wraps, a server with three loops gives two connections in a row to
the same loop, and the loops drift apart by one connection per wrap. -/
theorem c147_wrap_violated : (next (2 ^ 32 - 1) 3).1 = 0 ∧ (next (next (2 ^ 32 - 1) 3).2 3).1 = 0 := by decide

example : assign (fun _ => 3) 0 [7, 7, 7, 7] = [(7, 0), (7, 1), (7, 2), (7, 0)] := by decide

/-! ### Serving, stopping and serving again -/

/-- `ioservices_`, `serving_flag_`, `closed_callback_`; callbacks called so far; services whose `IOServiceStoped`
is still to come.  Services are numbered as they are made.  What happens inside a service between `Stop` and
`IOServiceStoped` is the subject of C36, C61 and C62 (Verif/Server/Accounting.lean); here it reports once per
`Stop`. -/
structure Life where
  live : List Nat := []
  serving : Bool := false
  cb : Option Nat := none
  fired : List Nat := []
  stops : List Nat := []
  made : Nat := 0
deriving DecidableEq, Repr

inductive Op where
  | serve                       -- ServeAddress
  | stop (cb : Option Nat)      -- StopServer(callback)
  | stoped (i : Nat)            -- IOServiceStoped of service i
deriving DecidableEq, Repr

/-- One call; `none`: the process is aborted by `CHECK`, or the event is not due. -/
def Life.step (s : Life) : Op → Option Life
  | .serve =>                                            -- generic_server.h:72-107
    if s.serving = true then none
    else some { s with serving := true, live := s.live ++ [s.made], made := s.made + 1 }
  | .stop cb =>                                          -- generic_server.h:109-118
    if s.serving = true then some { s with serving := false, cb := cb, stops := s.stops ++ s.live } else none
  | .stoped i =>                                         -- generic_server.h:154-163
    if i ∈ s.stops then
      some { s with stops := s.stops.erase i, live := s.live.filter (fun x => decide (x ≠ i)), fired := if s.live.filter (fun x => decide (x ≠ i)) = [] then s.fired ++ s.cb.toList else s.fired }
    else none

def Life.run (s : Life) : List Op → Option Life
  | [] => some s
  | l :: t => match s.step l with
    | none => none
    | some s' => Life.run s' t

/-- The user serves again only when all services of the previous round have stopped. -/
def Patient (s : Life) : List Op → Prop
  | [] => True
  | l :: t => (l = .serve → s.live = []) ∧ ∀ s', s.step l = some s' → Patient s' t

/-- The callbacks given to `StopServer`, in order. -/
def callbacks : List Op → List Nat
  | [] => []
  | .stop cb :: t => cb.toList ++ callbacks t
  | _ :: t => callbacks t

structure LInv (s : Life) : Prop where
  one : s.serving = true → s.stops = [] ∧ ∃ x, s.live = [x]
  done : s.serving = false → s.stops = s.live ∧ (s.live = [] ∨ ∃ x, s.live = [x])

theorem life_aux {s s' : Life} {h : List Op} (inv : LInv s) (hp : Patient s h) (hr : s.run h = some s') :
    LInv s' ∧
    s'.fired ++ (if s'.serving = false ∧ s'.live ≠ [] then s'.cb.toList else []) =
      s.fired ++ (if s.serving = false ∧ s.live ≠ [] then s.cb.toList else []) ++ callbacks h := by
  induction h generalizing s with
  | nil =>
    simp only [Life.run, Option.some.injEq] at hr
    subst hr
    exact ⟨inv, by simp [callbacks]⟩
  | cons l t ih =>
    simp only [Life.run] at hr
    cases hs : s.step l with
    | none => rw [hs] at hr; simp at hr
    | some s1 =>
      rw [hs] at hr
      simp only [] at hr
      obtain ⟨hp1, hp2⟩ := hp
      have hp3 := hp2 s1 hs
      cases l with
      | serve =>
        have hl := hp1 rfl
        simp only [Life.step] at hs
        split at hs
        · simp at hs
        · rename_i hsv
          simp only [Option.some.injEq] at hs
          subst hs
          have hsv' : s.serving = false := by simpa using hsv
          have hst := (inv.done hsv').1
          rw [hl] at hst
          have key := ih (s := { s with serving := true, live := s.live ++ [s.made], made := s.made + 1 })
            ⟨fun _ => ⟨hst, s.made, by simp [hl]⟩, fun h => by simp at h⟩ hp3 hr
          refine ⟨key.1, ?_⟩
          rw [key.2]
          simp [hl, callbacks]
      | stop cb =>
        simp only [Life.step] at hs
        split at hs
        · rename_i hsv
          simp only [Option.some.injEq] at hs
          subst hs
          obtain ⟨h1, x, h2⟩ := inv.one hsv
          have key := ih (s := { s with serving := false, cb := cb, stops := s.stops ++ s.live })
            ⟨fun h => by simp at h, fun _ => ⟨by simp [h1], Or.inr ⟨x, h2⟩⟩⟩ hp3 hr
          refine ⟨key.1, ?_⟩
          rw [key.2]
          simp [h2, hsv, callbacks]
        · simp at hs
      | stoped i =>
        simp only [Life.step] at hs
        split at hs
        · rename_i hi
          simp only [Option.some.injEq] at hs
          by_cases hsv : s.serving = true
          · rw [(inv.one hsv).1] at hi; simp at hi
          · have hsv' : s.serving = false := by simpa using hsv
            obtain ⟨h1, h2⟩ := inv.done hsv'
            rcases h2 with h2 | ⟨x, h2⟩
            · rw [h1, h2] at hi; simp at hi
            · rw [h1, h2] at hi
              simp only [List.mem_singleton] at hi
              subst hi
              have hf : s.live.filter (fun y => decide (y ≠ i)) = [] := by rw [h2]; simp
              rw [hf, if_pos rfl] at hs
              subst hs
              have key := ih (s := { s with stops := s.stops.erase i, live := [], fired := s.fired ++ s.cb.toList })
                ⟨fun h => by rw [hsv'] at h; simp at h, fun _ => ⟨by rw [h1, h2]; simp, Or.inl rfl⟩⟩ hp3 hr
              refine ⟨key.1, ?_⟩
              rw [key.2]
              simp [hsv', h2, callbacks]
        · simp at hs

/-- **C148.** If the server is started again only after the previous round has stopped, then at every moment the
callbacks called are exactly those of the completed stops, each once, in order: all given ones if nothing is
stopping, otherwise all but the last one, which is still to come. -/
theorem c148_callbacks {h : List Op} {s : Life} (hp : Patient {} h) (hr : Life.run {} h = some s) :
    callbacks h = s.fired ++ (if s.serving = false ∧ s.live ≠ [] then s.cb.toList else []) := by
  have := (life_aux (s := {}) ⟨fun h => by simp at h, fun _ => ⟨rfl, Or.inl rfl⟩⟩ hp hr).2
  rw [this]
  simp

/-- **C148.** A stop that is under way can always complete: the report of the one service is due, and calls
the callback. -/
theorem c148_completes {h : List Op} {s : Life} (hp : Patient {} h) (hr : Life.run {} h = some s)
    (hs : s.serving = false) (hl : s.live ≠ []) :
    ∃ i s', s.live = [i] ∧ s.step (.stoped i) = some s' ∧ s'.live = [] ∧ s'.fired = s.fired ++ s.cb.toList := by
  have inv := (life_aux (s := {}) ⟨fun h => by simp at h, fun _ => ⟨rfl, Or.inl rfl⟩⟩ hp hr).1
  obtain ⟨h1, h2⟩ := inv.done hs
  rcases h2 with h2 | ⟨x, h2⟩
  · exact absurd h2 hl
  · refine ⟨x, { s with stops := s.stops.erase x, live := [], fired := s.fired ++ s.cb.toList }, h2, ?_, rfl, rfl⟩
    simp [Life.step, h1, h2]

/-- **C148.** A stopped server can be started again, a serving one can be stopped. -/
theorem c148_alternate (s : Life) (cb : Option Nat) :
    (s.serving = false → ∃ s', s.step .serve = some s' ∧ s'.serving = true) ∧
    (s.serving = true → ∃ s', s.step (.stop cb) = some s' ∧ s'.serving = false) := by
  constructor
  · intro h
    exact ⟨{ s with serving := true, live := s.live ++ [s.made], made := s.made + 1 }, by simp [Life.step, h], rfl⟩
  · intro h
    exact ⟨{ s with serving := false, cb := cb, stops := s.stops ++ s.live }, by simp [Life.step, h], rfl⟩

/-- **C149, violation.** A server that is started again while it is still stopping — the flag allows it
(generic_server.h:75, 110) — forgets the callback of the first stop: the list of services is not empty when the
old one reports, and the callback is replaced by the next stop's. -/
theorem c149_restart_violated (c1 c2 : Nat) :
    ∃ s, Life.run {} [.serve, .stop (some c1), .serve, .stoped 0, .stop (some c2), .stoped 1] = some s ∧
    s.fired = [c2] ∧ s.live = [] ∧ s.stops = [] := ⟨_, rfl, rfl, rfl, rfl⟩

/-- **C149, violation.** In the same situation a second stop is told to the old service too, and the second
callback is called twice. -/
theorem c149_restart_twice_violated (c1 c2 : Nat) :
    ∃ s, Life.run {} [.serve, .stop (some c1), .serve, .stop (some c2), .stoped 1, .stoped 0, .stoped 0] = some s ∧
    s.fired = [c2, c2] := ⟨_, rfl, rfl⟩

example : ∃ s, Life.run {} [.serve, .stop (some 5), .stoped 0, .serve, .stop (some 6)] = some s ∧ s.fired = [5] ∧ s.live = [1] := ⟨_, rfl, rfl, rfl⟩
example : Patient {} [.serve, .stop (some 5), .stoped 0, .serve, .stop (some 6)] := by
  simp [Patient, Life.step]

end Ltio.Server.Assign
