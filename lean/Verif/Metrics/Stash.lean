import Verif.Sync.Basic

/-
Model of components/log_metrics/metrics_stash.{h,cc} (C87): the stash that collects metric items from
any number of threads, its own thread and the "turbo" thread.

Items are numbered, with the flag that tells histograms from gauges.  A container is represented by
the items it has absorbed (what it computes from them is C85).  The concurrent queues are bags: an
item is taken from any position (their order is not a promise of the library).  `running_` is
written by `Start` and `StopSync` only; that it is not atomic is not modelled.  A name is not used
for both types (if it is, the container casts the entry to the wrong class).
-/
namespace Ltio.Metrics.Stash
open Ltio.Sync

/-- An item. -/
structure Item where
  id : Nat
  hist : Bool
deriving DecidableEq

/-- Where a thread is in `StashMain` (lines 142-164) or `TurboMain` (76-89). -/
inductive PC where
  /-- no thread -/
  | off
  /-- before the test of `running_` (line 143; 77) -/
  | top
  /-- turbo: before or in `wait_dequeue_timed` (line 79) -/
  | wait
  /-- in `ProcessMetric` (91-124): taking items out of queue `i`, `c` taken so far, `b` in the vector -/
  | take (i c : Nat) (b : List Item)
  /-- in `ProcessMetric`: handling the items taken out of queue `i` -/
  | handle (i : Nat) (b : List Item)
  /-- main: before merging (156-161); turbo: before repeating or handing over (86-87) -/
  | after
  /-- main: before `GenerateReport` (162) -/
  | report
  /-- returned -/
  | ended
deriving DecidableEq

/-- The stash. -/
structure St where
  /-- the queues -/
  q : Nat → List Item
  /-- `index_` of the queue group -/
  index : Nat
  running : Bool
  main : PC
  turbo : PC
  /-- what `container_` has absorbed -/
  cont : List Item
  /-- what the turbo thread's container has absorbed -/
  tcont : List Item
  /-- containers in `dispatch_quque_` (all empty) and in `merger_quque_` -/
  disp : Nat
  merge : List (List Item)
  /-- reports made, each with its time; items taken by the handler; items lost by a merge (ghosts) -/
  reports : List (Nat × List Item)
  handled : List Item
  lost : List Item
  /-- items given to `Stash` (ghost) -/
  stashed : List Item
  /-- the clock and `last_report_time_` -/
  now : Nat
  last : Nat

/-- A new stash at time `t` (lines 19-29). -/
def init (t : Nat) : St :=
  ⟨fun _ => [], 0, false, .off, .off, [], [], 0, [], [], [], [], [], t, t⟩

/-- Configuration: number of queues (`hardware_concurrency`), turbo mode, the user's handler, and the
interval set with `SetReportInterval` (seconds). -/
structure Cfg where
  n : Nat
  turbo : Bool
  handler : Item → Bool
  interval : Nat

/-- What can happen. -/
inductive Lab where
  /-- `Stash(item)` by any thread (lines 43-46); `enqueue` fails only without memory -/
  | stash (x : Item)
  | start
  /-- `StopSync` sets `running_` (line 49) -/
  | stop
  /-- the joins of `StopSync` return (51-63) -/
  | join
  /-- a second passes -/
  | tick
  /-- main thread: next step; `k` chooses the item taken -/
  | goM (k : Nat)
  /-- turbo thread: next step; `k` chooses the item taken, `b` a timeout or the end of a time slice -/
  | goT (k : Nat) (b : Bool)

/-- Most items taken out of a queue in one pass (lines 97-98). -/
def bulk : Nat := 10000

/-- Taking items out of queue `i`: position `k` if there is such an item and the vector is not full;
otherwise the pass over this queue ends.  (`k` out of range: `try_dequeue_bulk` may return fewer items
than there are.) -/
def takeStep (s : St) (i c : Nat) (b : List Item) (k : Nat) : (Nat → List Item) × PC :=
  match (if c < bulk then (s.q i)[k]? else none) with
  | some x => (put s.q i ((s.q i).eraseIdx k), .take i (c + 1) (b ++ [x]))
  | none => (s.q, .handle i b)

/-- Handling one item (lines 103-121): what the handler and the container get. -/
def handleItem (cf : Cfg) (x : Item) : List Item × List Item :=
  if cf.handler x then ([x], []) else ([], [x])

/-- `ProcessMetric` goes on to the next queue (line 94) or returns (123). -/
def nextQueue (cf : Cfg) (i : Nat) : PC := if i + 1 < cf.n then .take (i + 1) 0 [] else .after

/-- Start of `ProcessMetric`. -/
def begin (cf : Cfg) : PC := if 0 < cf.n then .take 0 0 [] else .after

/-- The main thread has handled an item. -/
def St.absorb (s : St) (i : Nat) (b : List Item) (r : List Item × List Item) : St :=
  { s with main := .handle i b, handled := s.handled ++ r.1, cont := s.cont ++ r.2 }

/-- The container is reported and replaced (lines 131-139). -/
def St.reportNow (s : St) : St :=
  { s with main := .top, last := s.now, reports := s.reports ++ [(s.now, s.cont)], cont := [] }

/-- The main thread's pass over the queues, for the parts of the state it changes. -/
def mainProc (cf : Cfg) (s : St) (k : Nat) : PC → Option St
  | .take i c b =>
    some { s with q := (takeStep s i c b k).1, main := (takeStep s i c b k).2 }
  | .handle i [] => some { s with main := nextQueue cf i }
  | .handle i (x :: b) => some (s.absorb i b (handleItem cf x))
  | _ => none

/-- `main_container->Merge` (line 159; metrics_container.cc:153-166): gauges are merged, and of
histograms the values are lost (C85 `c85_merge_loses`). -/
def mergeOne (s : St) : St :=
  match s.merge with
  | [] => { s with main := .report }
  | c :: cs =>
    { s with main := .report, merge := cs, cont := s.cont ++ c.filter (fun x => !x.hist),
             lost := s.lost ++ c.filter (fun x => x.hist) }

/-- `GenerateReport` (lines 126-140). -/
def report (s : St) : St :=
  if s.now - s.last < 5 then { s with main := .top }
  else s.reportNow

/-- The main thread. -/
def goMain (cf : Cfg) (s : St) (k : Nat) : PC → Option St
  | .top =>
    if s.running then some { s with main := begin cf, disp := if cf.turbo then s.disp + 1 else s.disp }
    else some { s with main := .ended }
  | .after => if cf.turbo then some (mergeOne s) else some { s with main := .report }
  | .report => some (report s)
  | p => mainProc cf s k p

/-- The turbo thread. -/
def goTurbo (cf : Cfg) (s : St) (k : Nat) (b : Bool) : PC → Option St
  | .top => if s.running then some { s with turbo := .wait } else some { s with turbo := .ended }
  | .wait =>
    if s.disp = 0 then some { s with turbo := .top }
    else if b then some { s with turbo := .top }
    else some { s with turbo := begin cf, disp := s.disp - 1 }
  | .take i c bt =>
    some { s with q := (takeStep s i c bt k).1, turbo := (takeStep s i c bt k).2 }
  | .handle i [] => some { s with turbo := nextQueue cf i }
  | .handle i (x :: bt) =>
    some { s with turbo := .handle i bt, handled := s.handled ++ (handleItem cf x).1,
                  tcont := s.tcont ++ (handleItem cf x).2 }
  | .after =>
    if b then some { s with turbo := begin cf }
    else some { s with turbo := .top, merge := s.merge ++ [s.tcont], tcont := [] }
  | _ => none

/-- One step. -/
def step (cf : Cfg) (s : St) : Lab → Option St
  | .stash x =>
    -- `queues_[++index_ % size]` (metrics_stash.h:23): a division by zero without queues
    if cf.n = 0 then none
    else
      some { s with index := (s.index + 1) % 2 ^ 32, stashed := s.stashed ++ [x],
                    q := put s.q ((s.index + 1) % 2 ^ 32 % cf.n)
                      (s.q ((s.index + 1) % 2 ^ 32 % cf.n) ++ [x]) }
  | .start =>
    if s.running = false ∧ s.main = .off ∧ s.turbo = .off then
      some { s with running := true, main := .top, turbo := if cf.turbo then .top else .off }
    else none
  | .stop => some { s with running := false }
  | .join =>
    if s.running = false ∧ s.main = .ended ∧ (s.turbo = .off ∨ s.turbo = .ended) then
      some { s with main := .off, turbo := .off }
    else none
  | .tick => some { s with now := s.now + 1 }
  | .goM k => goMain cf s k s.main
  | .goT k b => goTurbo cf s k b s.turbo

/-- The states of a stash created at time `t`. -/
abbrev R (cf : Cfg) (t : Nat) (s : St) : Prop := Reach (step cf) (init t) s

/-- The items a thread has in its vector. -/
def held : PC → List Item
  | .take _ _ b => b
  | .handle _ b => b
  | _ => []

/-- How often an item is in queues `m`, …, `m + c - 1`. -/
def inQueues (q : Nat → List Item) (x : Item) (m : Nat) : Nat → Nat
  | 0 => 0
  | c + 1 => (q m).count x + inQueues q x (m + 1) c

/-- How often an item has been reported. -/
def reported (s : St) (x : Item) : Nat := (s.reports.map fun r => r.2.count x).sum

/-- How often an item waits in containers to be merged. -/
def merging (s : St) (x : Item) : Nat := (s.merge.map fun c => c.count x).sum

/-- How often an item is somewhere in the stash, on its way. -/
def inside (cf : Cfg) (s : St) (x : Item) : Nat :=
  inQueues s.q x 0 cf.n + (held s.main).count x + (held s.turbo).count x + s.cont.count x +
    s.tcont.count x + merging s x

theorem inQueues_out (q : Nat → List Item) (x : Item) (i : Nat) (l : List Item) :
    ∀ c m, (i < m ∨ m + c ≤ i) → inQueues (put q i l) x m c = inQueues q x m c := by
  intro c
  induction c with
  | zero => intro m _; rfl
  | succ c ih =>
    intro m h
    simp only [inQueues]
    rw [ih (m + 1) (by omega), put_ne _ _ (by omega)]

theorem inQueues_put (q : Nat → List Item) (x : Item) (i : Nat) (l : List Item) :
    ∀ c m, m ≤ i → i < m + c →
      inQueues (put q i l) x m c + (q i).count x = inQueues q x m c + l.count x := by
  intro c
  induction c with
  | zero => intro m h1 h2; omega
  | succ c ih =>
    intro m h1 h2
    simp only [inQueues]
    by_cases h : m = i
    · subst h
      rw [inQueues_out q x m l c (m + 1) (Or.inl (by omega)), put_same]
      omega
    · have := ih (m + 1) (by omega) (by omega)
      rw [put_ne _ _ h]
      omega

/-- The position of a thread refers to a queue. -/
def posOk (n : Nat) : PC → Prop
  | .take i _ _ => i < n
  | .handle i _ => i < n
  | _ => True

theorem posOk_begin (cf : Cfg) : posOk cf.n (begin cf) ∧ held (begin cf) = [] := by
  unfold begin; split <;> simp_all [posOk, held]

theorem posOk_next (cf : Cfg) (i : Nat) : posOk cf.n (nextQueue cf i) ∧ held (nextQueue cf i) = [] := by
  unfold nextQueue; split <;> simp_all [posOk, held]

theorem count_eraseIdx (l : List Item) (k : Nat) (y x : Item) (h : l[k]? = some y) :
    (l.eraseIdx k).count x + [y].count x = l.count x := by
  induction l generalizing k with
  | nil => simp at h
  | cons a l ih =>
    cases k with
    | zero => simp at h; subst h; simp [List.count_cons]
    | succ k =>
      simp only [List.getElem?_cons_succ] at h
      have := ih k h
      simp only [List.eraseIdx_cons_succ, List.count_cons] at this ⊢
      omega

theorem take_ok (cf : Cfg) (s : St) (i c : Nat) (b : List Item) (k : Nat) (x : Item) (hi : i < cf.n) :
    inQueues (takeStep s i c b k).1 x 0 cf.n + (held (takeStep s i c b k).2).count x =
      inQueues s.q x 0 cf.n + b.count x ∧ posOk cf.n (takeStep s i c b k).2 := by
  unfold takeStep
  split
  case h_2 => exact ⟨rfl, hi⟩
  case h_1 y h =>
    split at h
    · have h1 := count_eraseIdx (s.q i) k y x h
      have h2 := inQueues_put s.q x i ((s.q i).eraseIdx k) cf.n 0 (Nat.zero_le _) (by omega)
      simp only [held, List.count_append]
      exact ⟨by omega, hi⟩
    · simp at h

theorem handle_count (cf : Cfg) (y x : Item) :
    (handleItem cf y).1.count x + (handleItem cf y).2.count x = [y].count x := by
  unfold handleItem; split <;> simp

theorem filter_count (c : List Item) (x : Item) :
    (c.filter (fun y => !y.hist)).count x + (c.filter (fun y => y.hist)).count x = c.count x := by
  induction c with
  | nil => rfl
  | cons a c ih =>
    cases h : a.hist <;> simp [h, List.count_cons] <;> omega

/-- The invariant. -/
structure Inv (cf : Cfg) (s : St) : Prop where
  pm : posOk cf.n s.main
  pt : posOk cf.n s.turbo
  cons : ∀ x, s.stashed.count x =
    s.handled.count x + reported s x + s.lost.count x + inside cf s x

theorem inv_init (cf : Cfg) (t : Nat) : Inv cf (init t) where
  pm := trivial
  pt := trivial
  cons x := by
    have : ∀ c m, inQueues (fun _ => []) x m c = 0 := by
      intro c
      induction c with
      | zero => intro m; rfl
      | succ c ih => intro m; simp [inQueues, ih]
    simp [init, inside, held, reported, merging, this]

theorem inv_step (cf : Cfg) (s : St) (l : Lab) (s' : St) (hi : Inv cf s) (hs : step cf s l = some s') :
    Inv cf s' := by
  have hm := hi.pm
  have ht := hi.pt
  have hc := hi.cons
  simp only [inside, reported, merging] at hc
  cases l with
  | stash x =>
    simp only [step] at hs
    split at hs
    · simp at hs
    · rename_i hn
      cases hs
      refine ⟨hm, ht, fun y => ?_⟩
      have h2 := inQueues_put s.q y ((s.index + 1) % 2 ^ 32 % cf.n)
        (s.q ((s.index + 1) % 2 ^ 32 % cf.n) ++ [x]) cf.n 0 (Nat.zero_le _)
        (by have := Nat.mod_lt ((s.index + 1) % 2 ^ 32) (Nat.pos_of_ne_zero hn); omega)
      have := hc y
      simp only [inside, reported, merging, List.count_append] at h2 ⊢
      omega
  | start =>
    simp only [step] at hs
    split at hs
    · rename_i h
      cases hs
      refine ⟨trivial, by cases cf.turbo <;> trivial, fun y => ?_⟩
      have := hc y
      rw [h.2.1, h.2.2] at this
      cases cf.turbo <;> exact this
    · simp at hs
  | stop => simp only [step] at hs; cases hs; exact ⟨hm, ht, hc⟩
  | join =>
    simp only [step] at hs
    split at hs
    · rename_i h
      cases hs
      refine ⟨trivial, trivial, fun y => ?_⟩
      have := hc y
      rw [h.2.1] at this
      rcases h.2.2 with h2 | h2 <;> rw [h2] at this <;> exact this
    · simp at hs
  | tick => simp only [step] at hs; cases hs; exact ⟨hm, ht, hc⟩
  | goM k =>
    simp only [step] at hs
    cases hp : s.main with
    | off => simp [hp, goMain, mainProc] at hs
    | wait => simp [hp, goMain, mainProc] at hs
    | ended => simp [hp, goMain, mainProc] at hs
    | top =>
      simp only [hp, goMain] at hs
      split at hs
      · cases hs
        refine ⟨(posOk_begin cf).1, ht, fun y => ?_⟩
        have := hc y
        rw [hp] at this
        simp only [inside, reported, merging, (posOk_begin cf).2]
        exact this
      · cases hs
        refine ⟨trivial, ht, fun y => ?_⟩
        have := hc y
        rw [hp] at this
        exact this
    | take i c b =>
      simp only [hp, goMain, mainProc] at hs
      cases hs
      rw [hp] at hm
      have key := fun y => take_ok cf s i c b k y hm
      refine ⟨(key ⟨0, true⟩).2, ht, fun y => ?_⟩
      have := hc y
      have k1 := (key y).1
      rw [hp] at this
      rw [show held (.take i c b) = b from rfl] at this
      simp only [inside, reported, merging]
      omega
    | handle i b =>
      cases b with
      | nil =>
        simp only [hp, goMain, mainProc] at hs
        cases hs
        refine ⟨(posOk_next cf i).1, ht, fun y => ?_⟩
        have := hc y
        rw [hp] at this
        simp only [inside, reported, merging, (posOk_next cf i).2]
        exact this
      | cons x b =>
        simp only [hp, goMain, mainProc] at hs
        cases hs
        rw [hp] at hm
        refine ⟨hm, ht, fun y => ?_⟩
        have := hc y
        have k1 := handle_count cf x y
        rw [hp] at this
        simp only [held, List.count_cons] at this
        simp only [List.count_cons, List.count_nil] at k1
        simp only [inside, reported, merging, held, St.absorb, List.count_append]
        omega
    | after =>
      simp only [hp, goMain] at hs
      split at hs
      · cases hs
        unfold mergeOne
        split
        · refine ⟨trivial, ht, fun y => ?_⟩
          have := hc y
          rw [hp] at this
          exact this
        · rename_i c cs hmq
          refine ⟨trivial, ht, fun y => ?_⟩
          have := hc y
          have k1 := filter_count c y
          rw [hp, hmq] at this
          simp only [held, List.map_cons, List.sum_cons, List.count_nil] at this
          simp only [inside, reported, merging, held, List.count_append, List.count_nil]
          omega
      · cases hs
        refine ⟨trivial, ht, fun y => ?_⟩
        have := hc y
        rw [hp] at this
        exact this
    | report =>
      simp only [hp, goMain] at hs
      cases hs
      unfold report
      split
      · refine ⟨trivial, ht, fun y => ?_⟩
        have := hc y
        rw [hp] at this
        exact this
      · refine ⟨trivial, ht, fun y => ?_⟩
        have := hc y
        rw [hp] at this
        simp only [held, List.count_nil] at this
        simp only [inside, reported, merging, held, St.reportNow, List.map_append, List.sum_append, List.map_cons,
          List.map_nil, List.sum_cons, List.sum_nil, List.count_nil]
        omega
  | goT k b =>
    simp only [step] at hs
    cases hp : s.turbo with
    | off => simp [hp, goTurbo] at hs
    | report => simp [hp, goTurbo] at hs
    | ended => simp [hp, goTurbo] at hs
    | top =>
      simp only [hp, goTurbo] at hs
      split at hs <;> cases hs <;>
      · refine ⟨hm, trivial, fun y => ?_⟩
        have := hc y
        rw [hp] at this
        exact this
    | wait =>
      simp only [hp, goTurbo] at hs
      split at hs
      · cases hs
        refine ⟨hm, trivial, fun y => ?_⟩
        have := hc y
        rw [hp] at this
        exact this
      · split at hs
        · cases hs
          refine ⟨hm, trivial, fun y => ?_⟩
          have := hc y
          rw [hp] at this
          exact this
        · cases hs
          refine ⟨hm, (posOk_begin cf).1, fun y => ?_⟩
          have := hc y
          rw [hp] at this
          simp only [inside, reported, merging, (posOk_begin cf).2]
          exact this
    | take i c bt =>
      simp only [hp, goTurbo] at hs
      cases hs
      rw [hp] at ht
      have key := fun y => take_ok cf s i c bt k y ht
      refine ⟨hm, (key ⟨0, true⟩).2, fun y => ?_⟩
      have := hc y
      have k1 := (key y).1
      rw [hp] at this
      rw [show held (.take i c bt) = bt from rfl] at this
      simp only [inside, reported, merging]
      omega
    | handle i bt =>
      cases bt with
      | nil =>
        simp only [hp, goTurbo] at hs
        cases hs
        refine ⟨hm, (posOk_next cf i).1, fun y => ?_⟩
        have := hc y
        rw [hp] at this
        simp only [inside, reported, merging, (posOk_next cf i).2]
        exact this
      | cons x bt =>
        simp only [hp, goTurbo] at hs
        cases hs
        rw [hp] at ht
        refine ⟨hm, ht, fun y => ?_⟩
        have := hc y
        have k1 := handle_count cf x y
        rw [hp] at this
        simp only [held, List.count_cons] at this
        simp only [List.count_cons, List.count_nil] at k1
        simp only [inside, reported, merging, held, List.count_append]
        omega
    | after =>
      simp only [hp, goTurbo] at hs
      split at hs
      · cases hs
        refine ⟨hm, (posOk_begin cf).1, fun y => ?_⟩
        have := hc y
        rw [hp] at this
        simp only [inside, reported, merging, (posOk_begin cf).2]
        exact this
      · cases hs
        refine ⟨hm, trivial, fun y => ?_⟩
        have := hc y
        rw [hp] at this
        simp only [held, List.count_nil] at this
        simp only [inside, reported, merging, held, List.map_append, List.sum_append, List.map_cons,
          List.map_nil, List.sum_cons, List.sum_nil, List.count_nil]
        omega

/-- **C87.** Nothing is counted twice and nothing vanishes elsewhere: at every moment, of every item,
what has been stashed is what the user's handler took, plus what has been reported, plus what a
merge has lost, plus what is on its way inside of the stash. -/
theorem c87_conservation {cf : Cfg} {t : Nat} {s : St} (h : R cf t s) (x : Item) :
    s.stashed.count x = s.handled.count x + reported s x + s.lost.count x + inside cf s x :=
  (inv_reach (inv_init cf t) (inv_step cf) h).cons x

/-- **C87.** So an item stashed once is reported at most once, and not if the handler took it. -/
theorem c87_at_most_once {cf : Cfg} {t : Nat} {s : St} (h : R cf t s) {x : Item}
    (hx : s.stashed.count x = 1) : s.handled.count x + reported s x ≤ 1 := by
  have := c87_conservation h x
  omega

theorem goMain_lost {cf : Cfg} {s s' : St} {k : Nat} (p : PC) (hs : goMain cf s k p = some s') :
    s'.lost = s.lost ∨ (cf.turbo = true ∧ ∃ c : List Item, s'.lost = s.lost ++ c.filter (fun x => x.hist)) := by
  cases p with
  | top => simp only [goMain] at hs; split at hs <;> cases hs <;> exact Or.inl rfl
  | after =>
    simp only [goMain] at hs
    split at hs
    · rename_i ht
      cases hs
      cases hm : s.merge with
      | nil => simp only [mergeOne, hm]; exact Or.inl trivial
      | cons c cs => simp only [mergeOne, hm]; exact Or.inr ⟨ht, c, rfl⟩
    · cases hs; exact Or.inl rfl
  | report =>
    simp only [goMain] at hs
    cases hs
    unfold report
    split <;> exact Or.inl rfl
  | handle i b => cases b <;> (simp only [goMain, mainProc] at hs; cases hs; exact Or.inl rfl)
  | take i c b => simp only [goMain, mainProc] at hs; cases hs; exact Or.inl rfl
  | _ => simp [goMain, mainProc] at hs

theorem goTurbo_same {cf : Cfg} {s s' : St} {k : Nat} {b : Bool} (p : PC)
    (hs : goTurbo cf s k b p = some s') :
    s'.lost = s.lost ∧ s'.reports = s.reports ∧ s'.last = s.last ∧ s'.now = s.now ∧
      s'.main = s.main ∧ s'.running = s.running ∧ s'.cont = s.cont := by
  cases p with
  | handle i b =>
    cases b <;> (simp only [goTurbo] at hs; cases hs; exact ⟨rfl, rfl, rfl, rfl, rfl, rfl, rfl⟩)
  | _ =>
    simp only [goTurbo] at hs
    first
    | (simp at hs; done)
    | (repeat' split at hs
       all_goals (cases hs; exact ⟨rfl, rfl, rfl, rfl, rfl, rfl, rfl⟩))

/-- **C87.** Only histogram items that went through the turbo thread can be lost; without turbo mode
nothing is. -/
theorem c87_lost {cf : Cfg} {t : Nat} {s : St} (h : R cf t s) :
    ∀ x ∈ s.lost, x.hist = true ∧ cf.turbo = true := by
  refine inv_reach (I := fun s => ∀ x ∈ s.lost, x.hist = true ∧ cf.turbo = true) ?_ ?_ h
  · intro x hx; simp [init] at hx
  · intro s l s' hi hs
    cases l with
    | goM k =>
      simp only [step] at hs
      rcases goMain_lost _ hs with e | ⟨ht, c, e⟩
      · rw [e]; exact hi
      · rw [e]
        intro x hx
        rcases List.mem_append.1 hx with hx | hx
        · exact hi x hx
        · exact ⟨by simpa using (List.mem_filter.1 hx).2, ht⟩
    | goT k b =>
      simp only [step] at hs
      rw [(goTurbo_same _ hs).1]
      exact hi
    | _ =>
      simp only [step] at hs
      first
      | (cases hs; exact hi)
      | (split at hs
         all_goals first | (cases hs; exact hi) | simp at hs)

/-- The invariant about times. -/
def TimeInv (s : St) : Prop :=
  s.last ≤ s.now ∧ (∀ r ∈ s.reports, r.1 ≤ s.last) ∧
    s.reports.Pairwise (fun a b => a.1 + 5 ≤ b.1)

theorem goMain_time {cf : Cfg} {s s' : St} {k : Nat} (p : PC) (hs : goMain cf s k p = some s')
    (hi : TimeInv s) : TimeInv s' := by
  cases p with
  | top => simp only [goMain] at hs; split at hs <;> cases hs <;> exact hi
  | after =>
    simp only [goMain] at hs
    split at hs
    · cases hs
      unfold mergeOne
      split <;> exact hi
    · cases hs; exact hi
  | report =>
    simp only [goMain] at hs
    cases hs
    unfold report
    split
    · exact hi
    · rename_i hn
      obtain ⟨h1, h2, h3⟩ := hi
      refine ⟨Nat.le_refl _, ?_, ?_⟩
      · intro r hr
        rcases List.mem_append.1 hr with hr | hr
        · exact Nat.le_trans (h2 r hr) h1
        · simp only [List.mem_singleton] at hr; subst hr; exact Nat.le_refl _
      · refine List.pairwise_append.2 ⟨h3, by simp, ?_⟩
        intro a ha b hb
        simp only [List.mem_singleton] at hb; subst hb
        have := h2 a ha
        show a.1 + 5 ≤ s.now
        omega
  | handle i b => cases b <;> (simp only [goMain, mainProc] at hs; cases hs; exact hi)
  | take i c b => simp only [goMain, mainProc] at hs; cases hs; exact hi
  | _ => simp [goMain, mainProc] at hs

/-- **C87.** Reports are at least five seconds apart. -/
theorem c87_interval {cf : Cfg} {t : Nat} {s : St} (h : R cf t s) :
    s.reports.Pairwise (fun a b => a.1 + 5 ≤ b.1) := by
  refine (inv_reach (I := TimeInv) ?_ ?_ h).2.2
  · exact ⟨Nat.le_refl _, by simp [init], by simp [init]⟩
  · intro s l s' hi hs
    cases l with
    | goM k => simp only [step] at hs; exact goMain_time _ hs hi
    | goT k b =>
      simp only [step] at hs
      obtain ⟨_, h1, h2, h3, _⟩ := goTurbo_same _ hs
      unfold TimeInv
      rw [h1, h2, h3]
      exact hi
    | tick =>
      simp only [step] at hs
      cases hs
      exact ⟨Nat.le_succ_of_le hi.1, hi.2⟩
    | _ =>
      simp only [step] at hs
      first
      | (cases hs; exact hi)
      | (split at hs
         all_goals first | (cases hs; exact hi) | simp at hs)

/-- **C87.** The stash's thread is never stuck: while it exists it has a next step. -/
theorem c87_live {cf : Cfg} {t : Nat} {s : St} (h : R cf t s) (h1 : s.main ≠ .off)
    (h2 : s.main ≠ .ended) (k : Nat) : ∃ s', step cf s (.goM k) = some s' := by
  have hw : s.main ≠ .wait := by
    refine inv_reach (I := fun s => s.main ≠ .wait) (by simp [init]) ?_ h
    intro s l s' hi hs
    cases l with
    | goM k =>
      simp only [step] at hs
      cases hp : s.main with
      | top =>
        simp only [hp, goMain] at hs
        split at hs <;> cases hs
        · simp only [begin]; split <;> simp
        · simp
      | after =>
        simp only [hp, goMain] at hs
        split at hs <;> cases hs
        · unfold mergeOne; split <;> simp
        · simp
      | report => simp only [hp, goMain] at hs; cases hs; unfold report; split <;> simp [St.reportNow]
      | take i c b =>
        simp only [hp, goMain, mainProc] at hs; cases hs
        simp only [takeStep]; split <;> simp
      | handle i b =>
        cases b
        · simp only [hp, goMain, mainProc] at hs; cases hs
          simp only [nextQueue]; split <;> simp
        · simp only [hp, goMain, mainProc] at hs; cases hs; simp [St.absorb]
      | _ => simp [hp, goMain, mainProc] at hs
    | goT k b =>
      simp only [step] at hs
      rw [(goTurbo_same _ hs).2.2.2.2.1]; exact hi
    | _ =>
      simp only [step] at hs
      first
      | (cases hs; first | exact hi | simp)
      | (split at hs
         all_goals first | (cases hs; first | exact hi | simp) | simp at hs)
  simp only [step]
  cases hp : s.main with
  | off => exact absurd hp h1
  | ended => exact absurd hp h2
  | wait => exact absurd hp hw
  | top => simp only [goMain]; split <;> exact ⟨_, rfl⟩
  | after => simp only [goMain]; split <;> exact ⟨_, rfl⟩
  | report => exact ⟨_, rfl⟩
  | take i c b => exact ⟨_, rfl⟩
  | handle i b => cases b <;> exact ⟨_, rfl⟩

/-- Handling a whole vector. -/
theorem handle_all {cf : Cfg} (i : Nat) : ∀ (b : List Item) (s : St), s.main = .handle i b →
    ∃ m s', runs (step cf) s (List.replicate m (.goM 0)) = some s' ∧ s'.main = nextQueue cf i ∧
      s'.q = s.q ∧ s'.now = s.now ∧ s'.last = s.last ∧ s'.merge = s.merge ∧ s'.tcont = s.tcont ∧
      s'.turbo = s.turbo ∧ s'.stashed = s.stashed := by
  intro b
  induction b with
  | nil =>
    intro s hp
    refine ⟨1, { s with main := nextQueue cf i }, ?_, rfl, rfl, rfl, rfl, rfl, rfl, rfl, rfl⟩
    simp [runs, step, hp, goMain, mainProc]
  | cons x b ih =>
    intro s hp
    obtain ⟨m, s', h1, h2⟩ := ih (s.absorb i b (handleItem cf x)) rfl
    refine ⟨m + 1, s', ?_, h2⟩
    rw [List.replicate_succ]
    simp only [runs, step, hp, goMain, mainProc, Option.bind_some]
    exact h1

/-- Emptying one queue of at most `bulk` items, first to last. -/
theorem take_all {cf : Cfg} (i : Nat) : ∀ (l : List Item) (c : Nat) (b : List Item) (s : St),
    s.main = .take i c b → s.q i = l → c + l.length ≤ bulk →
    ∃ m s', runs (step cf) s (List.replicate m (.goM 0)) = some s' ∧ s'.main = nextQueue cf i ∧
      s'.q i = [] ∧ (∀ j, j ≠ i → s'.q j = s.q j) ∧ s'.now = s.now ∧ s'.last = s.last ∧
      s'.merge = s.merge ∧ s'.tcont = s.tcont ∧ s'.turbo = s.turbo ∧ s'.stashed = s.stashed := by
  intro l
  induction l with
  | nil =>
    intro c b s hp hq hc
    obtain ⟨m, s', h1, h2, h3, h4⟩ := handle_all (cf := cf) i b { s with main := .handle i b } rfl
    refine ⟨m + 1, s', ?_, h2, ?_, ?_, h4⟩
    · rw [List.replicate_succ]
      have : takeStep s i c b 0 = (s.q, .handle i b) := by
        simp [takeStep, hq]
      simp only [runs, step, hp, goMain, mainProc, this, Option.bind_some]
      exact h1
    · rw [h3]; exact hq
    · intro j _; rw [h3]
  | cons x l ih =>
    intro c b s hp hq hc
    simp only [List.length_cons] at hc
    obtain ⟨m, s', h1, h2, h3, h4, h5⟩ := ih (c + 1) (b ++ [x])
      { s with main := .take i (c + 1) (b ++ [x]), q := put s.q i l } rfl (by simp) (by omega)
    refine ⟨m + 1, s', ?_, h2, h3, ?_, h5⟩
    · rw [List.replicate_succ]
      have : takeStep s i c b 0 = (put s.q i l, .take i (c + 1) (b ++ [x])) := by
        simp [takeStep, hq, show c < bulk by omega]
      simp only [runs, step, hp, goMain, mainProc, this, Option.bind_some]
      exact h1
    · intro j hj
      rw [h4 j hj]
      exact put_ne _ _ hj

/-- A pass over the queues from queue `i` on. -/
theorem pass_from {cf : Cfg} : ∀ (d i : Nat) (s : St), cf.n = i + d + 1 → s.main = .take i 0 [] →
    (∀ j, (s.q j).length ≤ bulk) → (∀ j, j < i → s.q j = []) →
    ∃ m s', runs (step cf) s (List.replicate m (.goM 0)) = some s' ∧ s'.main = .after ∧
      (∀ j, j < cf.n → s'.q j = []) ∧ s'.now = s.now ∧ s'.last = s.last ∧
      s'.merge = s.merge ∧ s'.tcont = s.tcont ∧ s'.turbo = s.turbo ∧ s'.stashed = s.stashed := by
  intro d
  induction d with
  | zero =>
    intro i s hn hp hl he
    obtain ⟨m, s', h1, h2, h3, h4, h5⟩ := take_all (cf := cf) i _ 0 [] s hp rfl (by simpa using hl i)
    refine ⟨m, s', h1, ?_, ?_, h5⟩
    · rw [h2]; simp [nextQueue, hn]
    · intro j hj
      by_cases hji : j = i
      · subst hji; exact h3
      · rw [h4 j hji]; exact he j (by omega)
  | succ d ih =>
    intro i s hn hp hl he
    obtain ⟨m, s', h1, h2, h3, h4, h5⟩ := take_all (cf := cf) i _ 0 [] s hp rfl (by simpa using hl i)
    have h2' : s'.main = .take (i + 1) 0 [] := by
      rw [h2]; simp only [nextQueue]; rw [if_pos (by omega)]
    obtain ⟨m2, s2, g1, g2, g3, g4⟩ := ih (i + 1) s' (by omega) h2'
      (by
        intro j
        by_cases hji : j = i
        · subst hji; rw [h3]; simp
        · rw [h4 j hji]; exact hl j)
      (by
        intro j hj
        by_cases hji : j = i
        · subst hji; exact h3
        · rw [h4 j hji]; exact he j (by omega))
    refine ⟨m + m2, s2, ?_, g2, g3, ?_⟩
    · rw [← List.replicate_append_replicate, runs_append, h1]
      exact g1
    · obtain ⟨a1, a2, a3, a4, a5, a6⟩ := h5
      obtain ⟨b1, b2, b3, b4, b5, b6⟩ := g4
      exact ⟨b1.trans a1, b2.trans a2, b3.trans a3, b4.trans a4, b5.trans a5, b6.trans a6⟩

theorem inQueues_empty {q : Nat → List Item} {x : Item} : ∀ c m, (∀ j, j < m + c → q j = []) →
    inQueues q x m c = 0 := by
  intro c
  induction c with
  | zero => intro m _; rfl
  | succ c ih =>
    intro m h
    simp only [inQueues, h m (by omega), ih (m + 1) (fun j hj => h j (by omega))]
    rfl

/-- What runs without turbo mode keep. -/
theorem noturbo {cf : Cfg} {t : Nat} {s : St} (hc : cf.turbo = false) (h : R cf t s) :
    s.turbo = .off ∧ s.merge = [] ∧ s.tcont = [] := by
  refine inv_reach (I := fun s => s.turbo = .off ∧ s.merge = [] ∧ s.tcont = []) ⟨rfl, rfl, rfl⟩ ?_ h
  intro s l s' hi hs
  cases l with
  | goM k =>
    simp only [step] at hs
    cases hp : s.main with
    | top => simp only [hp, goMain] at hs; split at hs <;> cases hs <;> exact hi
    | after => simp only [hp, goMain, hc, Bool.false_eq_true, if_false] at hs; cases hs; exact hi
    | report => simp only [hp, goMain] at hs; cases hs; unfold report; split <;> exact hi
    | take i c b => simp only [hp, goMain, mainProc] at hs; cases hs; exact hi
    | handle i b => cases b <;> (simp only [hp, goMain, mainProc] at hs; cases hs; exact hi)
    | _ => simp [hp, goMain, mainProc] at hs
  | goT k b => simp only [step, hi.1, goTurbo] at hs; simp at hs
  | start =>
    simp only [step, hc, Bool.false_eq_true, if_false] at hs
    split at hs
    · cases hs; exact ⟨rfl, hi.2⟩
    · simp at hs
  | join =>
    simp only [step] at hs
    split at hs
    · cases hs; exact ⟨rfl, hi.2⟩
    · simp at hs
  | _ =>
    simp only [step] at hs
    first
    | (cases hs; exact hi)
    | (split at hs
       all_goals first | (cases hs; exact hi) | simp at hs)

/-- **C87.** Delivery without turbo mode: whenever the stash's thread is at the top of its loop,
every queue holds at most 10000 items and five seconds have passed since the last report, then that
thread's next steps alone (if its dequeues find what is there) report everything stashed so far
that the handler did not take. -/
theorem c87_delivered {cf : Cfg} {t : Nat} {s : St} (h : R cf t s) (hc : cf.turbo = false)
    (hn : 0 < cf.n) (hp : s.main = .top) (hr : s.running = true)
    (hl : ∀ j, (s.q j).length ≤ bulk) (ht : s.last + 5 ≤ s.now) :
    ∃ m s', runs (step cf) s (List.replicate m (.goM 0)) = some s' ∧ s'.stashed = s.stashed ∧
      ∀ x, s'.handled.count x + reported s' x = s.stashed.count x := by
  obtain ⟨t1, t2, t3⟩ := noturbo hc h
  obtain ⟨m, s1, h1, h2, h3, h4, h5, h6, h7, h8, h9⟩ := pass_from (cf := cf) (cf.n - 1) 0
    { s with main := .take 0 0 [] } (by omega) rfl hl (by intro j hj; omega)
  -- the pass, then `after`, then the report
  refine ⟨1 + m + 2, s1.reportNow, ?_, h9, ?_⟩
  · rw [← List.replicate_append_replicate, ← List.replicate_append_replicate, runs_append,
      runs_append]
    have e : runs (step cf) s (List.replicate 1 (.goM 0)) = some { s with main := .take 0 0 [] } := by
      simp [runs, step, hp, goMain, hr, hc, begin, hn]
    rw [e]
    simp only [Option.bind_some]
    rw [h1]
    have hge : ¬ (s1.now - s1.last < 5) := by
      rw [h4, h5]; show ¬ (s.now - s.last < 5); omega
    simp [List.replicate, runs, step, h2, goMain, hc, report, hge, St.reportNow]
  · intro x
    have hR1 : R cf t s1 := by
      obtain ⟨ls, hls⟩ := h
      refine ⟨ls ++ (List.replicate 1 (.goM 0) ++ List.replicate m (.goM 0)), ?_⟩
      rw [runs_append, hls]
      simp only [Option.bind_some]
      rw [runs_append]
      have e : runs (step cf) s (List.replicate 1 (.goM 0)) = some { s with main := .take 0 0 [] } := by
        simp [runs, step, hp, goMain, hr, hc, begin, hn]
      rw [e]
      exact h1
    have hcons := c87_conservation hR1 x
    have hlost : s1.lost = [] := by
      cases hl : s1.lost with
      | nil => rfl
      | cons y ys =>
        have := (c87_lost hR1 y (by rw [hl]; simp)).2
        simp [hc] at this
    have hq := inQueues_empty (x := x) cf.n 0 (by simpa using h3)
    have hst : s1.stashed = s.stashed := h9
    rw [hst, hlost] at hcons
    simp only [inside, merging, hq, h2, h8.trans t1, h7.trans t3, h6.trans t2, held,
      List.count_nil, List.map_nil, List.sum_nil] at hcons
    simp only [reported, St.reportNow, List.map_append, List.sum_append, List.map_cons, List.map_nil,
      List.sum_cons, List.sum_nil] at hcons ⊢
    omega

/-- Configurations used in the examples. -/
def cf1 : Cfg := ⟨1, false, fun _ => false, 60⟩
def cf2 : Cfg := ⟨1, true, fun _ => false, 60⟩

/-- Steps of the main thread. -/
def goes (n : Nat) : List Lab := List.replicate n (.goM 0)

/-- Five seconds. -/
def five : List Lab := List.replicate 5 .tick

/-- **C87, violation.** The interval set by the user is not used: with sixty seconds set, here are
reports at 5 and 10 seconds. -/
theorem c87_interval_ignored :
    ((runs (step cf1) (init 0) ([.start] ++ five ++ goes 5 ++ five ++ goes 5)).map
      fun s => s.reports.map (·.1)) = some [5, 10] ∧ cf1.interval = 60 := by decide

/-- **C87 (queues).** The items given to a stash go to its queues in turn: the `k`-th one (up to 2^32) to queue
`k mod n`, behind what is there. -/
theorem c87_round_robin {cf : Cfg} {t : Nat} {s s' : St} (h : R cf t s) (x : Item) (hs : step cf s (.stash x) = some s') :
    s'.q = put s.q ((s.stashed.length + 1) % 2 ^ 32 % cf.n) (s.q ((s.stashed.length + 1) % 2 ^ 32 % cf.n) ++ [x]) := by
  have hi : s.index = s.stashed.length % 2 ^ 32 := by
    refine inv_reach (I := fun s => s.index = s.stashed.length % 2 ^ 32) (by simp [init]) ?_ h
    intro s l s' hi hs
    cases l with
    | stash x =>
      simp only [step] at hs
      split at hs
      · cases hs
      · simp only [Option.some.injEq] at hs
        subst hs
        simp only [hi, List.length_append, List.length_singleton, Nat.mod_add_mod]
    | start =>
      simp only [step] at hs
      split at hs
      · simp only [Option.some.injEq] at hs; subst hs; exact hi
      · cases hs
    | stop => simp only [step, Option.some.injEq] at hs; subst hs; exact hi
    | join =>
      simp only [step] at hs
      split at hs
      · simp only [Option.some.injEq] at hs; subst hs; exact hi
      · cases hs
    | tick => simp only [step, Option.some.injEq] at hs; subst hs; exact hi
    | goM k =>
      simp only [step] at hs
      have : s'.index = s.index ∧ s'.stashed = s.stashed := by
        unfold goMain at hs
        split at hs
        · split at hs <;> (simp only [Option.some.injEq] at hs; subst hs; exact ⟨rfl, rfl⟩)
        · split at hs
          · simp only [Option.some.injEq] at hs; subst hs; unfold mergeOne; split <;> exact ⟨rfl, rfl⟩
          · simp only [Option.some.injEq] at hs; subst hs; exact ⟨rfl, rfl⟩
        · simp only [Option.some.injEq] at hs; subst hs; unfold report; split <;> exact ⟨rfl, rfl⟩
        · unfold mainProc at hs
          split at hs
          · simp only [Option.some.injEq] at hs; subst hs; exact ⟨rfl, rfl⟩
          · simp only [Option.some.injEq] at hs; subst hs; exact ⟨rfl, rfl⟩
          · simp only [Option.some.injEq] at hs; subst hs; exact ⟨rfl, rfl⟩
          · cases hs
      rw [this.1, this.2]; exact hi
    | goT k b =>
      simp only [step] at hs
      have : s'.index = s.index ∧ s'.stashed = s.stashed := by
        unfold goTurbo at hs
        split at hs
        · split at hs <;> (simp only [Option.some.injEq] at hs; subst hs; exact ⟨rfl, rfl⟩)
        · split at hs
          · simp only [Option.some.injEq] at hs; subst hs; exact ⟨rfl, rfl⟩
          · split at hs <;> (simp only [Option.some.injEq] at hs; subst hs; exact ⟨rfl, rfl⟩)
        · simp only [Option.some.injEq] at hs; subst hs; exact ⟨rfl, rfl⟩
        · simp only [Option.some.injEq] at hs; subst hs; exact ⟨rfl, rfl⟩
        · simp only [Option.some.injEq] at hs; subst hs; exact ⟨rfl, rfl⟩
        · split at hs <;> (simp only [Option.some.injEq] at hs; subst hs; exact ⟨rfl, rfl⟩)
        · cases hs
      rw [this.1, this.2]; exact hi
  simp only [step] at hs
  split at hs
  · cases hs
  · simp only [Option.some.injEq] at hs
    subst hs
    simp only [hi, Nat.mod_add_mod]

/-- **C87, violation.** Histogram items processed by the turbo thread are lost: one item is stashed,
handled by the turbo thread, merged; and the report is empty. -/
theorem c87_turbo_loses :
    ((runs (step cf2) (init 0) ([.start] ++ goes 3 ++ [.stash ⟨7, true⟩] ++
        [.goT 0 false, .goT 0 false, .goT 0 false, .goT 0 false, .goT 0 false, .goT 0 false, .goT 0 false]
        ++ five ++ goes 2)).map
      fun s => (s.lost, s.reports, s.q 0, s.cont)) =
      some ([⟨7, true⟩], [(5, [])], [], []) := by decide

/-- An item is stashed while the stash runs, then the stash is stopped. -/
def wStop : List Lab :=
  [.start] ++ goes 1 ++ [.stash ⟨7, false⟩] ++ goes 3 ++ [.stop] ++ goes 4 ++ [.join]

/-- **C87, violation.** `StopSync` leaves what is in the stash: the item 7, stashed before the stop,
is never reported unless the stash is started again. -/
theorem c87_stop_loses :
    ∃ s, runs (step cf1) (init 0) wStop = some s ∧
      s.running = false ∧ s.main = .off ∧ s.stashed = [⟨7, false⟩] ∧
      ∀ ls s', (∀ l ∈ ls, l ≠ .start) → runs (step cf1) s ls = some s' → s'.reports = [] := by
  have hm : (runs (step cf1) (init 0) wStop).map
      (fun s => (s.running, s.main, s.stashed)) = some (false, .off, [⟨7, false⟩]) := by decide
  have hm2 : (runs (step cf1) (init 0) wStop).map
      (fun s => (s.main, s.reports, s.turbo)) = some (.off, [], .off) := by decide
  cases hr : runs (step cf1) (init 0) wStop with
  | none => simp [hr] at hm
  | some s0 =>
  simp only [hr, Option.map_some, Option.some.injEq, Prod.mk.injEq] at hm hm2
  refine ⟨s0, rfl, hm.1, hm.2.1, hm.2.2, ?_⟩
  intro ls
  have h0 : s0.main = .off ∧ s0.reports = [] ∧ s0.turbo = .off := hm2
  clear hm hm2 hr
  induction ls generalizing s0 with
  | nil => intro s' _ hr; simp only [runs, Option.some.injEq] at hr; rw [← hr]; exact h0.2.1
  | cons l ls ih =>
    intro s' hl hr
    simp only [runs] at hr
    cases hs : step cf1 s0 l with
    | none => simp [hs] at hr
    | some s1 =>
      simp only [hs, Option.bind_some] at hr
      refine ih s1 ?_ s' (fun l hl' => hl l (List.mem_cons_of_mem _ hl')) hr
      obtain ⟨a, b, c⟩ := h0
      cases l with
      | goM k => simp [step, a, goMain, mainProc] at hs
      | goT k b => simp [step, c, goTurbo] at hs
      | start => exact absurd rfl (hl .start (by simp))
      | join => simp [step, a] at hs
      | stash x => simp [step, cf1] at hs; subst hs; exact ⟨a, b, c⟩
      | _ => simp only [step] at hs; cases hs; exact ⟨a, b, c⟩

/-- The hypotheses of C87 are met: an item is stashed, five seconds pass, the thread is at the top of
its loop, and then the item is reported. -/
theorem w_c87 :
    ((runs (step cf1) (init 0) ([.start] ++ goes 3 ++ [.stash ⟨7, false⟩] ++ goes 2 ++ five)).map
      fun s => (s.main, s.running, s.last, s.now, s.q 0)) = some (.top, true, 0, 5, [⟨7, false⟩]) ∧
    ((runs (step cf1) (init 0) ([.start] ++ goes 3 ++ [.stash ⟨7, false⟩] ++ goes 2 ++ five ++
        goes 7)).map fun s => (s.reports, s.main)) = some ([(5, [⟨7, false⟩])], .top) := by decide

end Ltio.Metrics.Stash
