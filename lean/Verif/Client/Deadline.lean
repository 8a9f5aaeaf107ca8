import Mathlib.Data.List.Nodup
import Mathlib.Tactic.ByContra

/-
C183, C184: how long a request may take in an `AsyncChannel` (net_io/clients/async_channel.cc): the timer of each
`SendRequest` and the requests in progress, in time.  The same request object may be sent again once it is completed, as
for a retry.

Identifiers: a request in progress is found under the id the codec gave it when it was last sent; the timer looks up the
request's present id (async_channel.cc:72-73).  With distinct ids (C21) this is the request itself.
-/
namespace Ltio.Client.Deadline

/-! ### The program -/

/-- How a request ended. -/
inductive End where
  | answered
  | timeout
  | broken
deriving DecidableEq, Repr

/-- `timers`: the posted `OnRequestTimeout` tasks, each with the time it is due and the request it holds weakly;
`out`: `in_progress_`, each with the time it was sent (not in the code).  `sends` and `ends` are written only: every
send the codec took and every outcome, with the request and the time. -/
structure St where
  now : Nat
  timers : List (Nat × Nat)
  out : List (Nat × Nat)
  sends : List (Nat × Nat)
  ends : List (Nat × End × Nat × Nat)      -- request, outcome, when sent, when ended

def St.init : St := ⟨0, [], [], [], []⟩

inductive In where
  | tick (d : Nat)                 -- time passes
  | send (r : Nat) (ok : Bool)     -- SendRequest; `ok`: the codec takes it
  | answer (r : Nat)               -- a message with the id of r
  | fire (i : Nat) (alive : Bool)  -- the loop runs the i-th timer, if due; `alive`: somebody else holds the request
  | closed                         -- the connection closed, or CloseClientChannel
deriving DecidableEq, Repr

/-- The entry of `r` in `in_progress_`. -/
def St.entry (s : St) (r : Nat) : Option (Nat × Nat) := s.out.find? (fun x => decide (x.1 = r))

/-- A request leaves `in_progress_` with an outcome. -/
def St.finish (s : St) (x : Nat × Nat) (e : End) : St :=
  { s with out := s.out.erase x, ends := s.ends ++ [(x.1, e, x.2, s.now)] }

/-- `T`: `request_timeout_`. -/
def step (T : Nat) (s : St) : In → St
  | .tick d => { s with now := s.now + d }
  -- async_channel.cc:40-62; `insert` keeps an entry that is there
  | .send r ok =>
    if ok then
      { s with
        timers := s.timers ++ [(s.now + T, r)]
        out := if (s.entry r).isSome then s.out else s.out ++ [(r, s.now)]
        sends := s.sends ++ [(r, s.now)] }
    else { s with ends := s.ends ++ [(r, .broken, s.now, s.now)] }
  -- async_channel.cc:93-108
  | .answer r => match s.entry r with
    | none => s
    | some x => s.finish x .answered
  -- async_channel.cc:64-81
  | .fire i alive => match s.timers[i]? with
    | none => s
    | some t =>
      if s.now < t.1 then s
      else if alive = true ∨ (s.entry t.2).isSome then
        match s.entry t.2 with
        | none => { s with timers := s.timers.eraseIdx i }
        | some x => ({ s with timers := s.timers.eraseIdx i }).finish x .timeout
      else { s with timers := s.timers.eraseIdx i }
  -- async_channel.cc:83-91, 110-125
  | .closed => { s with out := [], ends := s.ends ++ s.out.map (fun x => (x.1, .broken, x.2, s.now)) }

def run (T : Nat) : St → List In → St := List.foldl (step T)

/-! ### Specification -/

/-- The loop runs its timers in time: time never passes one that is due (the wheel's delay itself: C26, C59). -/
def Punctual (T : Nat) : St → List In → Prop
  | _, [] => True
  | s, i :: is => (∀ d, i = .tick d → ∀ t ∈ s.timers, s.now + d ≤ t.1) ∧ Punctual T (step T s i) is

/-- The requests sent. -/
def sent (is : List In) : List Nat := is.filterMap (fun i => match i with | .send r _ => some r | _ => none)

/-! ### Invariant -/

structure Inv (T : Nat) (s : St) : Prop where
  /-- every request in progress has its timer, unless it was sent twice at once -/
  timed : ∀ x ∈ s.out, (x.2 + T, x.1) ∈ s.timers
  keys : (s.out.map Prod.fst).Nodup
  past : ∀ x ∈ s.out, x.2 ≤ s.now
  wasSent : ∀ x ∈ s.out, x ∈ s.sends

theorem entry_mem {s : St} {r : Nat} {x : Nat × Nat} (h : s.entry r = some x) : x ∈ s.out ∧ x.1 = r := by
  have := List.find?_some h
  simp only [decide_eq_true_eq] at this
  exact ⟨List.mem_of_find?_eq_some h, this⟩

theorem entry_none {s : St} {r : Nat} (h : s.entry r = none) : ∀ x ∈ s.out, x.1 ≠ r := by
  intro x hx e
  have := List.find?_eq_none.1 h x hx
  simp [e] at this

theorem entry_of {s : St} {r t : Nat} (hk : (s.out.map Prod.fst).Nodup) (h : (r, t) ∈ s.out) : s.entry r = some (r, t) := by
  rcases he : s.entry r with _ | x
  · exact absurd rfl (entry_none he _ h)
  · obtain ⟨a, b⟩ := entry_mem he
    have : x = (r, t) := List.inj_on_of_nodup_map hk a h (by simpa using b)
    rw [this]

theorem finish_mem {s : St} {x y : Nat × Nat} {e : End} (h : y ∈ (s.finish x e).out) : y ∈ s.out :=
  List.mem_of_mem_erase h

theorem not_mem_finish {s : St} {x y : Nat × Nat} {e : End} (hk : (s.out.map Prod.fst).Nodup) (hx : x ∈ s.out)
    (h : y ∈ (s.finish x e).out) : y.1 ≠ x.1 := by
  intro e1
  have hn : s.out.Nodup := List.Nodup.of_map _ hk
  have : y = x := List.inj_on_of_nodup_map hk (finish_mem h) hx e1
  rw [this] at h
  exact (List.Nodup.mem_erase_iff hn).1 h |>.1 rfl

theorem inv_finish {T : Nat} {s : St} (i : Inv T s) (x : Nat × Nat) (e : End) : Inv T (s.finish x e) :=
  ⟨fun y hy => i.timed y (finish_mem hy), i.keys.sublist (List.erase_sublist.map _), fun y hy => i.past y (finish_mem hy),
    fun y hy => i.wasSent y (finish_mem hy)⟩

theorem mem_eraseIdx {α : Type} {l : List α} {i : Nat} {t a : α} (h : l[i]? = some t) (ha : a ∈ l) (hne : a ≠ t) :
    a ∈ l.eraseIdx i := by
  obtain ⟨j, hj⟩ := List.mem_iff_getElem?.1 ha
  refine List.mem_eraseIdx_iff_getElem?.2 ⟨j, ?_, hj⟩
  rintro rfl
  rw [h] at hj
  exact hne (Option.some.inj hj).symm

/-- The timer of a request that is not in progress, or that ends with it, goes. -/
theorem inv_fire {T : Nat} {s : St} (i : Inv T s) {k : Nat} {t : Nat × Nat} (h : s.timers[k]? = some t)
    (hn : ∀ x ∈ s.out, x.1 ≠ t.2) : Inv T { s with timers := s.timers.eraseIdx k } := by
  refine ⟨fun x hx => ?_, i.keys, i.past, i.wasSent⟩
  refine mem_eraseIdx h (i.timed x hx) ?_
  intro e
  exact hn x hx (by rw [← e])

theorem inv_step {T : Nat} {s : St} (i : Inv T s) (j : In) : Inv T (step T s j) := by
  cases j with
  | tick d => exact ⟨i.timed, i.keys, fun x hx => Nat.le_trans (i.past x hx) (Nat.le_add_right _ _), i.wasSent⟩
  | send r ok =>
    cases ok with
    | false => exact ⟨i.timed, i.keys, i.past, i.wasSent⟩
    | true =>
      simp only [step, if_true]
      rcases he : s.entry r with _ | x
      · simp only [Option.isSome_none, Bool.false_eq_true, if_false]
        refine ⟨fun x hx => ?_, ?_, fun x hx => ?_, fun x hx => ?_⟩
        · rcases List.mem_append.1 hx with hx | hx
          · exact List.mem_append_left _ (i.timed x hx)
          · rw [List.mem_singleton.1 hx]; exact List.mem_append_right _ (List.mem_singleton.2 rfl)
        · rw [List.map_append, List.nodup_append]
          refine ⟨i.keys, by simp, ?_⟩
          intro a ha b hb
          obtain ⟨y, hy, rfl⟩ := List.mem_map.1 ha
          rw [List.mem_singleton.1 hb]
          exact entry_none he y hy
        · rcases List.mem_append.1 hx with hx | hx
          · exact i.past x hx
          · rw [List.mem_singleton.1 hx]; exact Nat.le_refl _
        · rcases List.mem_append.1 hx with hx | hx
          · exact List.mem_append_left _ (i.wasSent x hx)
          · rw [List.mem_singleton.1 hx]; exact List.mem_append_right _ (List.mem_singleton.2 rfl)
      · simp only [Option.isSome_some, if_true]
        exact ⟨fun x hx => List.mem_append_left _ (i.timed x hx), i.keys, i.past,
          fun x hx => List.mem_append_left _ (i.wasSent x hx)⟩
  | answer r =>
    simp only [step]
    split
    · exact i
    · exact inv_finish i _ _
  | fire k alive =>
    simp only [step]
    split
    · exact i
    · rename_i t ht
      split
      · exact i
      · rcases he : s.entry t.2 with _ | x
        · have := inv_fire i ht (entry_none he)
          split <;> exact this
        · obtain ⟨hx, hx1⟩ := entry_mem he
          simp only [Option.isSome_some, or_true, if_true]
          have hf := inv_finish i x .timeout
          have hk : Inv T { s with out := s.out.erase x } := ⟨hf.timed, hf.keys, hf.past, hf.wasSent⟩
          have := inv_fire (s := { s with out := s.out.erase x }) hk ht (by
            intro y hy
            rw [← hx1]
            exact not_mem_finish (e := .timeout) i.keys hx hy)
          exact ⟨this.timed, this.keys, this.past, this.wasSent⟩
  | closed => exact ⟨(fun _ h => by cases h), List.nodup_nil, (fun _ h => by cases h), (fun _ h => by cases h)⟩

/-- Each request is sent once. -/
structure Once (T : Nat) (s : St) : Prop where
  keys : (s.sends.map Prod.fst).Nodup
  timers : ∀ t ∈ s.timers, ∃ u, (t.2, u) ∈ s.sends ∧ t.1 = u + T
  all : ∀ x ∈ s.sends, x ∈ s.out ∨ ∃ e t, (x.1, e, x.2, t) ∈ s.ends
  ends : ∀ r e u t, (r, e, u, t) ∈ s.ends → u ≤ t ∧ (e = .timeout → u + T ≤ t)

theorem once_finish {T : Nat} {s : St} (i : Inv T s) (o : Once T s) {x : Nat × Nat} (hx : x ∈ s.out) (e : End)
    (he : e = .timeout → x.2 + T ≤ s.now) : Once T (s.finish x e) := by
  refine ⟨o.keys, o.timers, fun y hy => ?_, fun r e' u t hm => ?_⟩
  · rcases o.all y hy with h | ⟨e', t, h⟩
    · by_cases hyx : y = x
      · exact .inr ⟨e, s.now, List.mem_append_right _ (by rw [hyx]; exact List.mem_singleton.2 rfl)⟩
      · exact .inl ((List.mem_erase_of_ne hyx).2 h)
    · exact .inr ⟨e', t, List.mem_append_left _ h⟩
  · rcases List.mem_append.1 hm with h | h
    · exact o.ends r e' u t h
    · have := List.mem_singleton.1 h
      simp only [Prod.mk.injEq] at this
      obtain ⟨_, rfl, rfl, rfl⟩ := this
      exact ⟨i.past x hx, he⟩

theorem once_step {T : Nat} {s : St} (i : Inv T s) (o : Once T s) (j : In)
    (hf : ∀ r ok, j = .send r ok → r ∉ s.sends.map Prod.fst) : Once T (step T s j) := by
  cases j with
  | tick d => exact ⟨o.keys, o.timers, o.all, o.ends⟩
  | send r ok =>
    have hr := hf r ok rfl
    cases ok with
    | false =>
      refine ⟨o.keys, o.timers, fun y hy => ?_, fun r e u t hm => ?_⟩
      · rcases o.all y hy with h | ⟨e, t, h⟩
        · exact .inl h
        · exact .inr ⟨e, t, List.mem_append_left _ h⟩
      · rcases List.mem_append.1 hm with h | h
        · exact o.ends r e u t h
        · have := List.mem_singleton.1 h
          simp only [Prod.mk.injEq] at this
          obtain ⟨_, rfl, rfl, rfl⟩ := this
          exact ⟨Nat.le_refl _, fun h => by cases h⟩
    | true =>
      simp only [step, if_true]
      have he : s.entry r = none := by
        rcases he : s.entry r with _ | x
        · rfl
        · obtain ⟨a, b⟩ := entry_mem he
          exact absurd (List.mem_map.2 ⟨x, i.wasSent x a, b⟩) hr
      rw [he]
      simp only [Option.isSome_none, Bool.false_eq_true, if_false]
      refine ⟨?_, fun t ht => ?_, fun y hy => ?_, o.ends⟩
      · rw [List.map_append, List.nodup_append]
        refine ⟨o.keys, by simp, ?_⟩
        intro a ha b hb
        rw [List.mem_singleton.1 hb]
        rintro rfl
        exact hr ha
      · rcases List.mem_append.1 ht with h | h
        · obtain ⟨u, h1, h2⟩ := o.timers t h
          exact ⟨u, List.mem_append_left _ h1, h2⟩
        · rw [List.mem_singleton.1 h]
          exact ⟨s.now, List.mem_append_right _ (List.mem_singleton.2 rfl), rfl⟩
      · rcases List.mem_append.1 hy with h | h
        · rcases o.all y h with h | h
          · exact .inl (List.mem_append_left _ h)
          · exact .inr h
        · rw [List.mem_singleton.1 h]
          exact .inl (List.mem_append_right _ (List.mem_singleton.2 rfl))
  | answer r =>
    simp only [step]
    split
    · exact o
    · rename_i x he
      exact once_finish i o (entry_mem he).1 _ (fun h => by cases h)
  | fire k alive =>
    simp only [step]
    split
    · exact o
    · rename_i t ht
      have hsub : ∀ y ∈ s.timers.eraseIdx k, y ∈ s.timers := fun y hy => List.mem_of_mem_eraseIdx hy
      have o' : Once T { s with timers := s.timers.eraseIdx k } :=
        ⟨o.keys, fun y hy => o.timers y (hsub y hy), o.all, o.ends⟩
      split
      · exact o
      · rename_i hdue
        rcases he : s.entry t.2 with _ | x
        · split <;> exact o'
        · simp only [Option.isSome_some, or_true, if_true]
          obtain ⟨hx, hx1⟩ := entry_mem he
          have h := once_finish i o hx .timeout (fun _ => by
            obtain ⟨u, h1, h2⟩ := o.timers t (List.mem_of_getElem? ht)
            have : x = (t.2, u) := List.inj_on_of_nodup_map o.keys (i.wasSent x hx) h1 hx1
            rw [this]
            show u + T ≤ s.now
            omega)
          exact ⟨h.keys, fun y hy => h.timers y (hsub y hy), h.all, h.ends⟩
  | closed =>
    refine ⟨o.keys, o.timers, fun y hy => ?_, fun r e u t hm => ?_⟩
    · rcases o.all y hy with h | ⟨e, t, h⟩
      · exact .inr ⟨.broken, s.now, List.mem_append_right _ (List.mem_map.2 ⟨y, h, rfl⟩)⟩
      · exact .inr ⟨e, t, List.mem_append_left _ h⟩
    · rcases List.mem_append.1 hm with h | h
      · exact o.ends r e u t h
      · obtain ⟨x, hx, h⟩ := List.mem_map.1 h
        simp only [Prod.mk.injEq] at h
        obtain ⟨_, rfl, rfl, rfl⟩ := h
        exact ⟨i.past x hx, fun h => by cases h⟩

theorem step_sends (T : Nat) (s : St) (j : In) :
    (step T s j).sends = s.sends ∨ ∃ r ok, j = .send r ok ∧ (step T s j).sends = s.sends ++ [(r, s.now)] := by
  cases j with
  | tick d => exact .inl rfl
  | send r ok =>
    cases ok with
    | false => exact .inl rfl
    | true => exact .inr ⟨r, true, rfl, rfl⟩
  | answer r => simp only [step]; split <;> exact .inl rfl
  | fire k alive =>
    refine .inl ?_
    simp only [step]
    split
    · rfl
    · split
      · rfl
      · split
        · split <;> rfl
        · rfl
  | closed => exact .inl rfl

theorem run_once (T : Nat) : ∀ (is : List In) (s : St), Inv T s → Once T s → (sent is).Nodup →
    (∀ r ∈ sent is, r ∉ s.sends.map Prod.fst) → Inv T (run T s is) ∧ Once T (run T s is)
  | [], s, i, o, _, _ => ⟨i, o⟩
  | j :: is, s, i, o, hn, hf => by
    have hj : ∀ r ok, j = .send r ok → r ∉ s.sends.map Prod.fst := by
      rintro r ok rfl
      exact hf r (by simp [sent])
    refine run_once T is _ (inv_step i j) (once_step i o j hj) ?_ ?_
    · cases j <;> simp only [sent, List.filterMap_cons] at hn ⊢ <;> first | exact hn | exact (List.nodup_cons.1 hn).2
    · intro r hr
      rcases step_sends T s j with h | ⟨q, ok, rfl, h⟩
      · rw [h]
        refine hf r ?_
        cases j <;> simp only [sent, List.filterMap_cons] at hr ⊢ <;> first | exact hr | exact List.mem_cons_of_mem _ hr
      · rw [h, List.map_append, List.mem_append, not_or]
        simp only [sent, List.filterMap_cons] at hn hr
        refine ⟨hf r (by simp only [sent, List.filterMap_cons]; exact List.mem_cons_of_mem _ hr), ?_⟩
        intro hm
        simp only [List.map_cons, List.map_nil, List.mem_singleton] at hm
        subst hm
        exact (List.nodup_cons.1 hn).1 hr

/-- With a punctual loop nothing is overdue. -/
structure Prompt (T : Nat) (s : St) : Prop where
  out : ∀ x ∈ s.out, s.now ≤ x.2 + T
  ends : ∀ r e u t, (r, e, u, t) ∈ s.ends → t ≤ u + T

theorem prompt_finish {T : Nat} {s : St} (p : Prompt T s) {x : Nat × Nat} (hx : x ∈ s.out) (e : End) :
    Prompt T (s.finish x e) := by
  refine ⟨fun y hy => p.out y (finish_mem hy), fun r e' u t hm => ?_⟩
  rcases List.mem_append.1 hm with h | h
  · exact p.ends r e' u t h
  · have := List.mem_singleton.1 h
    simp only [Prod.mk.injEq] at this
    obtain ⟨_, _, rfl, rfl⟩ := this
    exact p.out x hx

theorem prompt_step {T : Nat} {s : St} (i : Inv T s) (p : Prompt T s) (j : In)
    (ht : ∀ d, j = .tick d → ∀ t ∈ s.timers, s.now + d ≤ t.1) : Prompt T (step T s j) := by
  cases j with
  | tick d => exact ⟨fun x hx => ht d rfl _ (i.timed x hx), p.ends⟩
  | send r ok =>
    cases ok with
    | false =>
      refine ⟨p.out, fun r e u t hm => ?_⟩
      rcases List.mem_append.1 hm with h | h
      · exact p.ends r e u t h
      · have := List.mem_singleton.1 h
        simp only [Prod.mk.injEq] at this
        obtain ⟨_, _, rfl, rfl⟩ := this
        exact Nat.le_add_right _ _
    | true =>
      refine ⟨fun x hx => ?_, p.ends⟩
      simp only [step, if_true] at hx ⊢
      split at hx
      · exact p.out x hx
      · rcases List.mem_append.1 hx with h | h
        · exact p.out x h
        · rw [List.mem_singleton.1 h]; exact Nat.le_add_right _ _
  | answer r =>
    simp only [step]
    split
    · exact p
    · rename_i x he
      exact prompt_finish p (entry_mem he).1 _
  | fire k alive =>
    simp only [step]
    split
    · exact p
    · split
      · exact p
      · split
        · split
          · exact ⟨p.out, p.ends⟩
          · rename_i x he
            have h := prompt_finish p (entry_mem he).1 .timeout
            exact ⟨h.out, h.ends⟩
        · exact ⟨p.out, p.ends⟩
  | closed =>
    refine ⟨(fun _ h => by cases h), fun r e u t hm => ?_⟩
    rcases List.mem_append.1 hm with h | h
    · exact p.ends r e u t h
    · obtain ⟨x, hx, h⟩ := List.mem_map.1 h
      simp only [Prod.mk.injEq] at h
      obtain ⟨_, _, rfl, rfl⟩ := h
      exact p.out x hx

theorem run_prompt (T : Nat) : ∀ (is : List In) (s : St), Inv T s → Prompt T s → Punctual T s is →
    Prompt T (run T s is)
  | [], _, _, p, _ => p
  | j :: is, _, i, p, h => run_prompt T is _ (inv_step i j) (prompt_step i p j h.1) h.2

theorem inv_init (T : Nat) : Inv T St.init :=
  ⟨(fun _ h => by cases h), List.nodup_nil, (fun _ h => by cases h), (fun _ h => by cases h)⟩

theorem once_init (T : Nat) : Once T St.init :=
  ⟨List.nodup_nil, (fun _ h => by cases h), (fun _ h => by cases h), (fun _ _ _ _ h => by cases h)⟩

/-! ### C184 -/

/-- **C184.** If each request object is sent once, a request is failed with a time-out only once its whole time has
passed since it was sent, however late the loop is. -/
theorem c184_not_early (T : Nat) (is : List In) (h : (sent is).Nodup) (r u t : Nat)
    (hm : (r, .timeout, u, t) ∈ (run T St.init is).ends) : u + T ≤ t :=
  (((run_once T is St.init (inv_init T) (once_init T) h (by simp [St.init])).2).ends r _ u t hm).2 rfl

/-- **C184.** If each request object is sent once and the loop runs its timers in time: every request taken by the codec
has ended, no later than its time after it was sent — exactly then if by a time-out — or is in progress with time left. -/
theorem c184_in_time (T : Nat) (is : List In) (h : (sent is).Nodup) (hp : Punctual T St.init is) (r u : Nat)
    (hm : (r, u) ∈ (run T St.init is).sends) :
    ((r, u) ∈ (run T St.init is).out ∧ u ≤ (run T St.init is).now ∧ (run T St.init is).now ≤ u + T) ∨
    ∃ e t, (r, e, u, t) ∈ (run T St.init is).ends ∧ u ≤ t ∧ t ≤ u + T ∧ (e = .timeout → t = u + T) := by
  obtain ⟨i, o⟩ := run_once T is St.init (inv_init T) (once_init T) h (by simp [St.init])
  have p := run_prompt T is St.init (inv_init T) ⟨(fun _ h => by cases h), (fun _ _ _ _ h => by cases h)⟩ hp
  rcases o.all _ hm with h1 | ⟨e, t, h1⟩
  · exact .inl ⟨h1, i.past _ h1, p.out _ h1⟩
  · refine .inr ⟨e, t, h1, (o.ends r e u t h1).1, p.ends r e u t h1, fun he => ?_⟩
    have := (o.ends r e u t h1).2 he
    have := p.ends r e u t h1
    omega

theorem run_inv (T : Nat) : ∀ (is : List In) (s : St), Inv T s → Inv T (run T s is)
  | [], _, i => i
  | j :: is, _, i => run_inv T is _ (inv_step i j)

/-- **C184.** Also if requests are sent again: with a loop that runs its timers in time nothing is in progress for longer
than its time, and every end comes within it. -/
theorem c184_never_longer (T : Nat) (is : List In) (hp : Punctual T St.init is) :
    (∀ r u, (r, u) ∈ (run T St.init is).out → (run T St.init is).now ≤ u + T) ∧
    ∀ r e u t, (r, e, u, t) ∈ (run T St.init is).ends → t ≤ u + T := by
  have p := run_prompt T is St.init (inv_init T) ⟨(fun _ h => by cases h), (fun _ _ _ _ h => by cases h)⟩ hp
  exact ⟨fun r u h => p.out _ h, p.ends⟩

/-! ### C183 -/

/-- **C183 violation.** A request that was answered and is sent again `a` later, while the timer of the first time is
still there, is failed with a time-out as soon as that timer is due: after `T - a` instead of `T`, for every `a` up to `T`;
the loop runs its timers in time. -/
theorem c183_retry_violated (T a : Nat) (ha : a ≤ T) (r : Nat) :
    Punctual T St.init [.send r true, .answer r, .tick a, .send r true, .tick (T - a), .fire 0 true] ∧
    (run T St.init [.send r true, .answer r, .tick a, .send r true, .tick (T - a), .fire 0 true]).ends =
      [(r, .answered, 0, 0), (r, .timeout, a, T)] ∧
    (run T St.init [.send r true, .answer r, .tick a, .send r true, .tick (T - a), .fire 0 true]).out = [] := by
  have e : a + (T - a) = T := by omega
  refine ⟨?_, ?_, ?_⟩
  · simp [Punctual, step, St.init, St.entry, St.finish, ha, e]
  · simp [run, step, St.init, St.entry, St.finish, e]
  · simp [run, step, St.init, St.entry, St.finish, e]

/-- Witness for C184: three requests, one answered in time, one timed out, one in progress. -/
theorem w_c184 : Punctual 5 St.init [.send 1 true, .tick 2, .send 2 true, .answer 2, .tick 3, .send 3 true, .fire 0 false] ∧
    (run 5 St.init [.send 1 true, .tick 2, .send 2 true, .answer 2, .tick 3, .send 3 true, .fire 0 false]).ends =
      [(2, .answered, 2, 2), (1, .timeout, 0, 5)] ∧
    (run 5 St.init [.send 1 true, .tick 2, .send 2 true, .answer 2, .tick 3, .send 3 true, .fire 0 false]).out = [(3, 5)] := by
  refine ⟨?_, by decide, by decide⟩
  simp [Punctual, step, St.init, St.entry, St.finish]

end Ltio.Client.Deadline
