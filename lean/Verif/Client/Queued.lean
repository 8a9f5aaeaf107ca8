import Verif.Client.AsyncProps
/-
Model of `QueuedChannel` (net_io/clients/queued_channel.cc) and C22.

`TrySendNext` keeps a *reference* to the front of the list, pops the front, and then uses the
reference (queued_channel.cc:58-66): a use of a destroyed `shared_ptr`.  `trySend copy` takes the
flag `copy`: `false` is the code (any attempt to send is undefined behaviour, `none`); `true` is
the evident intention, taking a copy of the pointer first.
-/
namespace Ltio.Client.Queued
open Ltio.Client

structure St where
  base : Base
  ing : Option Nat        -- ing_request_
  waiting : List Nat      -- waiting_list_
deriving Repr

def init : St := ⟨Base.init, none, []⟩

/-- Events; `ok` answers `codec_->SendRequest` for the requests tried during the event. -/
inductive Ev where
  | send (r : Nat) (ok : Nat → Bool)
  | heartbeat (r : Nat) (ok : Nat → Bool)
  | timeout (r : Nat) (alive : Bool)
  | message (id : Nat) (ok : Nat → Bool)
  | codecClosed
  | shutdown

/-- The loop of `TrySendNext` (queued_channel.cc:57-67). -/
def trySend (copy : Bool) (ok : Nat → Bool) (b : Base) : List Nat → Option St
  | [] => some ⟨b, none, []⟩
  | r :: w =>
    if copy = false then none
    else if ok r then some ⟨b.wire r, some r, w⟩
    else trySend copy ok (b.handle r .broken) w

/-- `TrySendNext` (queued_channel.cc:51-78). -/
def trySendNext (copy : Bool) (ok : Nat → Bool) (s : St) : Option St :=
  if s.ing.isSome then some s else trySend copy ok s.base s.waiting

/-- `SendRequest` (queued_channel.cc:42-49). -/
def sendReq (copy : Bool) (s : St) (r : Nat) (ok : Nat → Bool) (h : Bool) : Option St :=
  trySendNext copy ok ⟨s.base.submit r h, s.ing, s.waiting ++ [r]⟩

/-- Lines 81-92 / 135-146: fail the request in flight and everything waiting. -/
def failEverything (s : St) : Base := s.base.failAll (s.ing.toList ++ s.waiting)

def step (copy : Bool) (s : St) : Ev → Option St
  | .send r ok => sendReq copy s r ok false
  | .heartbeat r ok =>
    if s.base.hb.isSome then some s
    else sendReq copy { s with base := { s.base with hb := some r } } r ok true
  | .timeout r alive =>
    -- OnRequestTimeout (queued_channel.cc:95-115); the timer exists only for sent requests
    if r ∉ wireList s.base.acts then some s
    else if (!alive && !(s.ing == some r)) = true then some s
    else if s.ing = some r then
      some ⟨(failEverything ⟨s.base.handle r .timeout, none, s.waiting⟩).notifyClosed, none, []⟩
    else some s
  | .message id ok =>
    -- OnCodecMessage (queued_channel.cc:117-130)
    match s.ing with
    | none => some s
    | some r => trySendNext copy ok ⟨s.base.handle r (.response id), none, s.waiting⟩
  | .codecClosed =>
    -- OnCodecClosed (queued_channel.cc:132-154)
    some ⟨(failEverything s).notifyClosed, none, []⟩
  | .shutdown =>
    -- CloseClientChannel with BeforeCloseChannel (queued_channel.cc:80-93)
    some ⟨{ failEverything s with delegate := false }, none, []⟩

def run (copy : Bool) (s : St) : List Ev → Option St
  | [] => some s
  | e :: evs => match step copy s e with
    | none => none
    | some s' => run copy s' evs

/-! ### Specification -/

def reqOf : Ev → Option Nat
  | .send r _ => some r
  | .heartbeat r _ => some r
  | _ => none

def isSend : Ev → Bool
  | .send _ _ => true
  | .heartbeat _ _ => true
  | _ => false

/-- Request objects are submitted once, and nothing is submitted after shutdown. -/
structure Scope (evs : List Ev) : Prop where
  fresh : (evs.filterMap reqOf).Nodup
  noLate : evs.Pairwise (fun a b => a = .shutdown → isSend b = false)

/-- The request a user submits in an event. -/
def userReq : Ev → Option Nat
  | .send r _ => some r
  | _ => none

/-- The user's requests, in the order submitted. -/
def userSubs (l : List Act) : List Nat :=
  l.filterMap (fun a => match a with | .submit r false => some r | _ => none)

/-- The wire protocol: which request is in flight after a list of actions; `none` if at some point
a second request was put on the wire, or an answer or timeout went to a request that was not the
one in flight, or a request other than the one in flight was failed before it. -/
def flight : Option (Option Nat) → List Act → Option (Option Nat)
  | st, [] => st
  | none, _ :: _ => none
  | some f, .wire r :: l => if f = none then flight (some (some r)) l else none
  | some f, .done r o _ :: l =>
    if f = some r then flight (some none) l
    else if f = none ∧ o = .broken then flight (some none) l
    else none
  | some f, .submit _ _ :: l => flight (some f) l
  | some f, .closed :: l => flight (some f) l

theorem flight_none (l : List Act) : flight none l = none := by cases l <;> rfl

theorem flight_append (st : Option (Option Nat)) (a b : List Act) :
    flight st (a ++ b) = flight (flight st a) b := by
  induction a generalizing st with
  | nil => cases st <;> rfl
  | cons x a ih =>
    cases st with
    | none => rw [flight_none, flight_none, flight_none]
    | some f =>
      cases x with
      | wire r =>
        simp only [List.cons_append, flight]
        split
        · exact ih _
        · rw [flight_none]
      | done r o v =>
        simp only [List.cons_append, flight]
        split
        · exact ih _
        · split
          · exact ih _
          · rw [flight_none]
      | submit r h => simp only [List.cons_append, flight]; exact ih _
      | closed => simp only [List.cons_append, flight]; exact ih _

/-! ### Invariant -/

structure Inv (s : St) : Prop where
  fifo : doneList s.base.acts ++ s.ing.toList ++ s.waiting = subList s.base.acts
  wire : flight (some none) s.base.acts = some s.ing
  busy : s.ing = none → s.waiting = []
  wired : ∀ r ∈ wireList s.base.acts, r ∈ subList s.base.acts
  ingw : ∀ r, s.ing = some r → r ∈ wireList s.base.acts
  dead : s.base.delegate = false → s.ing = none
  hb : ∀ h, s.base.hb = some h → .submit h true ∈ s.base.acts ∧ h ∈ s.ing.toList ++ s.waiting
  kinds : ∀ r ∈ s.ing.toList ++ s.waiting, s.base.hb ≠ some r → .submit r false ∈ s.base.acts
  vis : ∀ r o v, .done r o v ∈ s.base.acts → v ≠ .dropped ∧
    (v = .heartbeat → .submit r true ∈ s.base.acts) ∧ (v = .user → .submit r false ∈ s.base.acts)

/-- The parts of the invariant that concern completing the head of the queue `q`
(the request in flight, then the waiting ones). -/
structure Core (b : Base) (f : Option Nat) (q : List Nat) : Prop where
  fifo : doneList b.acts ++ q = subList b.acts
  wire : flight (some none) b.acts = some f
  head : ∀ r, f = some r → q.head? = some r
  wired : ∀ r ∈ wireList b.acts, r ∈ subList b.acts
  hb : ∀ h, b.hb = some h → .submit h true ∈ b.acts ∧ h ∈ q
  kinds : ∀ r ∈ q, b.hb ≠ some r → .submit r false ∈ b.acts
  vis : ∀ r o v, .done r o v ∈ b.acts → v ≠ .dropped ∧
    (v = .heartbeat → .submit r true ∈ b.acts) ∧ (v = .user → .submit r false ∈ b.acts)

theorem core_done {b : Base} {f : Option Nat} {r : Nat} {q : List Nat} (h : Core b f (r :: q))
    (hd : b.delegate = true) (hs : (subList b.acts).Nodup) (o : Outcome)
    (ho : f = none → o = .broken) :
    Core (b.handle r o) none q ∧ (b.handle r o).delegate = true ∧
      subList (b.handle r o).acts = subList b.acts ∧ wireList (b.handle r o).acts = wireList b.acts := by
  obtain ⟨v, h1, h2, h3, h4⟩ := handle_acts b r o
  have hsub : subList (b.handle r o).acts = subList b.acts := by rw [h1, Async.subList_done]
  have hwl : wireList (b.handle r o).acts = wireList b.acts := by
    rw [h1, wireList_append]; simp [wireList]
  have hrq : r ∉ q := by
    have := h.fifo
    rw [← this] at hs
    exact (List.nodup_cons.1 (List.nodup_append.1 hs).2.1).1
  refine ⟨⟨?_, ?_, ?_, ?_, ?_, ?_, ?_⟩, by rw [h2, hd], hsub, hwl⟩
  · rw [hsub, h1, doneList_append, ← h.fifo]
    simp [doneList]
  · rw [h1, flight_append, h.wire]
    cases f with
    | none => simp [flight, ho rfl]
    | some x =>
      have hx : x = r := by
        have := h.head x rfl
        simpa using this.symm
      simp [flight, hx]
  · intro x hx; simp at hx
  · rw [hwl, hsub]; exact h.wired
  · intro x hx
    by_cases hbr : b.hb = some r
    · rw [(h3 hbr).2] at hx; simp at hx
    · rw [(h4 hbr).1] at hx
      obtain ⟨g1, g2⟩ := h.hb x hx
      refine ⟨by rw [h1]; exact List.mem_append_left _ g1, ?_⟩
      rcases List.mem_cons.1 g2 with g2 | g2
      · rw [g2] at hx; exact absurd hx hbr
      · exact g2
  · intro x hx hne
    rw [h1]
    apply List.mem_append_left
    apply h.kinds x (List.mem_cons_of_mem _ hx)
    intro hb'
    by_cases hbr : b.hb = some r
    · rw [hbr] at hb'
      simp at hb'
      rw [← hb'] at hx
      exact hrq hx
    · exact hne (by rw [(h4 hbr).1]; exact hb')
  · intro r' o' v' hm
    rw [h1] at hm ⊢
    rcases List.mem_append.1 hm with hm | hm
    · obtain ⟨a1, a2, a3⟩ := h.vis r' o' v' hm
      exact ⟨a1, fun e => List.mem_append_left _ (a2 e), fun e => List.mem_append_left _ (a3 e)⟩
    · simp only [List.mem_singleton, Act.done.injEq] at hm
      obtain ⟨rfl, rfl, rfl⟩ := hm
      by_cases hbr : b.hb = some r'
      · obtain ⟨e1, -⟩ := h3 hbr
        exact ⟨by rw [e1]; decide, fun _ => List.mem_append_left _ (h.hb r' hbr).1,
          fun e => by rw [e1] at e; exact absurd e (by decide)⟩
      · obtain ⟨-, e1⟩ := h4 hbr
        rw [hd] at e1
        simp at e1
        exact ⟨by rw [e1]; decide, fun e => by rw [e1] at e; exact absurd e (by decide),
          fun _ => List.mem_append_left _ (h.kinds r' (by simp) hbr)⟩

/-- Failing a whole queue. -/
theorem core_failAll : ∀ (q : List Nat) (b : Base) (f : Option Nat), Core b f q →
    (b.delegate = true ∨ q = []) → (subList b.acts).Nodup → (q = [] → f = none) →
    Core (b.failAll q) none [] ∧ (b.failAll q).delegate = b.delegate ∧
      subList (b.failAll q).acts = subList b.acts ∧ wireList (b.failAll q).acts = wireList b.acts := by
  intro q
  induction q with
  | nil =>
    intro b f h _ _ hf
    rw [hf rfl] at h
    exact ⟨h, rfl, rfl, rfl⟩
  | cons r q ih =>
    intro b f h hd hs _
    have hd' : b.delegate = true := by
      rcases hd with hd | hd
      · exact hd
      · simp at hd
    obtain ⟨c1, c2, c3, c4⟩ := core_done h hd' hs .broken (fun _ => rfl)
    obtain ⟨g1, g2, g3, g4⟩ := ih (b.handle r .broken) none c1 (Or.inl c2) (by rw [c3]; exact hs)
      (fun _ => rfl)
    exact ⟨g1, by rw [hd', ← c2]; exact g2, g3.trans c3, g4.trans c4⟩

theorem inv_core {s : St} (h : Inv s) : Core s.base s.ing (s.ing.toList ++ s.waiting) :=
  ⟨by rw [← List.append_assoc]; exact h.fifo, h.wire, by intro r hr; rw [hr]; rfl, h.wired, h.hb,
   h.kinds, h.vis⟩

theorem inv_of_core_nil {b : Base} (h : Core b none []) : Inv ⟨b, none, []⟩ :=
  ⟨by simpa using h.fifo, h.wire, fun _ => rfl, h.wired, by intro r hr; simp at hr, fun _ => rfl,
   h.hb, h.kinds, h.vis⟩

/-- Sending the next request from an idle channel. -/
theorem trySend_inv (ok : Nat → Bool) : ∀ (q : List Nat) (b : Base), Core b none q →
    (b.delegate = true ∨ q = []) → (subList b.acts).Nodup →
    ∃ s', trySend true ok b q = some s' ∧ Inv s' ∧ s'.base.delegate = b.delegate ∧
      subList s'.base.acts = subList b.acts := by
  intro q
  induction q with
  | nil => intro b h _ _; exact ⟨_, rfl, inv_of_core_nil h, rfl, rfl⟩
  | cons r q ih =>
    intro b h hd hs
    have hd' : b.delegate = true := by
      rcases hd with hd | hd
      · exact hd
      · simp at hd
    unfold trySend
    simp only [Bool.true_eq_false, if_false]
    split
    · have hsub : subList (b.wire r).acts = subList b.acts := by
        show subList (b.acts ++ [.wire r]) = _
        rw [subList_append]; simp [subList]
      refine ⟨_, rfl, ⟨?_, ?_, ?_, ?_, ?_, ?_, ?_, ?_, ?_⟩, rfl, hsub⟩
      · show doneList (b.acts ++ [.wire r]) ++ _ ++ _ = subList (b.acts ++ [.wire r])
        rw [show subList (b.acts ++ [.wire r]) = subList b.acts from hsub, ← h.fifo,
          doneList_append]
        simp [doneList]
      · show flight (some none) (b.acts ++ [.wire r]) = _
        rw [flight_append, h.wire]
        simp [flight]
      · intro e; simp at e
      · show ∀ x ∈ wireList (b.acts ++ [.wire r]), x ∈ subList (b.acts ++ [.wire r])
        rw [show subList (b.acts ++ [.wire r]) = subList b.acts from hsub, wireList_append]
        intro x hx
        simp only [wireList, List.filterMap_cons, List.filterMap_nil, List.mem_append,
          List.mem_singleton] at hx
        rcases hx with hx | hx
        · exact h.wired x hx
        · rw [hx, ← h.fifo]; simp
      · intro x hx
        simp at hx
        subst hx
        show r ∈ wireList (b.acts ++ [.wire r])
        rw [wireList_append]; simp [wireList]
      · intro hf
        have : b.delegate = false := hf
        rw [hd'] at this; exact absurd this (by decide)
      · intro x hx
        obtain ⟨g1, g2⟩ := h.hb x hx
        exact ⟨List.mem_append_left _ g1, by simpa using g2⟩
      · intro x hx hne
        exact List.mem_append_left _ (h.kinds x (by simpa using hx) hne)
      · intro x o v hm
        have hm' : .done x o v ∈ b.acts ++ [.wire r] := hm
        simp only [List.mem_append, List.mem_singleton, reduceCtorEq, or_false] at hm'
        obtain ⟨a1, a2, a3⟩ := h.vis x o v hm'
        exact ⟨a1, fun e => List.mem_append_left _ (a2 e), fun e => List.mem_append_left _ (a3 e)⟩
    · obtain ⟨c1, c2, c3, -⟩ := core_done h hd' hs .broken (fun _ => rfl)
      obtain ⟨s', g1, g2, g3, g4⟩ := ih (b.handle r .broken) c1 (Or.inl c2) (by rw [c3]; exact hs)
      exact ⟨s', g1, g2, by rw [g3, c2, hd'], by rw [g4, c3]⟩

theorem core_closed {b : Base} (h : Core b none []) : Core b.notifyClosed none [] := by
  unfold Base.notifyClosed
  split
  · have hsub : subList (b.acts ++ [.closed]) = subList b.acts := by
      rw [subList_append]; simp [subList]
    refine ⟨?_, ?_, ?_, ?_, ?_, ?_, ?_⟩
    · show doneList (b.acts ++ [.closed]) ++ [] = subList (b.acts ++ [.closed])
      rw [hsub, ← h.fifo, doneList_append]; simp [doneList]
    · show flight (some none) (b.acts ++ [.closed]) = _
      rw [flight_append, h.wire]; rfl
    · intro r hr; simp at hr
    · show ∀ x ∈ wireList (b.acts ++ [.closed]), x ∈ subList (b.acts ++ [.closed])
      rw [hsub, wireList_append]
      intro x hx
      exact h.wired x (by simpa [wireList] using hx)
    · intro x hx
      have := (h.hb x hx).2
      simp at this
    · intro x hx; simp at hx
    · intro x o v hm
      have hm' : .done x o v ∈ b.acts ++ [.closed] := hm
      simp only [List.mem_append, List.mem_singleton, reduceCtorEq, or_false] at hm'
      obtain ⟨a1, a2, a3⟩ := h.vis x o v hm'
      exact ⟨a1, fun e => List.mem_append_left _ (a2 e), fun e => List.mem_append_left _ (a3 e)⟩
  · exact h

/-- Adding a request to the queue and trying to send. -/
theorem sendReq_inv {s : St} (h : Inv s) {r : Nat} {ok : Nat → Bool} {hbt : Bool}
    (hb0 : hbt = true → s.base.hb = none) (hd : s.base.delegate = true)
    (hs : (subList s.base.acts).Nodup) (hr : r ∉ subList s.base.acts) :
    ∃ s', sendReq true (if hbt then { s with base := { s.base with hb := some r } } else s) r ok hbt
      = some s' ∧ Inv s' ∧ s'.base.delegate = true ∧
      subList s'.base.acts = subList s.base.acts ++ [r] := by
  have hc := inv_core h
  have hq : r ∉ s.ing.toList ++ s.waiting := by
    intro hm
    apply hr
    rw [← hc.fifo]
    exact List.mem_append_right _ hm
  have hhbr : s.base.hb ≠ some r := fun e => hq (hc.hb r e).2
  -- the state after queueing
  have key : ∀ B : Base, B.acts = s.base.acts ++ [.submit r hbt] →
      B.hb = (if hbt then some r else s.base.hb) → B.delegate = true →
      Core B s.ing (s.ing.toList ++ (s.waiting ++ [r])) ∧
        subList B.acts = subList s.base.acts ++ [r] := by
    intro B hacts hhb _
    have hsub : subList B.acts = subList s.base.acts ++ [r] := by
      rw [hacts, subList_append]; simp [subList]
    have hin : ∀ a ∈ s.base.acts, a ∈ B.acts := fun a ha => by rw [hacts]; simp [ha]
    refine ⟨⟨?_, ?_, ?_, ?_, ?_, ?_, ?_⟩, hsub⟩
    · rw [hsub, ← hc.fifo, hacts, doneList_append]; simp [doneList]
    · rw [hacts, flight_append, hc.wire]; rfl
    · intro x hx; rw [hx]; rfl
    · rw [hsub, hacts, wireList_append]
      intro x hx
      exact List.mem_append_left _ (hc.wired x (by simpa [wireList] using hx))
    · intro x hx
      rw [hhb] at hx
      cases hbt with
      | true =>
        simp at hx; subst hx
        exact ⟨by rw [hacts]; simp, by simp⟩
      | false =>
        simp at hx
        obtain ⟨g1, g2⟩ := hc.hb x hx
        refine ⟨hin _ g1, ?_⟩
        rw [← List.append_assoc]; exact List.mem_append_left _ g2
    · intro x hx hne
      rw [← List.append_assoc] at hx
      rcases List.mem_append.1 hx with hx | hx
      · apply hin
        apply hc.kinds x hx
        cases hbt with
        | true => rw [hb0 rfl]; simp
        | false => rw [hhb] at hne; simpa using hne
      · simp at hx
        subst hx
        cases hbt with
        | true => rw [hhb] at hne; simp at hne
        | false => rw [hacts]; simp
    · intro x o v hm
      rw [hacts] at hm
      simp only [List.mem_append, List.mem_singleton, reduceCtorEq, or_false] at hm
      obtain ⟨a1, a2, a3⟩ := hc.vis x o v hm
      exact ⟨a1, fun e => hin _ (a2 e), fun e => hin _ (a3 e)⟩
  have hst : sendReq true (if hbt then { s with base := { s.base with hb := some r } } else s) r ok hbt
      = trySendNext true ok ⟨({ s.base with hb := if hbt then some r else s.base.hb }).submit r hbt,
          s.ing, s.waiting ++ [r]⟩ := by
    unfold sendReq
    cases hbt <;> rfl
  rw [hst]
  obtain ⟨k1, k2⟩ := key (({ s.base with hb := if hbt then some r else s.base.hb } : Base).submit r hbt)
    rfl rfl hd
  generalize hB : (({ s.base with hb := if hbt then some r else s.base.hb } : Base).submit r hbt) = B at *
  have hBd : B.delegate = true := by rw [← hB]; exact hd
  have hBs : (subList B.acts).Nodup := by
    rw [k2, List.nodup_append]
    exact ⟨hs, by simp, by intro a ha b hb; simp at hb; subst hb; exact fun e => hr (e ▸ ha)⟩
  unfold trySendNext
  simp only
  cases hing : s.ing with
  | some x =>
    simp only [Option.isSome_some, if_true]
    refine ⟨_, rfl, ⟨?_, ?_, ?_, ?_, ?_, ?_, ?_, ?_, ?_⟩, hBd, k2⟩
    · rw [List.append_assoc, ← hing]; exact k1.fifo
    · rw [← hing]; exact k1.wire
    · intro e; simp at e
    · exact k1.wired
    · intro y hy
      have h1 := h.ingw y (by rw [hing]; exact hy)
      show y ∈ wireList B.acts
      rw [← hB]
      show y ∈ wireList (s.base.acts ++ [.submit r hbt])
      rw [wireList_append]; exact List.mem_append_left _ h1
    · intro e
      have : B.delegate = false := e
      rw [hBd] at this; exact absurd this (by decide)
    · rw [← hing]; exact k1.hb
    · rw [← hing]; exact k1.kinds
    · exact k1.vis
  | none =>
    simp only [Option.isSome_none, Bool.false_eq_true, if_false]
    have k1' : Core B none (s.waiting ++ [r]) := by rw [hing] at k1; simpa using k1
    obtain ⟨s', g1, g2, g3, g4⟩ := trySend_inv ok (s.waiting ++ [r]) B k1' (Or.inl hBd) hBs
    exact ⟨s', g1, g2, by rw [g3, hBd], by rw [g4, k2]⟩

/-- Every event preserves the invariant (with the pointer copied). -/
theorem step_inv {s : St} (h : Inv s) (e : Ev) (hs : (subList s.base.acts).Nodup)
    (hsend : isSend e = true → s.base.delegate = true)
    (hfresh : ∀ r, reqOf e = some r → r ∉ subList s.base.acts) :
    ∃ s', step true s e = some s' ∧ Inv s' ∧
    (subList s'.base.acts = subList s.base.acts ∨
      ∃ r, reqOf e = some r ∧ subList s'.base.acts = subList s.base.acts ++ [r]) ∧
    (e ≠ .shutdown → s'.base.delegate = s.base.delegate) := by
  have hfail : Core (failEverything s) none [] ∧
      (failEverything s).delegate = s.base.delegate ∧
      subList (failEverything s).acts = subList s.base.acts := by
    obtain ⟨g1, g2, g3, -⟩ := core_failAll (s.ing.toList ++ s.waiting) s.base s.ing (inv_core h) (by
      cases hd : s.base.delegate with
      | true => exact Or.inl rfl
      | false =>
        right
        have := h.dead hd
        rw [this, h.busy this]; rfl) hs (by
      intro e
      cases hi : s.ing with
      | none => rfl
      | some x => rw [hi] at e; simp at e)
    exact ⟨g1, g2, g3⟩
  have hnc : ∀ b : Base, subList b.notifyClosed.acts = subList b.acts ∧
      b.notifyClosed.delegate = b.delegate := by
    intro b
    unfold Base.notifyClosed
    split
    · exact ⟨by simp [subList], rfl⟩
    · exact ⟨rfl, rfl⟩
  cases e with
  | send r ok =>
    obtain ⟨s', g1, g2, g3, g4⟩ := sendReq_inv (hbt := false) (ok := ok) h (by simp) (hsend rfl) hs
      (hfresh r rfl)
    exact ⟨s', by simpa [step] using g1, g2, Or.inr ⟨r, rfl, g4⟩, fun _ => by rw [g3, hsend rfl]⟩
  | heartbeat r ok =>
    simp only [step]
    split
    · exact ⟨s, rfl, h, Or.inl rfl, fun _ => rfl⟩
    · rename_i hn
      obtain ⟨s', g1, g2, g3, g4⟩ := sendReq_inv (hbt := true) (ok := ok) h
        (fun _ => by simpa using hn) (hsend rfl) hs (hfresh r rfl)
      exact ⟨s', by simpa using g1, g2, Or.inr ⟨r, rfl, g4⟩, fun _ => by rw [g3, hsend rfl]⟩
  | timeout r alive =>
    simp only [step]
    split
    · exact ⟨s, rfl, h, Or.inl rfl, fun _ => rfl⟩
    · split
      · exact ⟨s, rfl, h, Or.inl rfl, fun _ => rfl⟩
      · split
        · rename_i hing
          have hd : s.base.delegate = true := by
            cases hd : s.base.delegate with
            | true => rfl
            | false => rw [h.dead hd] at hing; simp at hing
          have hc := inv_core h
          rw [hing] at hc
          have hc' : Core s.base (some r) (r :: s.waiting) := hc
          obtain ⟨c1, c2, c3, -⟩ := core_done hc' hd hs .timeout (by simp)
          obtain ⟨g1, g2, g3, -⟩ := core_failAll s.waiting _ _ c1 (Or.inl c2) (by rw [c3]; exact hs)
            (fun _ => rfl)
          refine ⟨_, rfl, inv_of_core_nil (core_closed g1), Or.inl ?_, fun _ => ?_⟩
          · exact ((hnc _).1.trans g3).trans c3
          · rw [hd, ← c2]; exact (hnc _).2.trans g2
        · exact ⟨s, rfl, h, Or.inl rfl, fun _ => rfl⟩
  | message id ok =>
    simp only [step]
    split
    · exact ⟨s, rfl, h, Or.inl rfl, fun _ => rfl⟩
    · rename_i r hing
      have hd : s.base.delegate = true := by
        cases hd : s.base.delegate with
        | true => rfl
        | false => rw [h.dead hd] at hing; simp at hing
      have hc := inv_core h
      rw [hing] at hc
      have hc' : Core s.base (some r) (r :: s.waiting) := hc
      obtain ⟨c1, c2, c3, -⟩ := core_done hc' hd hs (.response id) (by simp)
      obtain ⟨s', g1, g2, g3, g4⟩ := trySend_inv ok s.waiting _ c1 (Or.inl c2) (by rw [c3]; exact hs)
      exact ⟨s', g1, g2, Or.inl (g4.trans c3), fun _ => by rw [g3, c2, hd]⟩
  | codecClosed =>
    refine ⟨_, rfl, inv_of_core_nil (core_closed hfail.1), Or.inl ?_, fun _ => ?_⟩
    · exact (hnc _).1.trans hfail.2.2
    · exact (hnc _).2.trans hfail.2.1
  | shutdown =>
    refine ⟨_, rfl, ?_, Or.inl hfail.2.2, fun hne => absurd rfl hne⟩
    have := inv_of_core_nil hfail.1
    exact ⟨this.fifo, this.wire, this.busy, this.wired, this.ingw, fun _ => rfl, this.hb, this.kinds,
      this.vis⟩

theorem run_inv : ∀ (evs : List Ev) (s : St), Inv s →
    (subList s.base.acts ++ evs.filterMap reqOf).Nodup →
    (s.base.delegate = false → ∀ e ∈ evs, isSend e = false) →
    evs.Pairwise (fun a b => a = .shutdown → isSend b = false) →
    ∃ s', run true s evs = some s' ∧ Inv s' ∧ (subList s'.base.acts).Nodup ∧
      (∀ r ∈ subList s'.base.acts, r ∈ subList s.base.acts ++ evs.filterMap reqOf) := by
  intro evs
  induction evs with
  | nil =>
    intro s h hn _ _
    exact ⟨s, rfl, h, by simpa using hn, by intro r hr; simpa using hr⟩
  | cons e evs ih =>
    intro s h hn hdead hlate
    obtain ⟨hl1, hl2⟩ := List.pairwise_cons.1 hlate
    have hn1 : (subList s.base.acts).Nodup := (List.nodup_append.1 hn).1
    obtain ⟨s', k0, k1, k2, k3⟩ := step_inv h e hn1
      (fun hse => by
        cases hd : s.base.delegate with
        | true => rfl
        | false => have := hdead hd e (by simp); rw [hse] at this; exact absurd this (by decide))
      (fun r hr => by
        have hmem : r ∈ (e :: evs).filterMap reqOf := by simp [hr]
        exact fun hc => (List.nodup_append.1 hn).2.2 r hc r hmem rfl)
    have hsl : List.Sublist (subList s'.base.acts ++ evs.filterMap reqOf)
        (subList s.base.acts ++ (e :: evs).filterMap reqOf) := by
      rcases k2 with k2 | ⟨r, hr, k2⟩
      · rw [k2]
        apply List.Sublist.append (List.Sublist.refl _)
        cases hre : reqOf e with
        | none => rw [List.filterMap_cons_none hre]; exact List.Sublist.refl _
        | some r => rw [List.filterMap_cons_some hre]; exact List.sublist_cons_self _ _
      · rw [k2, List.filterMap_cons_some hr]
        simp
    have hd' : s'.base.delegate = false → ∀ e' ∈ evs, isSend e' = false := by
      intro hd e' he'
      by_cases hsd : e = .shutdown
      · exact hl1 e' he' hsd
      · rw [k3 hsd] at hd
        exact hdead hd e' (by simp [he'])
    obtain ⟨s2, g0, g1, g2, g3⟩ := ih s' k1 (hn.sublist hsl) hd' hl2
    refine ⟨s2, ?_, g1, g2, fun r hr => hsl.subset (g3 r hr)⟩
    unfold run
    rw [k0]; exact g0

theorem init_inv : Inv init := by
  refine ⟨rfl, rfl, fun _ => rfl, ?_, ?_, fun _ => rfl, ?_, ?_, ?_⟩
  · intro r hr; simp [init, Base.init, wireList] at hr
  · intro r hr; simp [init] at hr
  · intro h hh; simp [init, Base.init] at hh
  · intro r hr; simp [init] at hr
  · intro r o v hm; simp [init, Base.init] at hm

theorem userSubs_append (a b : List Act) : userSubs (a ++ b) = userSubs a ++ userSubs b := by
  unfold userSubs; exact List.filterMap_append

theorem userSubs_handle (b : Base) (r : Nat) (o : Outcome) :
    userSubs (b.handle r o).acts = userSubs b.acts := by
  obtain ⟨v, h, -⟩ := handle_acts b r o
  rw [h, userSubs_append]; simp [userSubs]

theorem userSubs_failAll : ∀ (q : List Nat) (b : Base),
    userSubs (b.failAll q).acts = userSubs b.acts := by
  intro q
  induction q with
  | nil => intro b; rfl
  | cons r q ih => intro b; exact (ih _).trans (userSubs_handle b r .broken)

theorem userSubs_closed (b : Base) : userSubs b.notifyClosed.acts = userSubs b.acts := by
  unfold Base.notifyClosed
  split
  · show userSubs (b.acts ++ [.closed]) = _
    rw [userSubs_append]; simp [userSubs]
  · rfl

theorem userSubs_trySend (copy : Bool) (ok : Nat → Bool) : ∀ (q : List Nat) (b : Base) (s' : St),
    trySend copy ok b q = some s' → userSubs s'.base.acts = userSubs b.acts := by
  intro q
  induction q with
  | nil => intro b s' h; simp only [trySend, Option.some.injEq] at h; rw [← h]
  | cons r q ih =>
    intro b s' h
    unfold trySend at h
    split at h
    · simp at h
    · split at h
      · simp only [Option.some.injEq] at h
        rw [← h]
        show userSubs (b.acts ++ [.wire r]) = _
        rw [userSubs_append]; simp [userSubs]
      · rw [ih _ _ h, userSubs_handle]

theorem userSubs_trySendNext {copy : Bool} {ok : Nat → Bool} {s s' : St}
    (h : trySendNext copy ok s = some s') : userSubs s'.base.acts = userSubs s.base.acts := by
  unfold trySendNext at h
  split at h
  · simp only [Option.some.injEq] at h; rw [← h]
  · exact userSubs_trySend _ _ _ _ _ h

theorem userSubs_step {copy : Bool} {s s' : St} {e : Ev} (h : step copy s e = some s') :
    userSubs s'.base.acts = userSubs s.base.acts ++ (userReq e).toList := by
  cases e with
  | send r ok =>
    rw [userSubs_trySendNext h]
    show userSubs (s.base.acts ++ [.submit r false]) = _
    rw [userSubs_append]; rfl
  | heartbeat r ok =>
    simp only [step] at h
    split at h
    · simp only [Option.some.injEq] at h; rw [← h]; simp [userReq]
    · rw [userSubs_trySendNext h]
      show userSubs (s.base.acts ++ [.submit r true]) = _
      rw [userSubs_append]; rfl
  | timeout r a =>
    simp only [step] at h
    split at h
    · simp only [Option.some.injEq] at h; rw [← h]; simp [userReq]
    · split at h
      · simp only [Option.some.injEq] at h; rw [← h]; simp [userReq]
      · split at h
        · simp only [Option.some.injEq] at h
          rw [← h]
          simp only [userReq, Option.toList_none, List.append_nil]
          exact ((userSubs_closed _).trans (userSubs_failAll _ _)).trans (userSubs_handle _ _ _)
        · simp only [Option.some.injEq] at h; rw [← h]; simp [userReq]
  | message id ok =>
    simp only [step] at h
    split at h
    · simp only [Option.some.injEq] at h; rw [← h]; simp [userReq]
    · rw [userSubs_trySendNext h, userSubs_handle]; simp [userReq]
  | codecClosed =>
    simp only [step, Option.some.injEq] at h
    rw [← h]
    simp only [userReq, Option.toList_none, List.append_nil]
    exact (userSubs_closed _).trans (userSubs_failAll _ _)
  | shutdown =>
    simp only [step, Option.some.injEq] at h
    rw [← h]
    simp only [userReq, Option.toList_none, List.append_nil]
    exact userSubs_failAll _ _

theorem userSubs_run {copy : Bool} : ∀ (evs : List Ev) (s s' : St), run copy s evs = some s' →
    userSubs s'.base.acts = userSubs s.base.acts ++ evs.filterMap userReq := by
  intro evs
  induction evs with
  | nil => intro s s' h; simp only [run, Option.some.injEq] at h; rw [← h]; simp
  | cons e evs ih =>
    intro s s' h
    unfold run at h
    split at h
    · simp at h
    · rename_i s1 h1
      rw [ih s1 s' h, userSubs_step h1, List.append_assoc]
      congr 1
      cases he : userReq e with
      | none => rw [List.filterMap_cons_none he]; rfl
      | some r => rw [List.filterMap_cons_some he]; rfl

theorem handle_delegate (b : Base) (r : Nat) (o : Outcome) :
    (b.handle r o).delegate = b.delegate := by
  obtain ⟨v, -, h, -⟩ := handle_acts b r o
  exact h

theorem failAll_delegate : ∀ (q : List Nat) (b : Base), (b.failAll q).delegate = b.delegate := by
  intro q
  induction q with
  | nil => intro b; rfl
  | cons r q ih => intro b; exact (ih _).trans (handle_delegate b r .broken)

theorem closed_delegate (b : Base) : b.notifyClosed.delegate = b.delegate := by
  unfold Base.notifyClosed; split <;> rfl

theorem trySend_delegate (copy : Bool) (ok : Nat → Bool) : ∀ (q : List Nat) (b : Base) (s' : St),
    trySend copy ok b q = some s' → s'.base.delegate = b.delegate := by
  intro q
  induction q with
  | nil => intro b s' h; simp only [trySend, Option.some.injEq] at h; rw [← h]
  | cons r q ih =>
    intro b s' h
    unfold trySend at h
    split at h
    · simp at h
    · split at h
      · simp only [Option.some.injEq] at h; rw [← h]; rfl
      · rw [ih _ _ h, handle_delegate]

theorem trySendNext_delegate {copy : Bool} {ok : Nat → Bool} {s s' : St}
    (h : trySendNext copy ok s = some s') : s'.base.delegate = s.base.delegate := by
  unfold trySendNext at h
  split at h
  · simp only [Option.some.injEq] at h; rw [← h]
  · exact trySend_delegate _ _ _ _ _ h

theorem step_delegate {copy : Bool} {s s' : St} {e : Ev} (h : step copy s e = some s')
    (hne : e ≠ .shutdown) : s'.base.delegate = s.base.delegate := by
  cases e with
  | send r ok => exact (trySendNext_delegate h).trans rfl
  | heartbeat r ok =>
    simp only [step] at h
    split at h
    · simp only [Option.some.injEq] at h; rw [← h]
    · exact (trySendNext_delegate h).trans rfl
  | timeout r a =>
    simp only [step] at h
    split at h
    · simp only [Option.some.injEq] at h; rw [← h]
    · split at h
      · simp only [Option.some.injEq] at h; rw [← h]
      · split at h
        · simp only [Option.some.injEq] at h
          rw [← h]
          exact ((closed_delegate _).trans (failAll_delegate _ _)).trans (handle_delegate _ _ _)
        · simp only [Option.some.injEq] at h; rw [← h]
  | message id ok =>
    simp only [step] at h
    split at h
    · simp only [Option.some.injEq] at h; rw [← h]
    · exact (trySendNext_delegate h).trans (handle_delegate _ _ _)
  | codecClosed =>
    simp only [step, Option.some.injEq] at h
    rw [← h]
    exact (closed_delegate _).trans (failAll_delegate _ _)
  | shutdown => exact absurd rfl hne

theorem run_delegate : ∀ (evs : List Ev) (s s' : St), run true s evs = some s' →
    s.base.delegate = true → (∀ e ∈ evs, e = .shutdown → False) → s'.base.delegate = true := by
  intro evs
  induction evs with
  | nil => intro s s' h hd _; simp only [run, Option.some.injEq] at h; rw [← h]; exact hd
  | cons e evs ih =>
    intro s s' h hd hn
    unfold run at h
    split at h
    · simp at h
    · rename_i s1 h1
      exact ih s1 s' h ((step_delegate h1 (fun e' => hn e (by simp) e')).trans hd)
        (fun e' he' => hn e' (by simp [he']))

/-! ### C22 -/

/-- **C22 (with the pointer copied before the pop).** In every history in scope: requests are
completed in submission order -- the completed ones, the one in flight and the waiting ones are
together exactly the submitted ones (the user's and the heartbeats), in order -- so each is completed at most once; the wire
protocol is respected (one request in flight, answers and timeouts go to it); nothing waits unless
something is in flight; completions reach the user. -/
theorem c22_fifo_partial {evs : List Ev} (h : Scope evs) :
    ∃ s, run true init evs = some s ∧
      doneList s.base.acts ++ s.ing.toList ++ s.waiting = subList s.base.acts ∧
      (subList s.base.acts).Nodup ∧
      userSubs s.base.acts = evs.filterMap userReq ∧
      flight (some none) s.base.acts = some s.ing ∧
      (s.ing = none → s.waiting = []) ∧
      (∀ r o v, .done r o v ∈ s.base.acts → .submit r false ∈ s.base.acts → v = .user) := by
  obtain ⟨s, g0, g1, g2, -⟩ := run_inv evs init init_inv
    (by simpa [init, Base.init, subList] using h.fresh)
    (by intro hd; simp [init, Base.init] at hd) h.noLate
  refine ⟨s, g0, g1.fifo, g2, by simpa [init, Base.init, userSubs] using userSubs_run evs init s g0,
    g1.wire, g1.busy, ?_⟩
  intro r o v hm hsub
  obtain ⟨a1, a2, -⟩ := g1.vis r o v hm
  cases v with
  | user => rfl
  | dropped => exact absurd rfl a1
  | heartbeat => exact absurd (Async.submit_unique g2 (a2 rfl) hsub) (by simp)

/-- **C22, liveness**: when the connection closes, the channel is shut down, or the timer of the
request in flight fires, every request submitted so far has been completed. -/
theorem c22_all_completed_partial {pre : List Ev} {e : Ev} (h : Scope (pre ++ [e])) :
    ∃ s s', run true init pre = some s ∧ step true s e = some s' ∧
      ((e = .codecClosed ∨ e = .shutdown ∨ ∃ r a, e = .timeout r a ∧ s.ing = some r) →
        doneList s'.base.acts = subList s'.base.acts) := by
  have hf := h.fresh
  rw [List.filterMap_append] at hf
  have hl := h.noLate
  rw [List.pairwise_append] at hl
  obtain ⟨s, g0, g1, g2, g3⟩ := run_inv pre init init_inv
    (by simpa [init, Base.init, subList] using (List.nodup_append.1 hf).1)
    (by intro hd; simp [init, Base.init] at hd) hl.1
  by_cases hse : isSend e = true
  · -- not one of the events concerned; only existence matters
    have hd : s.base.delegate = true := run_delegate pre init s g0 rfl (by
      intro e' he' hsd
      have := hl.2.2 e' he' e (by simp) hsd
      rw [hse] at this; exact absurd this (by decide))
    obtain ⟨s', k0, -, -, -⟩ := step_inv g1 e g2 (fun _ => hd) (by
      intro r hr hc
      have h1 := g3 r hc
      simp only [init, Base.init, subList, List.filterMap_nil, List.nil_append] at h1
      exact (List.nodup_append.1 hf).2.2 r h1 r (by simp [hr]) rfl)
    refine ⟨s, s', g0, k0, ?_⟩
    rintro (rfl | rfl | ⟨r, a, rfl, -⟩) <;> simp [isSend] at hse
  · obtain ⟨s', k0, k1, -, -⟩ := step_inv g1 e g2 (fun hc => absurd hc hse) (by
      intro r hr
      cases e <;> simp [reqOf, isSend] at hr hse)
    refine ⟨s, s', g0, k0, ?_⟩
    intro he
    have hempty : s'.ing = none ∧ s'.waiting = [] := by
      rcases he with rfl | rfl | ⟨r, a, rfl, hing⟩
      · simp [step] at k0; subst k0; exact ⟨rfl, rfl⟩
      · simp [step] at k0; subst k0; exact ⟨rfl, rfl⟩
      · have hw := g1.ingw r hing
        simp [step, hing, hw] at k0; subst k0; exact ⟨rfl, rfl⟩
    have := k1.fifo
    rw [hempty.1, hempty.2] at this
    simpa using this

/-- **C22 is violated by the code as written**: in the code (`copy = false`) the first request ever
submitted to a queued channel makes it use a destroyed pointer, whatever the codec answers. -/
theorem c22_use_after_free_violated (r : Nat) (ok : Nat → Bool) :
    run false init [.send r ok] = none := by
  simp [run, step, sendReq, trySendNext, trySend, init, Base.submit, Base.init]

/-- More generally every request submitted to an idle channel does so, in every state. -/
theorem c22_use_after_free_always_violated (s : St) (hidle : s.ing = none) (r : Nat)
    (ok : Nat → Bool) : step false s (.send r ok) = none := by
  simp only [step, sendReq, trySendNext, hidle]
  cases s.waiting <;> simp [trySend]

/-- A request submitted after the channel was shut down and rejected by the codec completes
without anybody being told. -/
theorem c22_late_send_violated :
    ∃ s, run true init [.shutdown, .send 0 (fun _ => false)] = some s ∧
      .done 0 .broken .dropped ∈ s.base.acts := by
  exact ⟨_, rfl, by decide⟩

/-! ### Concrete history: three requests, one rejected by the codec, one heartbeat, a timeout. -/

def demo : List Ev :=
  [.send 1 (fun _ => true), .send 2 (fun _ => true), .heartbeat 3 (fun _ => true),
   .send 4 (fun _ => true), .message 7 (fun r => r != 2), .timeout 3 true]

example : Scope demo := ⟨by decide, by simp [demo, isSend]⟩

/-- 1 is answered, 2 is rejected, the heartbeat 3 goes on the wire, times out, and takes 4 along. -/
example : (run true init demo).map (fun s => doneList s.base.acts) = some [1, 2, 3, 4] := by decide
example : (run true init demo).map (fun s => wireList s.base.acts) = some [1, 3] := by decide

end Ltio.Client.Queued
