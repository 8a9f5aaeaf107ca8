import Mathlib.Tactic.ByContra

/-
C181, C182: requests through a `Client` (net_io/clients/client.cc:256-322): `AsyncDoRequest`, `DoRequest` and
`OnRequestGetResponse`, with the life of the request and response objects and the loops the calls run on.

Channels are by contract (C21, C22, C67): each request given to a channel waits there until the channel reports one
outcome for it — a response, a time-out, a broken connection.  Loops run their tasks in order, each loop at its own pace.
A coroutine is resumed as C28 says: the resumer posts to its loop.
-/
namespace Ltio.Client.Rpc

/-! ### The program -/

/-- `MessageCode` (net_io/codec/codec_message.h:42-48). -/
inductive Code where
  | success
  | timeout
  | broken
  | notConnected
deriving DecidableEq, Repr

/-- Tasks posted to loops: `ClientChannel::SendRequest` (client.cc:287, 304-310), the callback bound to the plain pointer
to the response (client.cc:276-277), the resumption of a coroutine (co_runner.cc:198-215). -/
inductive Task where
  | send (ch r : Nat)
  | callback (r : Nat) (m : Option Nat)
  | resume (r : Nat)
deriving DecidableEq, Repr

def Task.req : Task → Nat
  | .send _ r => r
  | .callback r _ => r
  | .resume r => r

/-- `WorkContext` (codec_message.h:55-58) with what its resumer does: a callback on `worker`, or the resumption of a
coroutine of loop `worker`. -/
structure Ctx where
  worker : Nat
  sync : Bool
deriving DecidableEq, Repr

/-- `held`: references to a request from outside the client, that is the user's and, during `SendRecieve`, the local of
its frame (client.h:97-101); `ctx`, `resp`, `code`: the fields of the request (codec_message.h:109-117); `queue`: the tasks
of the loops; `out`: the requests waiting in each channel; `shut`: channels closed by `CloseClientChannel`; `used`:
response objects made so far.  The last four are written only: calls accepted, outcomes reported by channels, results
given to the user with the loop this happened on, calls of `DoRequest` that found no channel. -/
structure St where
  held : Nat → Nat
  ctx : Nat → Ctx
  resp : Nat → Option Nat
  code : Nat → Code
  queue : List (Nat × Task)
  out : List (Nat × Nat)
  shut : List Nat
  used : List Nat
  calls : List (Nat × Nat)
  done : List (Nat × Option Nat)
  log : List (Nat × Nat × Option Nat)
  refused : List Nat

/-- Each request is held once by the user who made it; `CodecMessage` (codec_message.cc:29-31). -/
def St.init : St := ⟨fun _ => 1, fun _ => ⟨0, false⟩, fun _ => none, fun _ => .success, [], [], [], [], [], [], [], []⟩

def upd {α : Type} (f : Nat → α) (r : Nat) (v : α) : Nat → α := fun x => if x = r then v else f x

/-- What the resumer does (client.cc:272-279; co_runner.cc:198-215), called on the loop `io`. -/
def resumer (s : St) (io r : Nat) (m : Option Nat) : St :=
  if (s.ctx r).sync = true then { s with queue := s.queue ++ [((s.ctx r).worker, .resume r)] }
  else if (s.ctx r).worker = io then { s with log := s.log ++ [(r, io, m)] }
  else { s with queue := s.queue ++ [((s.ctx r).worker, .callback r m)] }

/-- `HandleResponse` (client_channel.cc:110-127) and `OnRequestGetResponse` (client.cc:256-260); a channel closed by
`CloseClientChannel` has no delegate any more. -/
def complete (io : Nat → Nat) (s : St) (ch r : Nat) (m : Option Nat) : St :=
  if ch ∈ s.shut then s
  else resumer { s with resp := upd s.resp r m, done := s.done ++ [(r, m)] } (io ch) r m

/-- Is the request object alive: somebody outside holds it, a posted `SendRequest` or a channel does.  The callback's
closure does not (client.cc:269-270). -/
def St.alive (s : St) (r : Nat) : Bool :=
  decide (0 < s.held r) || s.queue.any (fun x => match x.2 with | .send _ q => decide (q = r) | _ => false) ||
    s.out.any (fun x => decide (x.2 = r))

/-- Does the plain pointer to response `x` of request `r` still point to it? -/
def St.valid (s : St) (r x : Nat) : Bool := s.alive r && decide (s.resp r = some x)

/-- One task, on loop `l`; `ok`: whether the codec takes the request.  `none`: the callback is given a dangling pointer. -/
def runTask (io : Nat → Nat) (s : St) (l : Nat) (ok : Bool) : Task → Option St
  -- SendRequest (async_channel.cc:40-62, queued_channel.cc:44-51, 58-70)
  | .send ch r =>
    if ok then some { s with out := s.out ++ [(ch, r)] }
    else some (complete io { s with code := upd s.code r .broken } ch r none)
  | .callback r (some x) => if s.valid r x then some { s with log := s.log ++ [(r, l, some x)] } else none
  | .callback r none => some { s with log := s.log ++ [(r, l, none)] }
  -- client.cc:318-320
  | .resume r => some { s with log := s.log ++ [(r, l, s.resp r)], held := upd s.held r (s.held r - 1) }

/-- What can happen.  `ch`: what `get_ready_channel` returns (C66). -/
inductive In where
  | async (r worker : Nat) (ch : Option Nat)    -- AsyncDoRequest
  | sync (r l : Nat) (ch : Option Nat)          -- SendRecieve in a coroutine of loop l
  | keep (r : Nat)                              -- the user copies a reference
  | drop (r : Nat)                              -- the user drops one
  | run (l : Nat) (ok : Bool)                   -- loop l runs its next task
  | answer (ch r m : Nat)                       -- the channel reports response m
  | fail (ch r : Nat) (late : Bool)             -- the channel reports a time-out, or else a broken connection
  | close (ch : Nat)                            -- CloseClientChannel, after BeforeCloseChannel failed what waits
deriving DecidableEq, Repr

/-- A call that found the channel `c` (client.cc:281-291, 303-313). -/
def accept (io : Nat → Nat) (s : St) (r w c : Nat) (sync : Bool) : St :=
  { s with
    held := if sync then upd s.held r (s.held r + 1) else s.held
    ctx := upd s.ctx r ⟨w, sync⟩
    queue := s.queue ++ [(io c, .send c r)]
    calls := s.calls ++ [(r, w)] }

/-- One step.  The user can use only what is held; a closed channel is not ready. -/
def step (io : Nat → Nat) (s : St) : In → Option St
  | .async r w none => some (if s.held r = 0 then s else { s with ctx := upd s.ctx r ⟨w, false⟩ })
  | .async r w (some c) => some (if s.held r = 0 ∨ c ∈ s.shut then s else accept io s r w c false)
  | .sync r l none =>
    some (if s.held r = 0 then s
      else { s with ctx := upd s.ctx r ⟨l, true⟩, code := upd s.code r .notConnected, refused := s.refused ++ [r] })
  | .sync r l (some c) => some (if s.held r = 0 ∨ c ∈ s.shut then s else accept io s r l c true)
  | .keep r => some (if s.held r = 0 then s else { s with held := upd s.held r (s.held r + 1) })
  | .drop r => some { s with held := upd s.held r (s.held r - 1) }
  | .run l ok =>
    match s.queue.find? (fun x => decide (x.1 = l)) with
    | none => some s
    | some x => runTask io { s with queue := s.queue.erase x } l ok x.2
  | .answer ch r m =>
    some (if (ch, r) ∈ s.out ∧ m ∉ s.used then
      complete io { s with out := s.out.erase (ch, r), used := m :: s.used } ch r (some m) else s)
  | .fail ch r late =>
    some (if (ch, r) ∈ s.out then
      complete io { s with out := s.out.erase (ch, r), code := upd s.code r (if late then .timeout else .broken) } ch r none
      else s)
  | .close ch => some (if s.out.any (fun x => decide (x.1 = ch)) then s else { s with shut := ch :: s.shut })

/-- A history; `none`: a dangling pointer was handed to a callback. -/
def run (io : Nat → Nat) : St → List In → Option St
  | s, [] => some s
  | s, i :: is => (step io s i).bind (fun s' => run io s' is)

/-! ### Specification -/

/-- The loops asked for by the accepted calls with request `r`, in order. -/
def callsOf (s : St) (r : Nat) : List Nat := (s.calls.filter (fun x => decide (x.1 = r))).map Prod.snd

/-- What the channels reported for `r`, in order: a response, or none. -/
def doneOf (s : St) (r : Nat) : List (Option Nat) := (s.done.filter (fun x => decide (x.1 = r))).map Prod.snd

/-- What the user was given for `r`, and on which loops, in order. -/
def logOf (s : St) (r : Nat) : List (Nat × Option Nat) := (s.log.filter (fun x => decide (x.1 = r))).map Prod.snd

/-- A call with `r` was accepted and has not given its result yet. -/
def InProgress (s : St) (r : Nat) : Prop := (logOf s r).length < (callsOf s r).length

/-- What the user has to take care of: not to start a call with a request that has one in progress, to keep the request
until then, and not to finalize the client while a request is on its way to the channel. -/
def okIn (s : St) : In → Prop
  | .async r _ _ => ¬ InProgress s r
  | .sync r _ _ => ¬ InProgress s r
  | .drop r => s.held r ≤ 1 → ¬ InProgress s r
  | .close ch => ∀ l r, (l, Task.send ch r) ∉ s.queue
  | _ => True

/-- A history with that care. -/
def Careful (io : Nat → Nat) : St → List In → Prop
  | _, [] => True
  | s, i :: is => okIn s i ∧ ∀ s', step io s i = some s' → Careful io s' is

/-! ### Invariant -/

def qOf (s : St) (r : Nat) : List (Nat × Task) := s.queue.filter (fun x => decide (x.2.req = r))
def oOf (s : St) (r : Nat) : List (Nat × Nat) := s.out.filter (fun x => decide (x.2 = r))

/-- Where the last call with `r` is. -/
inductive Phase (s : St) (r : Nat) : Prop where
  | idle : qOf s r = [] → oOf s r = [] → (callsOf s r).length = (doneOf s r).length →
      logOf s r = (callsOf s r).zip (doneOf s r) → Phase s r
  | sent (c : List Nat) (w ch : Nat) :
      ((∃ l, qOf s r = [(l, .send ch r)]) ∧ oOf s r = [] ∨ qOf s r = [] ∧ oOf s r = [(ch, r)]) → ch ∉ s.shut →
      callsOf s r = c ++ [w] → c.length = (doneOf s r).length → logOf s r = c.zip (doneOf s r) →
      (s.ctx r).worker = w → 0 < s.held r → Phase s r
  | back (c : List Nat) (w : Nat) (d : List (Option Nat)) (m : Option Nat) :
      (qOf s r = [(w, .callback r m)] ∨ qOf s r = [(w, .resume r)]) → oOf s r = [] →
      callsOf s r = c ++ [w] → doneOf s r = d ++ [m] → c.length = d.length → logOf s r = c.zip d →
      s.resp r = m → 0 < s.held r → Phase s r

theorem phase_congr {s s' : St} {r : Nat} (p : Phase s r) (hq : qOf s' r = qOf s r) (ho : oOf s' r = oOf s r)
    (hc : callsOf s' r = callsOf s r) (hd : doneOf s' r = doneOf s r) (hl : logOf s' r = logOf s r)
    (hx : s'.ctx r = s.ctx r) (hr : s'.resp r = s.resp r) (hh : 0 < s.held r → 0 < s'.held r)
    (hs : s'.shut = s.shut) : Phase s' r := by
  cases p with
  | idle a b c d => exact .idle (by rw [hq, a]) (by rw [ho, b]) (by rw [hc, hd, c]) (by rw [hl, hc, hd, d])
  | sent c w ch a b e f g h i =>
    exact .sent c w ch (by rw [hq, ho]; exact a) (by rw [hs]; exact b) (by rw [hc, e]) (by rw [hd, f])
      (by rw [hl, hd, g]) (by rw [hx, h]) (hh i)
  | back c w d m a b e f g h i j =>
    exact .back c w d m (by rw [hq]; exact a) (by rw [ho, b]) (by rw [hc, e]) (by rw [hd, f]) g (by rw [hl, h])
      (by rw [hr, i]) (hh j)

theorem zip_len {α β : Type} (c : List α) (d : List β) (h : c.length = d.length) : (c.zip d).length = d.length := by
  rw [List.length_zip, h, Nat.min_self]

theorem zip_snoc {α β : Type} (c : List α) (d : List β) (h : c.length = d.length) (w : α) (m : β) :
    (c ++ [w]).zip (d ++ [m]) = c.zip d ++ [(w, m)] := by
  rw [List.zip_append h]; rfl

theorem inProgress_of {s : St} {r : Nat} (p : Phase s r) :
    ¬ InProgress s r → qOf s r = [] ∧ oOf s r = [] ∧ (callsOf s r).length = (doneOf s r).length ∧
      logOf s r = (callsOf s r).zip (doneOf s r) := by
  intro h
  cases p with
  | idle a b c d => exact ⟨a, b, c, d⟩
  | sent c w ch a b e f g _ _ =>
    exfalso; apply h
    unfold InProgress
    rw [g, e, zip_len _ _ f, List.length_append, f]; simp
  | back c w d m a b e f g k _ _ =>
    exfalso; apply h
    unfold InProgress
    rw [k, e, zip_len _ _ g, List.length_append, g]; simp

theorem held_of {s : St} {r : Nat} (p : Phase s r) (h : InProgress s r) : 0 < s.held r := by
  cases p with
  | idle a b c d =>
    exfalso
    unfold InProgress at h
    rw [d, zip_len _ _ c, c] at h
    exact Nat.lt_irrefl _ h
  | sent _ _ _ _ _ _ _ _ _ i => exact i
  | back _ _ _ _ _ _ _ _ _ _ _ j => exact j

theorem upd_same {α : Type} (f : Nat → α) (r : Nat) (v : α) : upd f r v r = v := by simp [upd]
theorem upd_ne {α : Type} (f : Nat → α) {r q : Nat} (h : q ≠ r) (v : α) : upd f r v q = f q := by simp [upd, h]

theorem filter_snoc_ne {α : Type} (p : α → Bool) (l : List α) (x : α) (h : p x = false) :
    (l ++ [x]).filter p = l.filter p := by
  rw [List.filter_append]; simp [h]

theorem filter_snoc_eq {α : Type} (p : α → Bool) (l : List α) (x : α) (h : p x = true) :
    (l ++ [x]).filter p = l.filter p ++ [x] := by
  rw [List.filter_append]; simp [h]

/-- A request whose outcome was just recorded. -/
structure Ready (s : St) (r : Nat) (m : Option Nat) (c : List Nat) (w : Nat) (d : List (Option Nat)) : Prop where
  q : qOf s r = []
  o : oOf s r = []
  calls : callsOf s r = c ++ [w]
  done : doneOf s r = d ++ [m]
  len : c.length = d.length
  log : logOf s r = c.zip d
  ctx : (s.ctx r).worker = w
  resp : s.resp r = m
  held : 0 < s.held r

theorem resumer_self {s : St} {io r : Nat} {m : Option Nat} {c : List Nat} {w : Nat} {d : List (Option Nat)}
    (h : Ready s r m c w d) : Phase (resumer s io r m) r := by
  unfold resumer
  split
  · refine .back c w d m (.inr ?_) h.o h.calls h.done h.len h.log h.resp h.held
    show List.filter _ (s.queue ++ [_]) = _
    rw [filter_snoc_eq _ _ _ (by simp [Task.req]), h.ctx]
    have := h.q; unfold qOf at this; rw [this]; rfl
  · split
    · rename_i hw
      have hw' : w = io := by rw [← h.ctx]; exact hw
      refine .idle h.q h.o ?_ ?_
      · show (callsOf s r).length = (doneOf s r).length
        rw [h.calls, h.done]; simp [h.len]
      · show List.map Prod.snd (List.filter _ (s.log ++ [_])) = (callsOf s r).zip (doneOf s r)
        rw [filter_snoc_eq _ _ _ (by simp), h.calls, h.done, zip_snoc _ _ h.len, ← h.log, hw', List.map_append]
        rfl
    · refine .back c w d m (.inl ?_) h.o h.calls h.done h.len h.log h.resp h.held
      show List.filter _ (s.queue ++ [_]) = _
      rw [filter_snoc_eq _ _ _ (by simp [Task.req]), h.ctx]
      have := h.q; unfold qOf at this; rw [this]; rfl

theorem resumer_other {s : St} {io r q : Nat} {m : Option Nat} (hne : q ≠ r) (p : Phase s q) :
    Phase (resumer s io r m) q := by
  unfold resumer
  split
  · refine phase_congr p ?_ rfl rfl rfl rfl rfl rfl id rfl
    exact filter_snoc_ne _ _ _ (by simp [Task.req, Ne.symm hne])
  · split
    · refine phase_congr p rfl rfl rfl rfl ?_ rfl rfl id rfl
      show List.map Prod.snd (List.filter _ (s.log ++ [_])) = _
      rw [filter_snoc_ne _ _ _ (by simp [Ne.symm hne])]; rfl
    · refine phase_congr p ?_ rfl rfl rfl rfl rfl rfl id rfl
      exact filter_snoc_ne _ _ _ (by simp [Task.req, Ne.symm hne])

/-- A channel reports the outcome of a request that was on its way or waiting, and nothing else is about it. -/
theorem complete_self {io : Nat → Nat} {s : St} {ch r : Nat} {m : Option Nat} {c : List Nat} {w : Nat}
    (hs : ch ∉ s.shut) (hq : qOf s r = []) (ho : oOf s r = []) (hc : callsOf s r = c ++ [w])
    (hn : c.length = (doneOf s r).length) (hl : logOf s r = c.zip (doneOf s r)) (hx : (s.ctx r).worker = w)
    (hh : 0 < s.held r) : Phase (complete io s ch r m) r := by
  unfold complete
  rw [if_neg hs]
  refine resumer_self (c := c) (w := w) (d := doneOf s r) ⟨hq, ho, hc, ?_, hn, hl, hx, upd_same _ _ _, hh⟩
  show List.map Prod.snd (List.filter _ (s.done ++ [_])) = _
  rw [filter_snoc_eq _ _ _ (by simp), List.map_append]; rfl

theorem complete_other {io : Nat → Nat} {s : St} {ch r q : Nat} {m : Option Nat} (hne : q ≠ r) (p : Phase s q) :
    Phase (complete io s ch r m) q := by
  unfold complete
  split
  · exact p
  · refine resumer_other hne (phase_congr p rfl rfl rfl ?_ rfl rfl (upd_ne _ hne _) id rfl)
    show List.map Prod.snd (List.filter _ (s.done ++ [_])) = _
    rw [filter_snoc_ne _ _ _ (by simp [Ne.symm hne])]; rfl

theorem erase_filter_ne {α : Type} [BEq α] [LawfulBEq α] (p : α → Bool) (l : List α) (x : α) (h : p x = false) :
    (l.erase x).filter p = l.filter p := by
  induction l with
  | nil => rfl
  | cons a l ih =>
    by_cases ha : a = x
    · subst ha; simp [h]
    · rw [List.erase_cons_tail (by simpa using ha), List.filter_cons, List.filter_cons, ih]

theorem erase_filter_eq {α : Type} [BEq α] [LawfulBEq α] (p : α → Bool) (l : List α) (x : α) (h : p x = true) :
    (l.erase x).filter p = (l.filter p).erase x := by
  induction l with
  | nil => rfl
  | cons a l ih =>
    by_cases ha : a = x
    · subst ha; simp [h]
    · rw [List.erase_cons_tail (by simpa using ha), List.filter_cons, List.filter_cons, ih]
      split
      · rw [List.erase_cons_tail (by simpa using ha)]
      · rfl

/-- A call with a request that has none in progress. -/
theorem accept_phase {io : Nat → Nat} {s : St} {r w c : Nat} {b : Bool} (p : ∀ q, Phase s q) (hn : ¬ InProgress s r)
    (hh : s.held r ≠ 0) (hs : c ∉ s.shut) : ∀ q, Phase (accept io s r w c b) q := by
  intro q
  by_cases hq : q = r
  · subst hq
    obtain ⟨a1, a2, a3, a4⟩ := inProgress_of (p q) hn
    refine .sent (callsOf s q) w c (.inl ⟨⟨io c, ?_⟩, a2⟩) hs ?_ a3 a4 ?_ ?_
    · show List.filter _ (s.queue ++ [_]) = _
      rw [filter_snoc_eq _ _ _ (by simp [Task.req])]
      unfold qOf at a1; rw [a1]; rfl
    · show List.map Prod.snd (List.filter _ (s.calls ++ [_])) = _
      rw [filter_snoc_eq _ _ _ (by simp), List.map_append]; rfl
    · show (upd s.ctx q ⟨w, b⟩ q).worker = w
      rw [upd_same]
    · show 0 < (if b then upd s.held q (s.held q + 1) else s.held) q
      split
      · rw [upd_same]; omega
      · omega
  · refine phase_congr (p q) ?_ rfl ?_ rfl rfl (upd_ne _ hq _) rfl ?_ rfl
    · exact filter_snoc_ne _ _ _ (by simp [Task.req, Ne.symm hq])
    · show List.map Prod.snd (List.filter _ (s.calls ++ [_])) = _
      rw [filter_snoc_ne _ _ _ (by simp [Ne.symm hq])]; rfl
    · intro h
      show 0 < (if b then upd s.held r (s.held r + 1) else s.held) q
      split
      · rw [upd_ne _ hq]; exact h
      · exact h

theorem q_mem {s : St} {x : Nat × Task} (h : x ∈ s.queue) : x ∈ qOf s x.2.req :=
  List.mem_filter.2 ⟨h, by simp⟩

theorem o_mem {s : St} {ch r : Nat} (h : (ch, r) ∈ s.out) : (ch, r) ∈ oOf s r :=
  List.mem_filter.2 ⟨h, by simp⟩

/-- A waiting request, out of the channel. -/
theorem waiting_out {s : St} {ch r : Nat} (p : Phase s r) (h : (ch, r) ∈ s.out) :
    ∃ c w, ch ∉ s.shut ∧ qOf s r = [] ∧ (s.out.erase (ch, r)).filter (fun x => decide (x.2 = r)) = [] ∧
      callsOf s r = c ++ [w] ∧ c.length = (doneOf s r).length ∧ logOf s r = c.zip (doneOf s r) ∧
      (s.ctx r).worker = w ∧ 0 < s.held r := by
  have hm := o_mem h
  cases p with
  | idle a b _ _ => rw [b] at hm; cases hm
  | sent c w ch' a b e f g k i =>
    rcases a with ⟨_, a⟩ | ⟨a1, a2⟩
    · rw [a] at hm; cases hm
    · rw [a2] at hm
      have e1 : ch = ch' := by simpa using hm
      subst e1
      refine ⟨c, w, b, a1, ?_, e, f, g, k, i⟩
      rw [erase_filter_eq _ _ _ (by simp)]
      unfold oOf at a2
      rw [a2]; simp
  | back _ _ _ _ _ b _ _ _ _ _ _ => rw [b] at hm; cases hm

theorem out_other {s : St} {ch r q : Nat} (hne : q ≠ r) :
    (s.out.erase (ch, r)).filter (fun x => decide (x.2 = q)) = oOf s q :=
  erase_filter_ne _ _ _ (by simp [Ne.symm hne])

theorem run_phase {io : Nat → Nat} {s : St} {x : Nat × Task} {ok : Bool} (p : ∀ q, Phase s q) (hx : x ∈ s.queue) :
    ∃ s', runTask io { s with queue := s.queue.erase x } x.1 ok x.2 = some s' ∧ ∀ q, Phase s' q := by
  obtain ⟨l, t⟩ := x
  have hm := q_mem hx
  have other : ∀ q, q ≠ t.req → Phase { s with queue := s.queue.erase (l, t) } q := by
    intro q hne
    refine phase_congr (p q) ?_ rfl rfl rfl rfl rfl rfl id rfl
    exact erase_filter_ne _ _ _ (by simp [Ne.symm hne])
  have mine : ∀ y, qOf s t.req = [y] → y = (l, t) ∧
      (s.queue.erase (l, t)).filter (fun z => decide (z.2.req = t.req)) = [] := by
    intro y hy
    have e : y = (l, t) := by
      have := hm; rw [hy] at this; exact (List.mem_singleton.1 this).symm
    refine ⟨e, ?_⟩
    rw [erase_filter_eq _ _ _ (by simp)]
    unfold qOf at hy
    rw [hy, e]; simp
  have nonempty : qOf s t.req ≠ [] := fun h => by rw [h] at hm; cases hm
  cases t with
  | send ch r =>
    simp only [Task.req] at other mine nonempty
    cases p r with
    | idle a _ _ _ => exact absurd a nonempty
    | back c w d m a _ _ _ _ _ _ _ =>
      rcases a with a | a <;> · have := (mine _ a).1; simp at this
    | sent c w ch' a b e f g k i =>
      rcases a with ⟨⟨l', a1⟩, a2⟩ | ⟨a1, _⟩
      · obtain ⟨m1, m2⟩ := mine _ a1
        simp only [Prod.mk.injEq, Task.send.injEq, and_true] at m1
        obtain ⟨_, rfl⟩ := m1
        cases ok with
        | true =>
          refine ⟨_, rfl, fun q => ?_⟩
          by_cases hq : q = r
          · subst hq
            refine .sent c w ch' (.inr ⟨m2, ?_⟩) b e f g k i
            show List.filter _ (s.out ++ [_]) = _
            rw [filter_snoc_eq _ _ _ (by simp)]
            unfold oOf at a2; rw [a2]; rfl
          · refine phase_congr (other q hq) rfl ?_ rfl rfl rfl rfl rfl id rfl
            exact filter_snoc_ne _ _ _ (by simp [Ne.symm hq])
        | false =>
          refine ⟨_, rfl, fun q => ?_⟩
          by_cases hq : q = r
          · subst hq
            exact complete_self (c := c) (w := w) b m2 a2 e f g k i
          · exact complete_other hq (phase_congr (other q hq) rfl rfl rfl rfl rfl rfl rfl id rfl)
      · exact absurd a1 nonempty
  | callback r m =>
    simp only [Task.req] at other mine nonempty
    cases p r with
    | idle a _ _ _ => exact absurd a nonempty
    | sent c w ch' a b e f g k i =>
      rcases a with ⟨⟨l', a1⟩, a2⟩ | ⟨a1, _⟩
      · have := (mine _ a1).1; simp at this
      · exact absurd a1 nonempty
    | back c w d m' a b e f g k i j =>
      rcases a with a | a
      · obtain ⟨m1, m2⟩ := mine _ a
        simp only [Prod.mk.injEq, Task.callback.injEq, true_and] at m1
        obtain ⟨rfl, rfl⟩ := m1
        have key : ∀ q, Phase { s with queue := s.queue.erase (w, .callback r m'), log := s.log ++ [(r, w, m')] } q := by
          intro q
          by_cases hq : q = r
          · subst hq
            refine .idle m2 b ?_ ?_
            · show (callsOf s q).length = (doneOf s q).length
              rw [e, f]; simp [g]
            · show List.map Prod.snd (List.filter _ (s.log ++ [_])) = (callsOf s q).zip (doneOf s q)
              rw [filter_snoc_eq _ _ _ (by simp), e, f, zip_snoc _ _ g, ← k, List.map_append]; rfl
          · refine phase_congr (other q hq) rfl rfl rfl rfl ?_ rfl rfl id rfl
            show List.map Prod.snd (List.filter _ (s.log ++ [_])) = _
            rw [filter_snoc_ne _ _ _ (by simp [Ne.symm hq])]; rfl
        cases m' with
        | none => exact ⟨_, rfl, key⟩
        | some y =>
          refine ⟨_, ?_, key⟩
          simp only [runTask]
          rw [if_pos]
          simp [St.valid, St.alive, j, i]
      · have := (mine _ a).1; simp at this
  | resume r =>
    simp only [Task.req] at other mine nonempty
    cases p r with
    | idle a _ _ _ => exact absurd a nonempty
    | sent c w ch' a b e f g k i =>
      rcases a with ⟨⟨l', a1⟩, a2⟩ | ⟨a1, _⟩
      · have := (mine _ a1).1; simp at this
      · exact absurd a1 nonempty
    | back c w d m' a b e f g k i j =>
      rcases a with a | a
      · have := (mine _ a).1; simp at this
      · obtain ⟨m1, m2⟩ := mine _ a
        simp only [Prod.mk.injEq, and_true] at m1
        subst m1
        refine ⟨_, rfl, fun q => ?_⟩
        by_cases hq : q = r
        · subst hq
          refine .idle m2 b ?_ ?_
          · show (callsOf s q).length = (doneOf s q).length
            rw [e, f]; simp [g]
          · show List.map Prod.snd (List.filter _ (s.log ++ [_])) = (callsOf s q).zip (doneOf s q)
            rw [filter_snoc_eq _ _ _ (by simp), e, f, zip_snoc _ _ g, ← k, List.map_append, ← i]; rfl
        · refine phase_congr (other q hq) rfl rfl rfl rfl ?_ rfl rfl ?_ rfl
          · show List.map Prod.snd (List.filter _ (s.log ++ [_])) = _
            rw [filter_snoc_ne _ _ _ (by simp [Ne.symm hq])]; rfl
          · intro h
            show 0 < upd s.held r (s.held r - 1) q
            rw [upd_ne _ hq]; exact h

theorem step_phase {io : Nat → Nat} {s : St} {i : In} (p : ∀ q, Phase s q) (hk : okIn s i) :
    ∃ s', step io s i = some s' ∧ ∀ q, Phase s' q := by
  have heldMono : ∀ r v, (InProgress s r → 0 < v) → ∀ q, Phase { s with held := upd s.held r v } q := by
    intro r v hv q
    by_cases hq : q = r
    · subst hq
      by_cases hi : InProgress s q
      · exact phase_congr (p q) rfl rfl rfl rfl rfl rfl rfl (fun _ => by show 0 < upd s.held q v q; rw [upd_same]; exact hv hi) rfl
      · obtain ⟨a, b, c, d⟩ := inProgress_of (p q) hi
        exact .idle a b c d
    · exact phase_congr (p q) rfl rfl rfl rfl rfl rfl rfl (fun h => by show 0 < upd s.held r v q; rw [upd_ne _ hq]; exact h) rfl
  have ctxFree : ∀ r c, ¬ InProgress s r → ∀ q, Phase { s with ctx := upd s.ctx r c } q := by
    intro r c hi q
    by_cases hq : q = r
    · subst hq
      obtain ⟨a, b, c, d⟩ := inProgress_of (p q) hi
      exact .idle a b c d
    · exact phase_congr (p q) rfl rfl rfl rfl rfl (upd_ne _ hq _) rfl id rfl
  cases i with
  | async r w ch =>
    cases ch with
    | none =>
      refine ⟨_, rfl, ?_⟩
      split
      · exact p
      · exact ctxFree r _ hk
    | some c =>
      refine ⟨_, rfl, ?_⟩
      split
      · exact p
      · rename_i h; simp only [not_or] at h
        exact accept_phase p hk h.1 h.2
  | sync r w ch =>
    cases ch with
    | none =>
      refine ⟨_, rfl, ?_⟩
      split
      · exact p
      · exact fun q => phase_congr (ctxFree r ⟨w, true⟩ hk q) rfl rfl rfl rfl rfl rfl rfl id rfl
    | some c =>
      refine ⟨_, rfl, ?_⟩
      split
      · exact p
      · rename_i h; simp only [not_or] at h
        exact accept_phase p hk h.1 h.2
  | keep r =>
    refine ⟨_, rfl, ?_⟩
    split
    · exact p
    · exact heldMono r _ (fun _ => by omega)
  | drop r =>
    refine ⟨_, rfl, heldMono r _ (fun h => ?_)⟩
    by_contra hn
    exact hk (by omega) h
  | run l ok =>
    simp only [step]
    split
    · exact ⟨s, rfl, p⟩
    · rename_i x hf
      have hx := List.mem_of_find?_eq_some hf
      have hl := List.find?_some hf
      simp only [decide_eq_true_eq] at hl
      rw [← hl]
      exact run_phase p hx
  | answer ch r m =>
    refine ⟨_, rfl, ?_⟩
    split
    · rename_i h
      obtain ⟨c, w, a1, a2, a3, a4, a5, a6, a7, a8⟩ := waiting_out (p r) h.1
      intro q
      by_cases hq : q = r
      · subst hq
        exact complete_self (c := c) (w := w) a1 a2 a3 a4 a5 a6 a7 a8
      · exact complete_other hq (phase_congr (p q) rfl (out_other hq) rfl rfl rfl rfl rfl id rfl)
    · exact p
  | fail ch r late =>
    refine ⟨_, rfl, ?_⟩
    split
    · rename_i h
      obtain ⟨c, w, a1, a2, a3, a4, a5, a6, a7, a8⟩ := waiting_out (p r) h
      intro q
      by_cases hq : q = r
      · subst hq
        exact complete_self (c := c) (w := w) a1 a2 a3 a4 a5 a6 a7 a8
      · exact complete_other hq (phase_congr (p q) rfl (out_other hq) rfl rfl rfl rfl rfl id rfl)
    · exact p
  | close ch =>
    refine ⟨_, rfl, ?_⟩
    split
    · exact p
    · rename_i ho
      intro q
      cases p q with
      | idle a b c d => exact .idle a b c d
      | back c w d m a b e f g h i j => exact .back c w d m a b e f g h i j
      | sent c w ch' a b e f g h i =>
        refine .sent c w ch' a ?_ e f g h i
        intro hmem
        rcases List.mem_cons.1 hmem with rfl | hmem
        · rcases a with ⟨⟨l, a1⟩, _⟩ | ⟨_, a2⟩
          · have : (l, Task.send ch' q) ∈ qOf s q := by rw [a1]; exact List.mem_singleton.2 rfl
            exact hk l q (List.mem_filter.1 this).1
          · have : (ch', q) ∈ oOf s q := by rw [a2]; exact List.mem_singleton.2 rfl
            exact ho (List.any_eq_true.2 ⟨_, (List.mem_filter.1 this).1, by simp⟩)
        · exact b hmem

theorem run_phases {io : Nat → Nat} : ∀ (is : List In) {s : St}, (∀ q, Phase s q) → Careful io s is →
    ∃ s', run io s is = some s' ∧ ∀ q, Phase s' q
  | [], s, p, _ => ⟨s, rfl, p⟩
  | i :: is, s, p, hc => by
    obtain ⟨s1, h1, p1⟩ := step_phase (io := io) p hc.1
    obtain ⟨s2, h2, p2⟩ := run_phases is p1 (hc.2 s1 h1)
    exact ⟨s2, by rw [run, h1]; exact h2, p2⟩

theorem phase_init (q : Nat) : Phase St.init q := .idle rfl rfl rfl rfl

/-! ### Codes and answers -/

theorem resumer_rest (s : St) (io r : Nat) (m : Option Nat) :
    (resumer s io r m).done = s.done ∧ (resumer s io r m).code = s.code ∧ (resumer s io r m).refused = s.refused := by
  unfold resumer; split
  · exact ⟨rfl, rfl, rfl⟩
  · split <;> exact ⟨rfl, rfl, rfl⟩

theorem complete_rest (io : Nat → Nat) (s : St) (ch r : Nat) (m : Option Nat) :
    (complete io s ch r m).done = (if ch ∈ s.shut then s.done else s.done ++ [(r, m)]) ∧
    (complete io s ch r m).code = s.code ∧ (complete io s ch r m).refused = s.refused := by
  unfold complete
  by_cases h : ch ∈ s.shut
  · rw [if_pos h, if_pos h]; exact ⟨rfl, rfl, rfl⟩
  · rw [if_neg h, if_neg h]
    obtain ⟨a, b, c⟩ := resumer_rest { s with resp := upd s.resp r m, done := s.done ++ [(r, m)] } (io ch) r m
    exact ⟨a, b, c⟩

/-- What a step can add to the outcomes. -/
theorem step_done {io : Nat → Nat} {s s' : St} {i : In} (h : step io s i = some s') {x : Nat × Option Nat}
    (hx : x ∈ s'.done) : x ∈ s.done ∨ x.2 = none ∨ ∃ ch m, i = .answer ch x.1 m ∧ x.2 = some m := by
  cases i with
  | async r w ch =>
    cases ch <;> (simp only [step, Option.some.injEq] at h; subst h; split at hx <;> exact .inl hx)
  | sync r w ch =>
    cases ch <;> (simp only [step, Option.some.injEq] at h; subst h; split at hx <;> exact .inl hx)
  | keep r => simp only [step, Option.some.injEq] at h; subst h; split at hx <;> exact .inl hx
  | drop r => simp only [step, Option.some.injEq] at h; subst h; exact .inl hx
  | run l ok =>
    simp only [step] at h
    split at h
    · simp only [Option.some.injEq] at h; subst h; exact .inl hx
    · rename_i y _
      rcases y with ⟨l', t⟩
      cases t with
      | send ch r =>
        cases ok with
        | true => simp only [runTask, if_true, Option.some.injEq] at h; subst h; exact .inl hx
        | false =>
          simp only [runTask, Bool.false_eq_true, if_false, Option.some.injEq] at h
          subst h
          rw [(complete_rest _ _ _ _ _).1] at hx
          split at hx
          · exact .inl hx
          · rcases List.mem_append.1 hx with hx | hx
            · exact .inl hx
            · rw [List.mem_singleton.1 hx]; exact .inr (.inl rfl)
      | callback r m =>
        cases m with
        | none => simp only [runTask, Option.some.injEq] at h; subst h; exact .inl hx
        | some y =>
          simp only [runTask] at h
          split at h
          · simp only [Option.some.injEq] at h; subst h; exact .inl hx
          · cases h
      | resume r => simp only [runTask, Option.some.injEq] at h; subst h; exact .inl hx
  | answer ch r m =>
    simp only [step, Option.some.injEq] at h
    subst h
    split at hx
    · rw [(complete_rest _ _ _ _ _).1] at hx
      split at hx
      · exact .inl hx
      · rcases List.mem_append.1 hx with hx | hx
        · exact .inl hx
        · rw [List.mem_singleton.1 hx]; exact .inr (.inr ⟨ch, m, rfl, rfl⟩)
    · exact .inl hx
  | fail ch r late =>
    simp only [step, Option.some.injEq] at h
    subst h
    split at hx
    · rw [(complete_rest _ _ _ _ _).1] at hx
      by_cases hs : ch ∈ s.shut
      · rw [if_pos hs] at hx
        exact .inl hx
      · rw [if_neg hs] at hx
        rcases List.mem_append.1 hx with hx | hx
        · exact .inl hx
        · rw [List.mem_singleton.1 hx]; exact .inr (.inl rfl)
    · exact .inl hx
  | close ch => simp only [step, Option.some.injEq] at h; subst h; split at hx <;> exact .inl hx

theorem run_done {io : Nat → Nat} : ∀ (is : List In) {s s' : St}, run io s is = some s' → ∀ x ∈ s'.done,
    x ∈ s.done ∨ x.2 = none ∨ ∃ ch m, .answer ch x.1 m ∈ is ∧ x.2 = some m
  | [], s, s', h, x, hx => by cases h; exact .inl hx
  | i :: is, s, s', h, x, hx => by
    rw [run] at h
    rcases h1 : step io s i with _ | s1
    · rw [h1] at h; cases h
    · rw [h1, Option.bind_some] at h
      rcases run_done is h x hx with h2 | h2 | ⟨ch, m, h2, h3⟩
      · rcases step_done h1 h2 with h4 | h4 | ⟨ch, m, h4, h5⟩
        · exact .inl h4
        · exact .inr (.inl h4)
        · exact .inr (.inr ⟨ch, m, by rw [h4]; exact List.mem_cons_self, h5⟩)
      · exact .inr (.inl h2)
      · exact .inr (.inr ⟨ch, m, List.mem_cons_of_mem _ h2, h3⟩)

/-- The code of a request against what happened to it. -/
def CodeOk (s : St) : Prop := ∀ r, s.code r = .success ↔ none ∉ doneOf s r ∧ r ∉ s.refused

theorem code_of_done {s s' : St} (h : CodeOk s) (hc : s'.code = s.code) (hd : s'.done = s.done)
    (hr : s'.refused = s.refused) : CodeOk s' := by
  intro r
  unfold doneOf
  rw [hc, hd, hr]
  exact h r

theorem code_fail {s s' : St} {r : Nat} {c : Code} (h : CodeOk s) (hne : c ≠ .success) (hc : s'.code = upd s.code r c)
    (hd : s'.done = s.done ++ [(r, none)]) (hr : s'.refused = s.refused) : CodeOk s' := by
  intro q
  unfold doneOf
  rw [hc, hd, hr]
  by_cases hq : q = r
  · subst hq
    rw [upd_same, filter_snoc_eq _ _ _ (by simp)]
    constructor
    · intro e; exact absurd e hne
    · intro e; exact absurd (by simp) e.1
  · rw [upd_ne _ hq, filter_snoc_ne _ _ _ (by simp [Ne.symm hq])]
    exact h q

theorem code_answer {s s' : St} {r m : Nat} (h : CodeOk s) (hc : s'.code = s.code)
    (hd : s'.done = s.done ++ [(r, some m)]) (hr : s'.refused = s.refused) : CodeOk s' := by
  intro q
  unfold doneOf
  rw [hc, hd, hr]
  by_cases hq : q = r
  · subst hq
    rw [filter_snoc_eq _ _ _ (by simp), h q]
    unfold doneOf
    simp
  · rw [filter_snoc_ne _ _ _ (by simp [Ne.symm hq])]
    exact h q

theorem step_code {io : Nat → Nat} {s s' : St} {i : In} (p : ∀ q, Phase s q) (hk : CodeOk s)
    (h : step io s i = some s') : CodeOk s' := by
  cases i with
  | async r w ch =>
    cases ch <;> (simp only [step, Option.some.injEq] at h; subst h; split <;> exact code_of_done hk rfl rfl rfl)
  | sync r w ch =>
    cases ch with
    | none =>
      simp only [step, Option.some.injEq] at h
      subst h
      split
      · exact hk
      · intro q
        by_cases hq : q = r
        · subst hq
          show upd s.code q .notConnected q = .success ↔ _ ∧ q ∉ s.refused ++ [q]
          rw [upd_same]
          simp
        · show upd s.code r .notConnected q = .success ↔ none ∉ doneOf s q ∧ q ∉ s.refused ++ [r]
          rw [upd_ne _ hq, hk q]
          simp [hq]
    | some c => simp only [step, Option.some.injEq] at h; subst h; split <;> exact code_of_done hk rfl rfl rfl
  | keep r => simp only [step, Option.some.injEq] at h; subst h; split <;> exact code_of_done hk rfl rfl rfl
  | drop r => simp only [step, Option.some.injEq] at h; subst h; exact code_of_done hk rfl rfl rfl
  | run l ok =>
    simp only [step] at h
    split at h
    · simp only [Option.some.injEq] at h; subst h; exact hk
    · rename_i y hf
      have hy := List.mem_of_find?_eq_some hf
      rcases y with ⟨l', t⟩
      cases t with
      | send ch r =>
        cases ok with
        | true => simp only [runTask, if_true, Option.some.injEq] at h; subst h; exact code_of_done hk rfl rfl rfl
        | false =>
          simp only [runTask, Bool.false_eq_true, if_false, Option.some.injEq] at h
          subst h
          have hs : ch ∉ s.shut := by
            have hm := q_mem hy
            simp only [Task.req] at hm
            cases p r with
            | idle a _ _ _ => rw [a] at hm; cases hm
            | back c w d m a _ _ _ _ _ _ _ =>
              rcases a with a | a <;> · rw [a] at hm; simp at hm
            | sent c w ch' a b e f g k i =>
              rcases a with ⟨⟨l', a1⟩, a2⟩ | ⟨a1, _⟩
              · rw [a1] at hm; simp at hm; rw [hm.2]; exact b
              · rw [a1] at hm; cases hm
          obtain ⟨a, b, c⟩ := complete_rest io { s with queue := s.queue.erase (l', .send ch r), code := upd s.code r .broken } ch r none
          exact code_fail (r := r) (c := .broken) hk (by decide) b (by rw [a, if_neg hs]) c
      | callback r m =>
        cases m with
        | none => simp only [runTask, Option.some.injEq] at h; subst h; exact code_of_done hk rfl rfl rfl
        | some y =>
          simp only [runTask] at h
          split at h
          · simp only [Option.some.injEq] at h; subst h; exact code_of_done hk rfl rfl rfl
          · cases h
      | resume r => simp only [runTask, Option.some.injEq] at h; subst h; exact code_of_done hk rfl rfl rfl
  | answer ch r m =>
    simp only [step, Option.some.injEq] at h
    subst h
    split
    · rename_i hm
      obtain ⟨_, _, hs, _⟩ := waiting_out (p r) hm.1
      obtain ⟨a, b, c⟩ := complete_rest io { s with out := s.out.erase (ch, r), used := m :: s.used } ch r (some m)
      exact code_answer hk b (by rw [a, if_neg hs]) c
    · exact hk
  | fail ch r late =>
    simp only [step, Option.some.injEq] at h
    subst h
    split
    · rename_i hm
      obtain ⟨_, _, hs, _⟩ := waiting_out (p r) hm
      obtain ⟨a, b, c⟩ := complete_rest io { s with out := s.out.erase (ch, r), code := upd s.code r (if late then .timeout else .broken) } ch r none
      exact code_fail (r := r) hk (by cases late <;> decide) b (by rw [a, if_neg hs]) c
    · exact hk
  | close ch => simp only [step, Option.some.injEq] at h; subst h; split <;> exact code_of_done hk rfl rfl rfl

theorem run_code {io : Nat → Nat} : ∀ (is : List In) {s s' : St}, (∀ q, Phase s q) → CodeOk s → Careful io s is →
    run io s is = some s' → CodeOk s'
  | [], s, s', _, hk, _, h => by cases h; exact hk
  | i :: is, s, s', p, hk, hc, h => by
    obtain ⟨s1, h1, p1⟩ := step_phase (io := io) p hc.1
    rw [run, h1, Option.bind_some] at h
    exact run_code is p1 (step_code p hk h1) (hc.2 s1 h1) h

/-! ### C182 -/

/-- **C182.** For every history in which the user keeps a request while a call with it is in progress, starts no second one
meanwhile, and does not finalize the client while a request is on its way: no callback is handed a dangling pointer; the
results given to the user for a request are, in order, what its channels reported for it, each given once, on the loop the
call asked for; and never more results than calls. -/
theorem c182_results (io : Nat → Nat) (is : List In) (hc : Careful io St.init is) :
    ∃ s, run io St.init is = some s ∧ ∀ r, logOf s r <+: (callsOf s r).zip (doneOf s r) ∧
      (doneOf s r).length ≤ (callsOf s r).length ∧ (callsOf s r).length ≤ (logOf s r).length + 1 := by
  obtain ⟨s, h, p⟩ := run_phases is phase_init hc
  refine ⟨s, h, fun r => ?_⟩
  cases p r with
  | idle a b c d =>
    rw [d]
    refine ⟨List.prefix_refl _, Nat.le_of_eq c.symm, ?_⟩
    rw [zip_len _ _ c, c]; omega
  | sent c w ch a b e f g k i =>
    rw [g, e]
    refine ⟨?_, by simp [f], by rw [zip_len _ _ f]; simp [f]⟩
    have : (c ++ [w]).zip (doneOf s r) = c.zip (doneOf s r) := by
      rw [List.zip_eq_zip_take_min, List.length_append, ← f]
      simp
      rw [f, List.take_length]
    rw [this]
    exact List.prefix_refl _
  | back c w d m a b e f g k i j =>
    rw [k, e, f, zip_snoc _ _ g]
    exact ⟨List.prefix_append _ _, by simp [g], by rw [zip_len _ _ g]; simp [g]⟩

/-- **C182.** When the loops have run their tasks and nothing waits in a channel, every accepted call has given its
result: the one its channel reported. -/
theorem c182_all_done (io : Nat → Nat) (is : List In) (hc : Careful io St.init is) (s : St)
    (h : run io St.init is = some s) (hq : s.queue = []) (ho : s.out = []) (r : Nat) :
    (callsOf s r).length = (doneOf s r).length ∧ logOf s r = (callsOf s r).zip (doneOf s r) := by
  obtain ⟨s', h', p⟩ := run_phases is phase_init hc
  have e : s' = s := by rw [h] at h'; exact (Option.some.inj h').symm
  subst e
  cases p r with
  | idle a b c d => exact ⟨c, d⟩
  | sent c w ch a b e f g k i =>
    rcases a with ⟨⟨l, a⟩, _⟩ | ⟨_, a⟩
    · unfold qOf at a; rw [hq] at a; cases a
    · unfold oOf at a; rw [ho] at a; cases a
  | back c w d m a b e f g k i j =>
    rcases a with a | a <;> · unfold qOf at a; rw [hq] at a; cases a

/-- **C182.** A response given to the user for a request is one a channel reported for that request. -/
theorem c182_own_answer (io : Nat → Nat) (is : List In) (hc : Careful io St.init is) (s : St)
    (h : run io St.init is = some s) (r l m : Nat) (hl : (l, some m) ∈ logOf s r) : ∃ ch, .answer ch r m ∈ is := by
  obtain ⟨s', h', hr⟩ := c182_results io is hc
  have e : s' = s := by rw [h] at h'; exact (Option.some.inj h').symm
  subst e
  have hz := (hr r).1.subset hl
  have hd := (List.of_mem_zip hz).2
  obtain ⟨x, hx, hx2⟩ := List.mem_map.1 hd
  obtain ⟨hx1, hxr⟩ := List.mem_filter.1 hx
  simp only [decide_eq_true_eq] at hxr
  rcases run_done is h x hx1 with h2 | h2 | ⟨ch, m', h2, h3⟩
  · cases h2
  · rw [hx2] at h2; cases h2
  · rw [hx2] at h3; cases h3
    exact ⟨ch, by rw [← hxr]; exact h2⟩

/-- **C182.** `FailCode()` of a request is success exactly if no call with it has failed or been refused so far. -/
theorem c182_code (io : Nat → Nat) (is : List In) (hc : Careful io St.init is) (s : St)
    (h : run io St.init is = some s) (r : Nat) :
    s.code r = .success ↔ none ∉ doneOf s r ∧ r ∉ s.refused :=
  run_code is phase_init (fun _ => ⟨fun _ => ⟨by simp [doneOf, St.init], by simp [St.init]⟩, fun _ => rfl⟩) hc h r

/-! ### C181 -/

/-- **C181 violation.** `AsyncDoRequest` from code that keeps no reference to the request, with a callback on another loop
than the channel's: the callback is handed a pointer to a response that has been deleted. -/
theorem c181_dropped_violated (io : Nat → Nat) (r w ch m : Nat) (hw : w ≠ io ch) (ok : Bool) :
    run io St.init [.async r w (some ch), .drop r, .run (io ch) true, .answer ch r m, .run w ok] = none := by
  simp [run, step, St.init, accept, runTask, complete, resumer, upd, hw, St.valid, St.alive]

/-- Nothing happens with `r` any more. -/
def Gone (s : St) (r : Nat) : Prop := qOf s r = [] ∧ oOf s r = []

theorem gone_resumer {s : St} {io r q : Nat} {m : Option Nat} (hne : q ≠ r) (h : Gone s q) :
    Gone (resumer s io r m) q ∧ logOf (resumer s io r m) q = logOf s q := by
  unfold resumer
  split
  · exact ⟨⟨(filter_snoc_ne _ _ _ (by simp [Task.req, Ne.symm hne])).trans h.1, h.2⟩, rfl⟩
  · split
    · refine ⟨h, ?_⟩
      show List.map Prod.snd (List.filter _ (s.log ++ [_])) = _
      rw [filter_snoc_ne _ _ _ (by simp [Ne.symm hne])]; rfl
    · exact ⟨⟨(filter_snoc_ne _ _ _ (by simp [Task.req, Ne.symm hne])).trans h.1, h.2⟩, rfl⟩

theorem gone_complete {io : Nat → Nat} {s : St} {ch r q : Nat} {m : Option Nat} (hne : q ≠ r) (h : Gone s q) :
    Gone (complete io s ch r m) q ∧ logOf (complete io s ch r m) q = logOf s q := by
  unfold complete
  split
  · exact ⟨h, rfl⟩
  · obtain ⟨a, b⟩ := gone_resumer (io := io ch) (m := m)
      (s := { s with resp := upd s.resp r m, done := s.done ++ [(r, m)] }) hne h
    exact ⟨a, b⟩

/-- Does the input begin a call with `r`? -/
def begins (r : Nat) : In → Bool
  | .async q _ _ => decide (q = r)
  | .sync q _ _ => decide (q = r)
  | _ => false

theorem gone_accept {io : Nat → Nat} {s : St} {r w c q : Nat} {b : Bool} (hne : r ≠ q) (h : Gone s q) :
    Gone (accept io s r w c b) q ∧ logOf (accept io s r w c b) q = logOf s q :=
  ⟨⟨(filter_snoc_ne _ _ _ (by simp [Task.req, hne])).trans h.1, h.2⟩, rfl⟩

theorem gone_step {io : Nat → Nat} {s s' : St} {i : In} {r : Nat} (hg : Gone s r) (hb : begins r i = false)
    (h : step io s i = some s') : Gone s' r ∧ logOf s' r = logOf s r := by
  cases i with
  | async q w ch =>
    simp only [begins, decide_eq_false_iff_not] at hb
    cases ch with
    | none => simp only [step, Option.some.injEq] at h; subst h; split <;> exact ⟨hg, rfl⟩
    | some c =>
      simp only [step, Option.some.injEq] at h; subst h
      split
      · exact ⟨hg, rfl⟩
      · exact gone_accept hb hg
  | sync q w ch =>
    simp only [begins, decide_eq_false_iff_not] at hb
    cases ch with
    | none => simp only [step, Option.some.injEq] at h; subst h; split <;> exact ⟨hg, rfl⟩
    | some c =>
      simp only [step, Option.some.injEq] at h; subst h
      split
      · exact ⟨hg, rfl⟩
      · exact gone_accept hb hg
  | keep q => simp only [step, Option.some.injEq] at h; subst h; split <;> exact ⟨hg, rfl⟩
  | drop q => simp only [step, Option.some.injEq] at h; subst h; exact ⟨hg, rfl⟩
  | run l ok =>
    simp only [step] at h
    split at h
    · simp only [Option.some.injEq] at h; subst h; exact ⟨hg, rfl⟩
    · rename_i y hf
      have hy := List.mem_of_find?_eq_some hf
      rcases y with ⟨l', t⟩
      have hne : t.req ≠ r := by
        intro e
        have := q_mem hy
        simp only [e] at this
        rw [hg.1] at this; cases this
      have hg1 : Gone { s with queue := s.queue.erase (l', t) } r :=
        ⟨(erase_filter_ne _ _ _ (by simp [hne])).trans hg.1, hg.2⟩
      cases t with
      | send ch q =>
        simp only [Task.req] at hne
        cases ok with
        | true =>
          simp only [runTask, if_true, Option.some.injEq] at h; subst h
          exact ⟨⟨hg1.1, (filter_snoc_ne _ _ _ (by simp [hne])).trans hg1.2⟩, rfl⟩
        | false =>
          simp only [runTask, Bool.false_eq_true, if_false, Option.some.injEq] at h
          subst h
          obtain ⟨a, b⟩ := gone_complete (io := io) (ch := ch) (m := none)
            (s := { s with queue := s.queue.erase (l', .send ch q), code := upd s.code q .broken }) (Ne.symm hne) hg1
          exact ⟨a, b⟩
      | callback q m =>
        simp only [Task.req] at hne
        have key : logOf { s with queue := s.queue.erase (l', .callback q m), log := s.log ++ [(q, l, m)] } r = logOf s r := by
          show List.map Prod.snd (List.filter _ (s.log ++ [_])) = _
          rw [filter_snoc_ne _ _ _ (by simp [hne])]; rfl
        cases m with
        | none => simp only [runTask, Option.some.injEq] at h; subst h; exact ⟨hg1, key⟩
        | some y =>
          simp only [runTask] at h
          split at h
          · simp only [Option.some.injEq] at h; subst h; exact ⟨hg1, key⟩
          · cases h
      | resume q =>
        simp only [Task.req] at hne
        simp only [runTask, Option.some.injEq] at h; subst h
        refine ⟨hg1, ?_⟩
        show List.map Prod.snd (List.filter _ (s.log ++ [_])) = _
        rw [filter_snoc_ne _ _ _ (by simp [hne])]; rfl
  | answer ch q m =>
    simp only [step, Option.some.injEq] at h
    subst h
    split
    · rename_i hm
      have hne : q ≠ r := by
        rintro rfl
        have := o_mem hm.1; rw [hg.2] at this; cases this
      exact gone_complete (Ne.symm hne) ⟨hg.1, (erase_filter_ne _ _ _ (by simp [hne])).trans hg.2⟩
    · exact ⟨hg, rfl⟩
  | fail ch q late =>
    simp only [step, Option.some.injEq] at h
    subst h
    split
    · rename_i hm
      have hne : q ≠ r := by
        rintro rfl
        have := o_mem hm; rw [hg.2] at this; cases this
      exact gone_complete (Ne.symm hne) ⟨hg.1, (erase_filter_ne _ _ _ (by simp [hne])).trans hg.2⟩
    · exact ⟨hg, rfl⟩
  | close ch => simp only [step, Option.some.injEq] at h; subst h; split <;> exact ⟨hg, rfl⟩

theorem gone_run {io : Nat → Nat} {r : Nat} : ∀ (is : List In) {s s' : St}, Gone s r → (∀ i ∈ is, begins r i = false) →
    run io s is = some s' → logOf s' r = logOf s r
  | [], s, s', _, _, h => by cases h; rfl
  | i :: is, s, s', hg, hb, h => by
    rw [run] at h
    rcases h1 : step io s i with _ | s1
    · rw [h1] at h; cases h
    · rw [h1, Option.bind_some] at h
      obtain ⟨a, b⟩ := gone_step hg (hb i List.mem_cons_self) h1
      rw [gone_run is a (fun j hj => hb j (List.mem_cons_of_mem _ hj)) h, b]

/-- **C181 violation.** A client finalized while a request is on its way to its channel: the call never returns, whatever
happens afterwards; a coroutine in `SendRecieve` stays suspended for ever. -/
theorem c181_finalized_violated (io : Nat → Nat) (r l ch : Nat) (ok : Bool) :
    ∃ s0, run io St.init ([.sync r l (some ch), .close ch, .run (io ch) ok] ++
        (if ok then [.fail ch r true] else [])) = some s0 ∧
      callsOf s0 r = [l] ∧ logOf s0 r = [] ∧
      ∀ (is : List In) (s : St), (∀ i ∈ is, begins r i = false) → run io s0 is = some s → logOf s r = [] := by
  cases ok with
  | false =>
    refine ⟨_, by simp [run, step, St.init, accept, runTask, complete]; rfl, by simp [callsOf], rfl, ?_⟩
    intro is s hb h
    rw [gone_run is ⟨rfl, rfl⟩ hb h]; rfl
  | true =>
    refine ⟨_, by simp [run, step, St.init, accept, runTask, complete]; rfl, by simp [callsOf], rfl, ?_⟩
    intro is s hb h
    rw [gone_run is ⟨rfl, rfl⟩ hb h]; rfl

/-- **C181 violation.** A request that failed and is sent again keeps its old code: the second call succeeds, and
`FailCode()` still says time-out. -/
theorem c181_code_violated (io : Nat → Nat) (r ch m : Nat) :
    ∃ s, run io St.init [.async r (io ch) (some ch), .run (io ch) true, .fail ch r true,
        .async r (io ch) (some ch), .run (io ch) true, .answer ch r m] = some s ∧
      logOf s r = [(io ch, none), (io ch, some m)] ∧ s.code r = .timeout := by
  refine ⟨_, by simp [run, step, St.init, accept, runTask, complete, resumer, upd]; rfl, ?_, ?_⟩ <;>
    simp [logOf, upd]

/-! ### Witnesses -/

/-- Two channels on loops 1 and 2; one call in a coroutine on loop 5, one with a callback on loop 6, one refused; an
answer, a time-out, a call with the same request again that the broken channel fails at once, and the client is closed. -/
def demo : List In :=
  [.sync 10 5 (some 1), .async 11 6 (some 2), .sync 12 5 none, .run 1 true, .run 2 true, .answer 1 10 70,
   .fail 2 11 true, .run 6 true, .async 11 6 (some 2), .run 2 false, .run 5 true, .drop 10, .run 6 true, .drop 11, .close 1, .close 2]

theorem w_c182 : ∃ s, run id St.init demo = some s ∧ logOf s 10 = [(5, some 70)] ∧ logOf s 11 = [(6, none), (6, none)] ∧
    s.code 11 = .broken ∧ s.code 10 = .success ∧ s.code 12 = .notConnected ∧ s.queue = [] ∧ s.out = [] := by
  refine ⟨_, rfl, ?_⟩
  decide

instance (s : St) (r : Nat) : Decidable (InProgress s r) := inferInstanceAs (Decidable (_ < _))

/-- ... and it is a history of the kind quantified over. -/
theorem w_careful : Careful id St.init demo := by
  simp [demo, Careful, step, St.init, okIn, InProgress, logOf, callsOf, accept, runTask, complete, resumer, upd]

end Ltio.Client.Rpc
