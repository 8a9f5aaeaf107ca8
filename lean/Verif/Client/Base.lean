/-
Common part of the client channels (net_io/clients/client_channel.cc).

Requests are identified by object identity (a number).  All code here runs on the channel's io
loop, so an execution is a sequence of events; user callbacks only post tasks, so they do not
re-enter the channel.
-/
namespace Ltio.Client

/-- How a request ended (`MessageCode` and the response). -/
inductive Outcome where
  | response (asyncId : Nat)   -- a response message carrying this id
  | timeout
  | broken
deriving DecidableEq, Repr

/-- Who learnt about it. -/
inductive Vis where
  | user        -- delegate_->OnRequestGetResponse: the caller is resumed
  | heartbeat   -- swallowed: it was the heartbeat request
  | dropped     -- HandleResponse returned false: nobody is told
deriving DecidableEq, Repr

/-- Observable actions. -/
inductive Act where
  | submit (r : Nat) (heartbeat : Bool)     -- SendRequest(r) called by the user / the heartbeat
  | wire (r : Nat)                          -- codec_->SendRequest(r) succeeded
  | done (r : Nat) (o : Outcome) (v : Vis)  -- HandleResponse(r, ..)
  | closed                                  -- delegate_->OnClientChannelClosed
deriving DecidableEq, Repr

/-- `heartbeat_message_`, `delegate_ != NULL`, and what has been done so far. -/
structure Base where
  hb : Option Nat
  delegate : Bool
  acts : List Act
deriving Repr

/-- A freshly created channel. -/
def Base.init : Base := ⟨none, true, []⟩

/-- `ClientChannel::HandleResponse` (client_channel.cc:110-127). -/
def Base.handle (b : Base) (r : Nat) (o : Outcome) : Base :=
  if b.hb = some r then ⟨none, b.delegate, b.acts ++ [.done r o .heartbeat]⟩
  else if b.delegate then ⟨b.hb, b.delegate, b.acts ++ [.done r o .user]⟩
  else ⟨b.hb, b.delegate, b.acts ++ [.done r o .dropped]⟩

/-- `delegate_->OnClientChannelClosed` if there is a delegate. -/
def Base.notifyClosed (b : Base) : Base :=
  if b.delegate then { b with acts := b.acts ++ [.closed] } else b

def Base.wire (b : Base) (r : Nat) : Base := { b with acts := b.acts ++ [.wire r] }

def Base.submit (b : Base) (r : Nat) (h : Bool) : Base := { b with acts := b.acts ++ [.submit r h] }

/-- The loops failing a collection of requests with `kConnBroken`. -/
def Base.failAll (b : Base) : List Nat → Base
  | [] => b
  | r :: rs => (b.handle r .broken).failAll rs

/-! ### Specification helpers -/

/-- Is this the completion of `r`? -/
def isDone (r : Nat) : Act → Bool
  | .done r' _ _ => r' == r
  | _ => false

/-- How many times `r` was completed. -/
def doneCount (r : Nat) (l : List Act) : Nat := l.countP (isDone r)

/-- The completed requests, in order. -/
def doneList (l : List Act) : List Nat :=
  l.filterMap (fun a => match a with | .done r _ _ => some r | _ => none)

/-- The requests put on the wire, in order. -/
def wireList (l : List Act) : List Nat :=
  l.filterMap (fun a => match a with | .wire r => some r | _ => none)

/-- The requests submitted, in order. -/
def subList (l : List Act) : List Nat :=
  l.filterMap (fun a => match a with | .submit r _ => some r | _ => none)

theorem subList_append (a b : List Act) : subList (a ++ b) = subList a ++ subList b := by
  unfold subList; exact List.filterMap_append

theorem doneCount_append (r : Nat) (a b : List Act) :
    doneCount r (a ++ b) = doneCount r a + doneCount r b := by
  unfold doneCount; exact List.countP_append ..

theorem doneCount_eq_count (r : Nat) (l : List Act) : doneCount r l = (doneList l).count r := by
  induction l with
  | nil => rfl
  | cons a l ih =>
    unfold doneCount doneList at *
    cases a with
    | wire x => simpa [List.countP_cons, isDone] using ih
    | closed => simpa [List.countP_cons, isDone] using ih
    | submit x h => simpa [List.countP_cons, isDone] using ih
    | done x o v =>
      simp only [List.countP_cons, isDone, List.filterMap_cons, List.count_cons, ih]
      rfl

/-- What completing one request does, whatever the case. -/
theorem handle_acts (b : Base) (r : Nat) (o : Outcome) : ∃ v,
    (b.handle r o).acts = b.acts ++ [.done r o v] ∧ (b.handle r o).delegate = b.delegate ∧
    (b.hb = some r → v = .heartbeat ∧ (b.handle r o).hb = none) ∧
    (b.hb ≠ some r → (b.handle r o).hb = b.hb ∧
      v = if b.delegate then .user else .dropped) := by
  unfold Base.handle
  split
  · rename_i h
    exact ⟨.heartbeat, rfl, rfl, fun _ => ⟨rfl, rfl⟩, fun hn => absurd h hn⟩
  · rename_i h
    split
    · rename_i hd
      exact ⟨.user, rfl, rfl, fun hh => absurd hh h, fun _ => ⟨rfl, by simp⟩⟩
    · rename_i hd
      exact ⟨.dropped, rfl, rfl, fun hh => absurd hh h, fun _ => ⟨rfl, by simp⟩⟩

theorem doneList_append (a b : List Act) : doneList (a ++ b) = doneList a ++ doneList b := by
  unfold doneList; exact List.filterMap_append

theorem wireList_append (a b : List Act) : wireList (a ++ b) = wireList a ++ wireList b := by
  unfold wireList; exact List.filterMap_append

end Ltio.Client
