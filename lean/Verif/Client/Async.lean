import Verif.Client.Base
/-
Model of `AsyncChannel` (net_io/clients/async_channel.cc).

`ids r` is the `AsyncId` the codec gives request `r` when sending it.  `in_progress_`
(`std::unordered_map`) is an association list; the order in which a close fails the outstanding
requests is unspecified in the code and is list order here.
-/
namespace Ltio.Client.Async
open Ltio.Client

structure St where
  base : Base
  prog : List (Nat × Nat)   -- in_progress_: id ↦ request
deriving Repr

def init : St := ⟨Base.init, []⟩

/-- What happens to the channel. -/
inductive Ev where
  | send (r : Nat) (ok : Bool)       -- SendRequest(r); `ok` is the codec's answer
  | heartbeat (r : Nat) (ok : Bool)  -- the heartbeat timer; `r` is the codec's NewHeartbeat()
  | timeout (r : Nat) (alive : Bool) -- r's timer; `alive`: somebody else still holds r
  | message (id : Nat)               -- a message with this id was decoded
  | codecClosed                      -- the connection closed
  | shutdown                         -- CloseClientChannel (Client::Finalize)
deriving DecidableEq, Repr

/-- `std::unordered_map::insert`: keeps an existing entry. -/
def insertIfAbsent (prog : List (Nat × Nat)) (k r : Nat) : List (Nat × Nat) :=
  if prog.any (fun p => p.1 == k) then prog else prog ++ [(k, r)]

/-- `erase(key)`. -/
def eraseKey (prog : List (Nat × Nat)) (k : Nat) : List (Nat × Nat) :=
  prog.filter (fun p => !(p.1 == k))

/-- `AsyncChannel::SendRequest` (async_channel.cc:40-62). -/
def sendReq (ids : Nat → Nat) (s : St) (r : Nat) (ok h : Bool) : St :=
  if ok then ⟨(s.base.submit r h).wire r, insertIfAbsent s.prog (ids r) r⟩
  else ⟨(s.base.submit r h).handle r .broken, s.prog⟩

/-- One event. -/
def step (ids : Nat → Nat) (s : St) : Ev → St
  | .send r ok => sendReq ids s r ok false
  | .heartbeat r ok =>
    -- OnHearbeatTimerInvoke (client_channel.cc:101-108)
    if s.base.hb.isSome then s
    else sendReq ids { s with base := { s.base with hb := some r } } r ok true
  | .timeout r alive =>
    -- OnRequestTimeout (async_channel.cc:64-81); the map keeps its requests alive; the timer
    -- exists only if the request was sent (line 57)
    if r ∉ wireList s.base.acts then s
    else if (!alive && !(s.prog.any (fun p => p.2 == r))) = true then s
    else if s.prog.any (fun p => p.1 == ids r) then
      ⟨s.base.handle r .timeout, eraseKey s.prog (ids r)⟩
    else s
  | .message id =>
    -- OnCodecMessage (async_channel.cc:93-108)
    match s.prog.find? (fun p => p.1 == id) with
    | none => s
    | some p => ⟨s.base.handle p.2 (.response id), eraseKey s.prog id⟩
  | .codecClosed =>
    -- OnCodecClosed (async_channel.cc:110-125)
    ⟨(s.base.failAll (s.prog.map Prod.snd)).notifyClosed, []⟩
  | .shutdown =>
    -- CloseClientChannel (client_channel.cc:57-83) with BeforeCloseChannel
    -- (async_channel.cc:83-91); the following OnCodecClosed finds nothing left
    ⟨{ s.base.failAll (s.prog.map Prod.snd) with delegate := false }, []⟩

def run (ids : Nat → Nat) (s : St) (evs : List Ev) : St := evs.foldl (step ids) s

/-! ### Specification -/

/-- The request object an event brings. -/
def reqOf : Ev → Option Nat
  | .send r _ => some r
  | .heartbeat r _ => some r
  | _ => none

def isSend : Ev → Bool
  | .send _ _ => true
  | .heartbeat _ _ => true
  | _ => false

/-- Histories in scope: every request object is submitted once, the codec gives distinct ids, and
nothing is submitted after the channel was shut down. -/
structure Scope (ids : Nat → Nat) (evs : List Ev) : Prop where
  fresh : (evs.filterMap reqOf).Nodup
  distinct : ∀ r ∈ evs.filterMap reqOf, ∀ r' ∈ evs.filterMap reqOf, ids r = ids r' → r = r'
  noLate : evs.Pairwise (fun a b => a = .shutdown → isSend b = false)

/-- Is `r` waiting for its answer? -/
def outstanding (s : St) (r : Nat) : Nat := (s.prog.map Prod.snd).count r

/-! ### Invariant -/

structure Inv (ids : Nat → Nat) (s : St) : Prop where
  nodup : (s.prog.map Prod.fst).Nodup
  keys : ∀ p ∈ s.prog, p.1 = ids p.2 ∧ p.2 ∈ subList s.base.acts
  count : ∀ r, doneCount r s.base.acts + outstanding s r = (subList s.base.acts).count r
  hb : ∀ h, s.base.hb = some h → .submit h true ∈ s.base.acts ∧ 0 < outstanding s h
  vis : ∀ r o v, .done r o v ∈ s.base.acts → v ≠ .dropped ∧
    (v = .heartbeat → .submit r true ∈ s.base.acts) ∧
    (v = .user → .submit r false ∈ s.base.acts) ∧ (∀ i, o = .response i → i = ids r)
  dead : s.base.delegate = false → s.prog = []
  wired : ∀ r ∈ wireList s.base.acts, r ∈ subList s.base.acts
  kinds : ∀ p ∈ s.prog, s.base.hb ≠ some p.2 → .submit p.2 false ∈ s.base.acts

theorem subList_done (l : List Act) (r : Nat) (o : Outcome) (v : Vis) :
    subList (l ++ [.done r o v]) = subList l := by
  rw [subList_append]; simp [subList]

theorem doneCount_done (l : List Act) (r r' : Nat) (o : Outcome) (v : Vis) :
    doneCount r (l ++ [.done r' o v]) = doneCount r l + (if r' = r then 1 else 0) := by
  rw [doneCount_append]
  simp [doneCount, List.countP_cons, isDone]

/-- Completing an outstanding request and forgetting it. -/
theorem complete_inv {ids : Nat → Nat} {b : Base} {x y : List (Nat × Nat)} {k r : Nat}
    (h : Inv ids ⟨b, x ++ (k, r) :: y⟩) (hd : b.delegate = true)
    (hs : (subList b.acts).Nodup) (o : Outcome) (ho : ∀ i, o = .response i → i = ids r) :
    Inv ids ⟨b.handle r o, x ++ y⟩ := by
  obtain ⟨v, h1, h2, h3, h4⟩ := handle_acts b r o
  have hcr : (subList b.acts).count r ≤ 1 := List.nodup_iff_count.1 hs r
  have hout : ∀ r', outstanding ⟨b, x ++ (k, r) :: y⟩ r' =
      outstanding ⟨b.handle r o, x ++ y⟩ r' + (if r = r' then 1 else 0) := by
    intro r'
    unfold outstanding
    simp only [List.map_append, List.map_cons, List.count_append, List.count_cons]
    by_cases hr : r = r'
    · simp [hr]; omega
    · simp [hr]
  have hmem : ∀ p ∈ x ++ y, p ∈ x ++ (k, r) :: y := by
    intro p hp
    rcases List.mem_append.1 hp with hp | hp
    · exact List.mem_append_left _ hp
    · exact List.mem_append_right _ (List.mem_cons_of_mem _ hp)
  have hr0 : outstanding ⟨b.handle r o, x ++ y⟩ r = 0 := by
    have := h.count r
    rw [hout r] at this
    simp at this
    omega
  refine ⟨?_, ?_, ?_, ?_, ?_, ?_, ?_, ?_⟩
  · have := h.nodup
    simp only [List.map_append, List.map_cons] at this ⊢
    exact this.sublist (List.Sublist.append (List.Sublist.refl _) (List.sublist_cons_self _ _))
  · intro p hp
    have := h.keys p (hmem p hp)
    refine ⟨this.1, ?_⟩
    show p.2 ∈ subList (b.handle r o).acts
    rw [h1, subList_done]; exact this.2
  · intro r'
    have := h.count r'
    rw [hout r'] at this
    show doneCount r' (b.handle r o).acts + _ = (subList (b.handle r o).acts).count r'
    rw [h1, subList_done, doneCount_done]
    simp only at this
    omega
  · intro h' hh
    by_cases hbr : b.hb = some r
    · have := (h3 hbr).2
      simp only [this] at hh
      exact absurd hh (by simp)
    · have hh' : b.hb = some h' := by rw [← (h4 hbr).1]; exact hh
      obtain ⟨g1, g2⟩ := h.hb h' hh'
      refine ⟨?_, ?_⟩
      · show _ ∈ (b.handle r o).acts
        rw [h1]; exact List.mem_append_left _ g1
      · rw [hout h'] at g2
        have : r ≠ h' := fun e => hbr (by rw [e]; exact hh')
        simpa [this] using g2
  · intro r' o' v' hm
    have hm' : .done r' o' v' ∈ b.acts ++ [.done r o v] := by rw [← h1]; exact hm
    show v' ≠ _ ∧ (_ → _ ∈ (b.handle r o).acts) ∧ (_ → _ ∈ (b.handle r o).acts) ∧ _
    rw [h1]
    rcases List.mem_append.1 hm' with hm' | hm'
    · obtain ⟨a1, a2, a3, a4⟩ := h.vis r' o' v' hm'
      exact ⟨a1, fun e => List.mem_append_left _ (a2 e), fun e => List.mem_append_left _ (a3 e), a4⟩
    · simp only [List.mem_singleton, Act.done.injEq] at hm'
      obtain ⟨rfl, rfl, rfl⟩ := hm'
      by_cases hbr : b.hb = some r'
      · obtain ⟨e1, -⟩ := h3 hbr
        refine ⟨by rw [e1]; decide, fun _ => List.mem_append_left _ (h.hb r' hbr).1,
          fun e => by rw [e1] at e; exact absurd e (by decide), ho⟩
      · obtain ⟨-, e1⟩ := h4 hbr
        rw [hd] at e1
        simp at e1
        refine ⟨by rw [e1]; decide, fun e => by rw [e1] at e; exact absurd e (by decide),
          fun _ => List.mem_append_left _ ?_, ho⟩
        exact h.kinds (k, r') (by simp) hbr
  · intro hf
    rw [h2] at hf
    rw [hd] at hf; exact absurd hf (by decide)
  · show ∀ r' ∈ wireList (b.handle r o).acts, r' ∈ subList (b.handle r o).acts
    rw [h1, subList_done, wireList_append]
    intro r' hr'
    exact h.wired r' (by simpa [wireList] using hr')
  · intro p hp hne
    show _ ∈ (b.handle r o).acts
    rw [h1]
    apply List.mem_append_left
    apply h.kinds p (hmem p hp)
    intro hb'
    by_cases hbr : b.hb = some r
    · have hpr : p.2 = r := by
        have e : some p.2 = some r := hb'.symm.trans hbr
        simpa using e
      have : 0 < outstanding ⟨b.handle r o, x ++ y⟩ r := by
        unfold outstanding
        apply List.count_pos_iff.2
        exact List.mem_map.2 ⟨p, hp, hpr⟩
      omega
    · exact hne (by rw [(h4 hbr).1]; exact hb')

theorem failAll_inv {ids : Nat → Nat} : ∀ (prog : List (Nat × Nat)) (b : Base), Inv ids ⟨b, prog⟩ →
    (subList b.acts).Nodup →
    Inv ids ⟨b.failAll (prog.map Prod.snd), []⟩ ∧
    subList (b.failAll (prog.map Prod.snd)).acts = subList b.acts ∧
    (b.failAll (prog.map Prod.snd)).delegate = b.delegate ∧
    ∃ l, (b.failAll (prog.map Prod.snd)).acts = b.acts ++ l := by
  intro prog
  induction prog with
  | nil => intro b h _; exact ⟨h, rfl, rfl, [], by simp [Base.failAll]⟩
  | cons p prog ih =>
    intro b h hs
    obtain ⟨k, r⟩ := p
    have hd : b.delegate = true := by
      cases hdd : b.delegate with
      | true => rfl
      | false => exact absurd (h.dead hdd) (by simp)
    obtain ⟨v, h1, h2, -, -⟩ := handle_acts b r .broken
    have hsub : subList (b.handle r .broken).acts = subList b.acts := by rw [h1, subList_done]
    have := complete_inv (x := []) h hd hs .broken (by intro i hi; simp at hi)
    obtain ⟨g1, g2, g3, l, g4⟩ := ih (b.handle r .broken) this (by rw [hsub]; exact hs)
    refine ⟨g1, ?_, ?_, ?_⟩
    · show subList ((b.handle r .broken).failAll _).acts = _
      rw [g2, hsub]
    · show ((b.handle r .broken).failAll _).delegate = _
      rw [g3, h2]
    · refine ⟨.done r .broken v :: l, ?_⟩
      show ((b.handle r .broken).failAll _).acts = _
      rw [g4, h1]; simp

theorem notifyClosed_inv {ids : Nat → Nat} {b : Base} (h : Inv ids ⟨b, []⟩) :
    Inv ids ⟨b.notifyClosed, []⟩ ∧ subList b.notifyClosed.acts = subList b.acts := by
  unfold Base.notifyClosed
  split
  · have hsub : subList (b.acts ++ [.closed]) = subList b.acts := by
      rw [subList_append]; simp [subList]
    have hdc : ∀ r, doneCount r (b.acts ++ [.closed]) = doneCount r b.acts := by
      intro r; rw [doneCount_append]; simp [doneCount, isDone]
    refine ⟨⟨h.nodup, ?_, ?_, ?_, ?_, ?_, ?_, ?_⟩, hsub⟩
    · intro p hp; simp at hp
    · intro r
      show doneCount r (b.acts ++ [.closed]) + _ = (subList (b.acts ++ [.closed])).count r
      rw [hdc, hsub]; exact h.count r
    · intro x hx
      have := (h.hb x hx).2
      simp [outstanding] at this
    · intro r o v hm
      have hm' : .done r o v ∈ b.acts ++ [.closed] := hm
      simp only [List.mem_append, List.mem_singleton, reduceCtorEq, or_false] at hm'
      obtain ⟨a1, a2, a3, a4⟩ := h.vis r o v hm'
      exact ⟨a1, fun e => List.mem_append_left _ (a2 e), fun e => List.mem_append_left _ (a3 e), a4⟩
    · exact h.dead
    · show ∀ r' ∈ wireList (b.acts ++ [.closed]), r' ∈ subList (b.acts ++ [.closed])
      rw [hsub, wireList_append]
      intro r' hr'
      exact h.wired r' (by simpa [wireList] using hr')
    · intro p hp; simp at hp
  · exact ⟨h, rfl⟩

/-- Submitting a fresh request. -/
theorem sendReq_inv {ids : Nat → Nat} {s : St} {r : Nat} {ok hbt : Bool}
    (h : Inv ids s) (hbs : hbt = true → s.base.hb = none)
    (hd : s.base.delegate = true) (hfresh : r ∉ subList s.base.acts)
    (hids : ∀ r' ∈ subList s.base.acts, ids r' ≠ ids r) :
    Inv ids (sendReq ids (if hbt then { s with base := { s.base with hb := some r } } else s) r ok hbt) ∧
    subList (sendReq ids (if hbt then { s with base := { s.base with hb := some r } } else s) r ok hbt).base.acts =
      subList s.base.acts ++ [r] := by
  have hout0 : outstanding s r = 0 ∧ doneCount r s.base.acts = 0 := by
    have := h.count r
    rw [List.count_eq_zero_of_not_mem hfresh] at this
    omega
  have habs : s.prog.any (fun p => p.1 == ids r) = false := by
    rw [List.any_eq_false]
    intro p hp
    have := h.keys p hp
    simp only [beq_iff_eq]
    rw [this.1]
    exact hids p.2 this.2
  have hhbr : s.base.hb ≠ some r := by
    intro e
    have := (h.hb r e).2
    omega
  have hsub1 : subList (s.base.acts ++ [.submit r hbt]) = subList s.base.acts ++ [r] := by
    rw [subList_append]; simp [subList]
  have hcount1 : ∀ r', (subList s.base.acts ++ [r]).count r' =
      (subList s.base.acts).count r' + (if r = r' then 1 else 0) := by
    intro r'
    rw [List.count_append, List.count_singleton]
    by_cases hr : r = r' <;> simp [hr]
  cases ok with
  | true =>
    have hprog : (sendReq ids (if hbt then { s with base := { s.base with hb := some r } } else s) r true hbt).prog
        = s.prog ++ [(ids r, r)] := by
      unfold sendReq insertIfAbsent
      cases hbt <;> simp [habs]
    have hacts : (sendReq ids (if hbt then { s with base := { s.base with hb := some r } } else s) r true hbt).base.acts
        = s.base.acts ++ [.submit r hbt] ++ [.wire r] := by
      unfold sendReq
      cases hbt <;> simp [Base.submit, Base.wire]
    have hdel : (sendReq ids (if hbt then { s with base := { s.base with hb := some r } } else s) r true hbt).base.delegate
        = true := by
      unfold sendReq
      cases hbt <;> simp [Base.submit, Base.wire, hd]
    have hhb : (sendReq ids (if hbt then { s with base := { s.base with hb := some r } } else s) r true hbt).base.hb
        = if hbt then some r else s.base.hb := by
      unfold sendReq
      cases hbt <;> simp [Base.submit, Base.wire]
    have hsub2 : subList (s.base.acts ++ [.submit r hbt] ++ [.wire r]) = subList s.base.acts ++ [r] := by
      rw [subList_append, hsub1]; simp [subList]
    have hdc : ∀ r', doneCount r' (s.base.acts ++ [.submit r hbt] ++ [.wire r]) =
        doneCount r' s.base.acts := by
      intro r'
      rw [doneCount_append, doneCount_append]; simp [doneCount, isDone]
    generalize sendReq ids (if hbt then { s with base := { s.base with hb := some r } } else s) r true hbt = t at *
    have hout : ∀ r', outstanding t r' = outstanding s r' + (if r = r' then 1 else 0) := by
      intro r'
      unfold outstanding
      rw [hprog, List.map_append, List.count_append]
      simp only [List.map_cons, List.map_nil, List.count_singleton]
      by_cases hr : r = r' <;> simp [hr]
    have hin : ∀ a ∈ s.base.acts, a ∈ t.base.acts := by
      intro a ha; rw [hacts]; simp [ha]
    refine ⟨⟨?_, ?_, ?_, ?_, ?_, ?_, ?_, ?_⟩, ?_⟩
    · rw [hprog, List.map_append, List.nodup_append]
      refine ⟨h.nodup, by simp, ?_⟩
      intro a ha b hb e
      simp at hb
      subst e
      obtain ⟨p, hp, rfl⟩ := List.mem_map.1 ha
      have := List.any_eq_false.1 habs p hp
      simp [hb] at this
    · intro p hp
      rw [hacts, hsub2]
      rw [hprog] at hp
      rcases List.mem_append.1 hp with hp | hp
      · exact ⟨(h.keys p hp).1, List.mem_append_left _ (h.keys p hp).2⟩
      · simp at hp; subst hp; simp
    · intro r'
      rw [hacts, hsub2, hdc, hout, hcount1]
      have := h.count r'
      omega
    · intro x hx
      rw [hhb] at hx
      cases hbt with
      | true =>
        simp at hx
        subst hx
        refine ⟨by rw [hacts]; simp, by rw [hout]; simp⟩
      | false =>
        simp at hx
        obtain ⟨g1, g2⟩ := h.hb x hx
        exact ⟨hin _ g1, by rw [hout]; omega⟩
    · intro r' o v hm
      rw [hacts] at hm
      simp only [List.mem_append, List.mem_singleton, reduceCtorEq, or_false] at hm
      obtain ⟨a1, a2, a3, a4⟩ := h.vis r' o v hm
      exact ⟨a1, fun e => hin _ (a2 e), fun e => hin _ (a3 e), a4⟩
    · intro hf; rw [hdel] at hf; exact absurd hf (by decide)
    · rw [hacts, hsub2, wireList_append, wireList_append]
      intro r' hr'
      simp only [wireList, List.filterMap_cons, List.filterMap_nil, List.append_nil,
        List.mem_append, List.mem_singleton] at hr'
      rcases hr' with hr' | hr'
      · exact List.mem_append_left _ (h.wired r' hr')
      · subst hr'; simp
    · intro p hp hne
      rw [hprog] at hp
      rw [hhb] at hne
      rcases List.mem_append.1 hp with hp | hp
      · apply hin
        apply h.kinds p hp
        cases hbt with
        | true => rw [hbs rfl]; simp
        | false => simpa using hne
      · simp at hp; subst hp
        cases hbt with
        | true => simp at hne
        | false => rw [hacts]; simp
    · rw [hacts, hsub2]
  | false =>
    obtain ⟨v, h1, h2, h3, h4⟩ := handle_acts
      (({ s.base with hb := if hbt then some r else s.base.hb }).submit r hbt) r .broken
    have hst : sendReq ids (if hbt then { s with base := { s.base with hb := some r } } else s) r false hbt =
        ⟨(({ s.base with hb := if hbt then some r else s.base.hb }).submit r hbt).handle r .broken, s.prog⟩ := by
      unfold sendReq
      cases hbt <;> simp
    rw [hst]
    generalize hB : (({ s.base with hb := if hbt then some r else s.base.hb } : Base).submit r hbt).handle r .broken = B at *
    have hacts : B.acts = s.base.acts ++ [.submit r hbt] ++ [.done r .broken v] := h1
    have hsub2 : subList B.acts = subList s.base.acts ++ [r] := by
      rw [hacts, subList_done, hsub1]
    have hdc : ∀ r', doneCount r' B.acts = doneCount r' s.base.acts + (if r = r' then 1 else 0) := by
      intro r'
      rw [hacts, doneCount_done, doneCount_append]; simp [doneCount, isDone]
    have hin : ∀ a ∈ s.base.acts, a ∈ B.acts := by
      intro a ha; rw [hacts]; simp [ha]
    have hBhb : B.hb = s.base.hb := by
      cases hbt with
      | true => rw [(h3 (by simp [Base.submit])).2, hbs rfl]
      | false =>
        have := (h4 (by simpa [Base.submit] using hhbr)).1
        rw [this]; simp [Base.submit]
    have hv : v = if hbt then .heartbeat else .user := by
      cases hbt with
      | true => exact (h3 (by simp [Base.submit])).1
      | false =>
        have := (h4 (by simpa [Base.submit] using hhbr)).2
        rw [this]; simp [Base.submit, hd]
    refine ⟨⟨h.nodup, ?_, ?_, ?_, ?_, ?_, ?_, ?_⟩, hsub2⟩
    · intro p hp
      refine ⟨(h.keys p hp).1, ?_⟩
      show _ ∈ subList B.acts
      rw [hsub2]
      exact List.mem_append_left _ (h.keys p hp).2
    · intro r'
      show doneCount r' B.acts + outstanding s r' = (subList B.acts).count r'
      rw [hdc, hsub2, hcount1]
      have := h.count r'
      omega
    · intro x hx
      have hx' : s.base.hb = some x := by rw [← hBhb]; exact hx
      obtain ⟨g1, g2⟩ := h.hb x hx'
      exact ⟨hin _ g1, g2⟩
    · intro r' o v' hm
      have hm' : .done r' o v' ∈ s.base.acts ++ [.submit r hbt] ++ [.done r .broken v] := by
        rw [← hacts]; exact hm
      simp only [List.mem_append, List.mem_singleton, reduceCtorEq, or_false, Act.done.injEq] at hm'
      rcases hm' with hm' | ⟨rfl, rfl, rfl⟩
      · obtain ⟨a1, a2, a3, a4⟩ := h.vis r' o v' hm'
        exact ⟨a1, fun e => hin _ (a2 e), fun e => hin _ (a3 e), a4⟩
      · rw [hv]
        show _ ∧ (_ → _ ∈ B.acts) ∧ (_ → _ ∈ B.acts) ∧ _
        rw [hacts]
        cases hbt <;> simp
    · intro hf
      rw [h2] at hf
      simp [Base.submit, hd] at hf
    · show ∀ r' ∈ wireList B.acts, r' ∈ subList B.acts
      rw [hsub2, hacts, wireList_append, wireList_append]
      intro r' hr'
      simp only [wireList, List.filterMap_cons, List.filterMap_nil, List.append_nil] at hr'
      exact List.mem_append_left _ (h.wired r' hr')
    · intro p hp hne
      apply hin
      apply h.kinds p hp
      rw [← hBhb]; exact hne

theorem eraseKey_split {x y : List (Nat × Nat)} {k r : Nat}
    (h : ((x ++ (k, r) :: y).map Prod.fst).Nodup) : eraseKey (x ++ (k, r) :: y) k = x ++ y := by
  rw [List.map_append, List.map_cons, List.nodup_append] at h
  obtain ⟨-, h2, h3⟩ := h
  rw [List.nodup_cons] at h2
  unfold eraseKey
  rw [List.filter_append, List.filter_cons_of_neg (by simp)]
  congr 1
  · rw [List.filter_eq_self]
    intro p hp
    have := h3 p.1 (List.mem_map_of_mem hp) k (by simp)
    simpa using this
  · rw [List.filter_eq_self]
    intro p hp
    have : p.1 ≠ k := fun e => h2.1 (List.mem_map.2 ⟨p, hp, e⟩)
    simpa using this

/-- Every event preserves the invariant. -/
theorem step_inv {ids : Nat → Nat} {s : St} (h : Inv ids s) (e : Ev)
    (hs : (subList s.base.acts).Nodup)
    (hinj : ∀ r ∈ subList s.base.acts, ∀ r' ∈ subList s.base.acts, ids r = ids r' → r = r')
    (hsend : isSend e = true → s.base.delegate = true)
    (hfresh : ∀ r, reqOf e = some r → r ∉ subList s.base.acts ∧
      ∀ r' ∈ subList s.base.acts, ids r' ≠ ids r) :
    Inv ids (step ids s e) ∧
    (subList (step ids s e).base.acts = subList s.base.acts ∨
      ∃ r, reqOf e = some r ∧ subList (step ids s e).base.acts = subList s.base.acts ++ [r]) ∧
    (e ≠ .shutdown → (step ids s e).base.delegate = s.base.delegate) := by
  have hdeleg : ∀ b : Base, ∀ r o, (b.handle r o).delegate = b.delegate := by
    intro b r o
    obtain ⟨v, -, h2, -, -⟩ := handle_acts b r o
    exact h2
  cases e with
  | send r ok =>
    obtain ⟨f1, f2⟩ := hfresh r rfl
    have := sendReq_inv (ok := ok) (hbt := false) h (by simp) (hsend rfl) f1 f2
    simp only [Bool.false_eq_true, if_false] at this
    refine ⟨this.1, Or.inr ⟨r, rfl, this.2⟩, fun _ => ?_⟩
    show (sendReq ids s r ok false).base.delegate = _
    unfold sendReq
    cases ok
    · simp [hdeleg, Base.submit]
    · rfl
  | heartbeat r ok =>
    obtain ⟨f1, f2⟩ := hfresh r rfl
    simp only [step]
    split
    · exact ⟨h, Or.inl rfl, fun _ => rfl⟩
    · rename_i hn
      have hn' : s.base.hb = none := by simpa using hn
      have := sendReq_inv (ok := ok) (hbt := true) h (fun _ => hn') (hsend rfl) f1 f2
      simp only [if_true] at this
      refine ⟨this.1, Or.inr ⟨r, rfl, this.2⟩, fun _ => ?_⟩
      unfold sendReq
      cases ok
      · simp [hdeleg, Base.submit]
      · rfl
  | timeout r alive =>
    simp only [step]
    split
    · exact ⟨h, Or.inl rfl, fun _ => rfl⟩
    rename_i hw
    have hw := Classical.not_not.1 hw
    split
    · exact ⟨h, Or.inl rfl, fun _ => rfl⟩
    · split
      · rename_i ha hk
        obtain ⟨p, hp, hpk⟩ := List.any_eq_true.1 hk
        have hkey := h.keys p hp
        have hpr : p.1 = ids r := by simpa using hpk
        -- the entry found is r's own, or r was never submitted
        have hrs : r ∈ subList s.base.acts := h.wired r hw
        · have hpe : p = (ids r, r) := by
            have := hinj p.2 hkey.2 r hrs (by rw [← hkey.1]; exact hpr)
            exact Prod.ext hpr this
          obtain ⟨x, y, hxy⟩ := List.append_of_mem hp
          rw [hpe] at hxy
          have hd : s.base.delegate = true := by
            cases hdd : s.base.delegate with
            | true => rfl
            | false => rw [h.dead hdd] at hp; simp at hp
          have h' : Inv ids ⟨s.base, x ++ (ids r, r) :: y⟩ := by rw [← hxy]; exact h
          have := complete_inv h' hd hs .timeout (by intro i hi; simp at hi)
          have her : eraseKey s.prog (ids r) = x ++ y := by
            rw [hxy]; exact eraseKey_split h'.nodup
          obtain ⟨v, h1, -, -, -⟩ := handle_acts s.base r .timeout
          refine ⟨by rw [her]; exact this, Or.inl ?_, fun _ => hdeleg _ _ _⟩
          show subList (s.base.handle r .timeout).acts = _
          rw [h1, subList_done]
      · exact ⟨h, Or.inl rfl, fun _ => rfl⟩
  | message id =>
    simp only [step]
    split
    · exact ⟨h, Or.inl rfl, fun _ => rfl⟩
    · rename_i p hf
      have hp : p ∈ s.prog := List.mem_of_find?_eq_some hf
      have hpid : p.1 = id := by simpa using List.find?_some hf
      have hkey := h.keys p hp
      obtain ⟨x, y, hxy⟩ := List.append_of_mem hp
      have hpe : p = (id, p.2) := Prod.ext hpid rfl
      rw [hpe] at hxy
      have hd : s.base.delegate = true := by
        cases hdd : s.base.delegate with
        | true => rfl
        | false => rw [h.dead hdd] at hp; simp at hp
      have h' : Inv ids ⟨s.base, x ++ (id, p.2) :: y⟩ := by rw [← hxy]; exact h
      have := complete_inv h' hd hs (.response id) (by
        intro i hi
        simp at hi
        rw [← hi, ← hkey.1, hpid])
      have her : eraseKey s.prog id = x ++ y := by
        rw [hxy]; exact eraseKey_split h'.nodup
      obtain ⟨v, h1, -, -, -⟩ := handle_acts s.base p.2 (.response id)
      refine ⟨by rw [her]; exact this, Or.inl ?_, fun _ => hdeleg _ _ _⟩
      show subList (s.base.handle p.2 (.response id)).acts = _
      rw [h1, subList_done]
  | codecClosed =>
    obtain ⟨g1, g2, g3, -⟩ := failAll_inv s.prog s.base h hs
    obtain ⟨k1, k2⟩ := notifyClosed_inv g1
    refine ⟨k1, Or.inl (by rw [← g2]; exact k2), fun _ => ?_⟩
    show (Base.notifyClosed _).delegate = _
    unfold Base.notifyClosed
    split <;> exact g3
  | shutdown =>
    obtain ⟨g1, g2, g3, -⟩ := failAll_inv s.prog s.base h hs
    refine ⟨⟨g1.nodup, g1.keys, g1.count, g1.hb, g1.vis, fun _ => rfl, g1.wired, g1.kinds⟩, Or.inl g2,
      fun hne => absurd rfl hne⟩

end Ltio.Client.Async
