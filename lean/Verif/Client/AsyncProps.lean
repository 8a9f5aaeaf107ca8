import Verif.Client.Async
/-
C21: the multiplexing client channel completes every request exactly once.
-/
namespace Ltio.Client.Async
open Ltio.Client

theorem failAll_grow : ∀ (l : List Nat) (b : Base), ∃ x, (b.failAll l).acts = b.acts ++ x := by
  intro l
  induction l with
  | nil => intro b; exact ⟨[], by simp [Base.failAll]⟩
  | cons r l ih =>
    intro b
    obtain ⟨v, h1, -, -, -⟩ := handle_acts b r .broken
    obtain ⟨x, hx⟩ := ih (b.handle r .broken)
    exact ⟨.done r .broken v :: x, by show ((b.handle r .broken).failAll l).acts = _; rw [hx, h1]; simp⟩

theorem sendReq_grow (ids : Nat → Nat) (s : St) (r : Nat) (ok h : Bool) :
    ∃ x, (sendReq ids s r ok h).base.acts = s.base.acts ++ .submit r h :: x := by
  unfold sendReq
  cases ok
  · obtain ⟨v, h1, -, -, -⟩ := handle_acts (s.base.submit r h) r .broken
    refine ⟨[.done r .broken v], ?_⟩
    show ((s.base.submit r h).handle r .broken).acts = _
    rw [h1]; simp [Base.submit]
  · exact ⟨[.wire r], by simp [Base.submit, Base.wire]⟩

/-- Actions only accumulate. -/
theorem step_grow (ids : Nat → Nat) (s : St) (e : Ev) :
    ∃ x, (step ids s e).base.acts = s.base.acts ++ x := by
  cases e with
  | send r ok => obtain ⟨x, hx⟩ := sendReq_grow ids s r ok false; exact ⟨_, hx⟩
  | heartbeat r ok =>
    simp only [step]
    split
    · exact ⟨[], by simp⟩
    · obtain ⟨x, hx⟩ := sendReq_grow ids { s with base := { s.base with hb := some r } } r ok true
      exact ⟨_, hx⟩
  | timeout r alive =>
    simp only [step]
    split
    · exact ⟨[], by simp⟩
    · split
      · exact ⟨[], by simp⟩
      · split
        · obtain ⟨v, h1, -, -, -⟩ := handle_acts s.base r .timeout
          exact ⟨_, h1⟩
        · exact ⟨[], by simp⟩
  | message id =>
    simp only [step]
    split
    · exact ⟨[], by simp⟩
    · rename_i p hp
      obtain ⟨v, h1, -, -, -⟩ := handle_acts s.base p.2 (.response id)
      exact ⟨_, h1⟩
  | codecClosed =>
    obtain ⟨x, hx⟩ := failAll_grow (s.prog.map Prod.snd) s.base
    show ∃ y, (Base.notifyClosed _).acts = _
    unfold Base.notifyClosed
    split
    · exact ⟨x ++ [.closed], by simp [hx]⟩
    · exact ⟨x, hx⟩
  | shutdown => exact failAll_grow _ _

theorem run_grow (ids : Nat → Nat) : ∀ (evs : List Ev) (s : St),
    ∃ x, (run ids s evs).base.acts = s.base.acts ++ x := by
  intro evs
  induction evs with
  | nil => intro s; exact ⟨[], by simp [run]⟩
  | cons e evs ih =>
    intro s
    obtain ⟨x, hx⟩ := step_grow ids s e
    obtain ⟨y, hy⟩ := ih (step ids s e)
    exact ⟨x ++ y, by show (run ids (step ids s e) evs).base.acts = _; rw [hy, hx]; simp⟩

theorem run_append (ids : Nat → Nat) (s : St) (a b : List Ev) :
    run ids s (a ++ b) = run ids (run ids s a) b := by
  unfold run; rw [List.foldl_append]

/-- The invariant along a whole history. -/
theorem run_inv {ids : Nat → Nat} : ∀ (evs : List Ev) (s : St), Inv ids s →
    (subList s.base.acts ++ evs.filterMap reqOf).Nodup →
    (∀ r ∈ subList s.base.acts ++ evs.filterMap reqOf,
      ∀ r' ∈ subList s.base.acts ++ evs.filterMap reqOf, ids r = ids r' → r = r') →
    (s.base.delegate = false → ∀ e ∈ evs, isSend e = false) →
    evs.Pairwise (fun a b => a = .shutdown → isSend b = false) →
    Inv ids (run ids s evs) ∧ (subList (run ids s evs).base.acts).Nodup ∧
      (∀ r ∈ subList (run ids s evs).base.acts,
        r ∈ subList s.base.acts ++ evs.filterMap reqOf) := by
  intro evs
  induction evs with
  | nil =>
    intro s h hn _ _ _
    exact ⟨h, by simpa [run] using hn, by intro r hr; simpa [run] using hr⟩
  | cons e evs ih =>
    intro s h hn hinj hdead hlate
    obtain ⟨hl1, hl2⟩ := List.pairwise_cons.1 hlate
    have hn1 : (subList s.base.acts).Nodup := (List.nodup_append.1 hn).1
    obtain ⟨k1, k2, k3⟩ := step_inv h e hn1
      (fun r hr r' hr' => hinj r (List.mem_append_left _ hr) r' (List.mem_append_left _ hr'))
      (fun hse => by
        cases hd : s.base.delegate with
        | true => rfl
        | false => have := hdead hd e (by simp); rw [hse] at this; exact absurd this (by decide))
      (fun r hr => by
        have hmem : r ∈ (e :: evs).filterMap reqOf := by simp [hr]
        have hnot : r ∉ subList s.base.acts := fun hc =>
          (List.nodup_append.1 hn).2.2 r hc r hmem rfl
        refine ⟨hnot, ?_⟩
        intro r' hr' heq
        have := hinj r' (List.mem_append_left _ hr') r (List.mem_append_right _ hmem) heq
        subst this; exact hnot hr')
    -- the new submitted list with the rest is a sublist of the old one
    have hsl : List.Sublist (subList (step ids s e).base.acts ++ evs.filterMap reqOf)
        (subList s.base.acts ++ (e :: evs).filterMap reqOf) := by
      rcases k2 with k2 | ⟨r, hr, k2⟩
      · rw [k2]
        apply List.Sublist.append (List.Sublist.refl _)
        cases hre : reqOf e with
        | none => rw [List.filterMap_cons_none hre]; exact List.Sublist.refl _
        | some r => rw [List.filterMap_cons_some hre]; exact List.sublist_cons_self _ _
      · rw [k2, List.filterMap_cons_some hr]
        simp
    have hd' : (step ids s e).base.delegate = false → ∀ e' ∈ evs, isSend e' = false := by
      intro hd e' he'
      by_cases hsd : e = .shutdown
      · exact hl1 e' he' hsd
      · rw [k3 hsd] at hd
        exact hdead hd e' (by simp [he'])
    obtain ⟨g1, g2, g3⟩ := ih (step ids s e) k1 (hn.sublist hsl)
      (fun r hr r' hr' => hinj r (hsl.subset hr) r' (hsl.subset hr')) hd' hl2
    exact ⟨g1, g2, fun r hr => hsl.subset (g3 r hr)⟩

theorem init_inv (ids : Nat → Nat) : Inv ids init := by
  refine ⟨by simp [init], by intro p hp; simp [init] at hp, ?_, ?_, ?_, ?_, ?_, ?_⟩
  · intro r; rfl
  · intro h hh; simp [init, Base.init] at hh
  · intro r o v hm; simp [init, Base.init] at hm
  · intro _; rfl
  · intro r hr; simp [init, Base.init, wireList] at hr
  · intro p hp; simp [init] at hp

theorem scope_inv {ids : Nat → Nat} {evs : List Ev} (h : Scope ids evs) :
    Inv ids (run ids init evs) ∧ (subList (run ids init evs).base.acts).Nodup ∧
      (∀ r ∈ subList (run ids init evs).base.acts, r ∈ evs.filterMap reqOf) :=
  run_inv evs init (init_inv ids) (by simpa [init, Base.init, subList] using h.fresh)
    (by simpa [init, Base.init, subList] using h.distinct)
    (by intro hd; simp [init, Base.init] at hd) h.noLate

theorem submit_of_send {ids : Nat → Nat} {evs : List Ev} {r : Nat} {ok : Bool}
    (h : .send r ok ∈ evs) (s : St) : .submit r false ∈ (run ids s evs).base.acts := by
  obtain ⟨a, b, rfl⟩ := List.append_of_mem h
  rw [run_append]
  show _ ∈ (run ids (sendReq ids (run ids s a) r ok false) b).base.acts
  obtain ⟨x, hx⟩ := sendReq_grow ids (run ids s a) r ok false
  obtain ⟨y, hy⟩ := run_grow ids b (sendReq ids (run ids s a) r ok false)
  rw [hy, hx]; simp

theorem mem_subList {r : Nat} {h : Bool} {l : List Act} (hm : .submit r h ∈ l) : r ∈ subList l := by
  unfold subList
  exact List.mem_filterMap.2 ⟨_, hm, rfl⟩

theorem submit_unique {r : Nat} {l : List Act} (hn : (subList l).Nodup)
    (h1 : .submit r true ∈ l) (h2 : .submit r false ∈ l) : False := by
  induction l with
  | nil => simp at h1
  | cons a l ih =>
    have hn' : (subList l).Nodup := by
      unfold subList at *
      rw [List.filterMap_cons] at hn
      split at hn
      · exact hn
      · exact (List.nodup_cons.1 hn).2
    rcases List.mem_cons.1 h1 with e1 | e1
    · rcases List.mem_cons.1 h2 with e2 | e2
      · rw [← e1] at e2; simp at e2
      · subst e1
        have : subList (.submit r true :: l) = r :: subList l := rfl
        rw [this] at hn
        exact (List.nodup_cons.1 hn).1 (mem_subList e2)
    · rcases List.mem_cons.1 h2 with e2 | e2
      · subst e2
        have : subList (.submit r false :: l) = r :: subList l := rfl
        rw [this] at hn
        exact (List.nodup_cons.1 hn).1 (mem_subList e1)
      · exact ih hn' e1 e2

/-- **C21.** In every history in scope, every request the user submitted has been completed
exactly once or is still outstanding (and not both); the completion always reaches the user, and a
response completion carries the request's own id.  Nothing else is ever completed. -/
theorem c21_exactly_once_partial {ids : Nat → Nat} {evs : List Ev} (h : Scope ids evs) :
    (∀ r ok, .send r ok ∈ evs →
      doneCount r (run ids init evs).base.acts + outstanding (run ids init evs) r = 1 ∧
      ∀ o v, .done r o v ∈ (run ids init evs).base.acts →
        v = .user ∧ ∀ i, o = .response i → i = ids r) ∧
    (∀ r, r ∉ evs.filterMap reqOf → doneCount r (run ids init evs).base.acts = 0) := by
  obtain ⟨hi, hn, hsub⟩ := scope_inv h
  refine ⟨?_, ?_⟩
  · intro r ok hr
    have hs := submit_of_send (ids := ids) hr init
    refine ⟨?_, ?_⟩
    · rw [hi.count r]
      have h1 := List.nodup_iff_count.1 hn r
      have h2 := List.count_pos_iff.2 (mem_subList hs)
      omega
    · intro o v hm
      obtain ⟨a1, a2, -, a4⟩ := hi.vis r o v hm
      refine ⟨?_, a4⟩
      cases v with
      | user => rfl
      | dropped => exact absurd rfl a1
      | heartbeat => exact absurd (submit_unique hn (a2 rfl) hs) (by simp)
  · intro r hr
    have := hi.count r
    rw [List.count_eq_zero_of_not_mem (fun hc => hr (hsub r hc))] at this
    omega

theorem scope_prefix {ids : Nat → Nat} {a b : List Ev} (h : Scope ids (a ++ b)) : Scope ids a := by
  refine ⟨?_, ?_, ?_⟩
  · have := h.fresh
    rw [List.filterMap_append] at this
    exact (List.nodup_append.1 this).1
  · intro r hr r' hr'
    exact h.distinct r (by rw [List.filterMap_append]; exact List.mem_append_left _ hr) r'
      (by rw [List.filterMap_append]; exact List.mem_append_left _ hr')
  · exact (List.pairwise_append.1 h.noLate).1

/-- Once not outstanding after some prefix, a submitted request is completed for good. -/
theorem completed_of_prefix {ids : Nat → Nat} {pre post : List Ev} (h : Scope ids (pre ++ post))
    {r : Nat} {ok : Bool} (hr : .send r ok ∈ pre) (ho : outstanding (run ids init pre) r = 0) :
    doneCount r (run ids init (pre ++ post)).base.acts = 1 := by
  have h1 := ((c21_exactly_once_partial (scope_prefix h)).1 r ok hr).1
  have h2 := ((c21_exactly_once_partial h).1 r ok (List.mem_append_left _ hr)).1
  obtain ⟨x, hx⟩ := run_grow ids post (run ids init pre)
  rw [run_append, hx, doneCount_append] at h2
  rw [run_append, hx, doneCount_append]
  omega

theorem not_outstanding_of_nil {s : St} (h : s.prog = []) (r : Nat) : outstanding s r = 0 := by
  unfold outstanding; rw [h]; rfl

/-- Whatever is outstanding was put on the wire. -/
theorem run_wired (ids : Nat → Nat) : ∀ (evs : List Ev) (s : St),
    (∀ p ∈ s.prog, p.2 ∈ wireList s.base.acts) →
    ∀ p ∈ (run ids s evs).prog, p.2 ∈ wireList (run ids s evs).base.acts := by
  intro evs
  induction evs with
  | nil => intro s h; exact h
  | cons e evs ih =>
    intro s h
    apply ih (step ids s e)
    obtain ⟨x, hx⟩ := step_grow ids s e
    have hold : ∀ p ∈ s.prog, p.2 ∈ wireList (step ids s e).base.acts := by
      intro p hp
      rw [hx, wireList_append]
      exact List.mem_append_left _ (h p hp)
    have hsend : ∀ (s' : St) (r : Nat) (ok hb : Bool), (s'.prog = s.prog) →
        step ids s e = sendReq ids s' r ok hb → ∀ p ∈ (step ids s e).prog,
          p.2 ∈ wireList (step ids s e).base.acts := by
      intro s' r ok hb hp' hst p hp
      rw [hst] at hp
      unfold sendReq at hp
      cases ok with
      | false =>
        simp only [Bool.false_eq_true, if_false] at hp
        rw [hp'] at hp
        exact hold p hp
      | true =>
        simp only [if_true, insertIfAbsent] at hp
        split at hp
        · rw [hp'] at hp; exact hold p hp
        · rcases List.mem_append.1 hp with hp | hp
          · rw [hp'] at hp; exact hold p hp
          · simp at hp
            subst hp
            rw [hst]
            simp [sendReq, Base.wire, Base.submit, wireList]
    intro p hp
    cases e with
    | send r ok => exact hsend s r ok false rfl rfl p hp
    | heartbeat r ok =>
      by_cases hb : s.base.hb.isSome = true
      · have : step ids s (.heartbeat r ok) = s := by simp only [step]; rw [if_pos hb]
        rw [this] at hp ⊢
        exact h p hp
      · exact hsend { s with base := { s.base with hb := some r } } r ok true rfl
          (by simp only [step]; rw [if_neg hb]) p hp
    | timeout r alive =>
      apply hold
      simp only [step] at hp
      split at hp
      · exact hp
      · split at hp
        · exact hp
        · split at hp
          · exact (List.mem_filter.1 hp).1
          · exact hp
    | message id =>
      apply hold
      simp only [step] at hp
      split at hp
      · exact hp
      · exact (List.mem_filter.1 hp).1
    | codecClosed => simp [step] at hp
    | shutdown => simp [step] at hp

theorem outstanding_wired {ids : Nat → Nat} (evs : List Ev) (r : Nat)
    (h : 0 < outstanding (run ids init evs) r) : r ∈ wireList (run ids init evs).base.acts := by
  obtain ⟨p, hp, rfl⟩ := List.mem_map.1 (List.count_pos_iff.1 h)
  exact run_wired ids evs init (by intro p hp; simp [init] at hp) p hp

/-- **C21, liveness**: once its timer has fired, or the connection closed, or the channel was shut
down after the request was submitted, the request has been completed exactly once. -/
theorem c21_completed_partial {ids : Nat → Nat} {pre post : List Ev} {e : Ev} {r : Nat} {ok : Bool}
    (h : Scope ids (pre ++ e :: post)) (hr : .send r ok ∈ pre)
    (he : (∃ a, e = .timeout r a) ∨ e = .codecClosed ∨ e = .shutdown) :
    doneCount r (run ids init (pre ++ e :: post)).base.acts = 1 := by
  have hsplit : pre ++ e :: post = (pre ++ [e]) ++ post := by simp
  rw [hsplit] at h ⊢
  apply completed_of_prefix h (List.mem_append_left _ hr)
  rw [run_append]
  show outstanding (step ids (run ids init pre) e) r = 0
  obtain ⟨hi, hn, -⟩ := scope_inv (scope_prefix (scope_prefix h))
  rcases he with ⟨a, rfl⟩ | rfl | rfl
  · -- its own timer
    by_cases hout : 0 < outstanding (run ids init pre) r
    · have hmem := List.count_pos_iff.1 hout
      obtain ⟨p, hp, hpr⟩ := List.mem_map.1 hmem
      have hkey := hi.keys p hp
      have hany : (run ids init pre).prog.any (fun q => q.2 == r) = true :=
        List.any_eq_true.2 ⟨p, hp, by simp [hpr]⟩
      have hany' : (run ids init pre).prog.any (fun q => q.1 == ids r) = true :=
        List.any_eq_true.2 ⟨p, hp, by simp [hkey.1, hpr]⟩
      simp only [step]
      by_cases hw : r ∈ wireList (run ids init pre).base.acts
      · rw [if_neg (by simpa using hw), if_neg (by simp [hany]), if_pos hany']
        unfold outstanding eraseKey
        rw [List.count_eq_zero]
        intro hc
        obtain ⟨q, hq, hqr⟩ := List.mem_map.1 hc
        obtain ⟨hq1, hq2⟩ := List.mem_filter.1 hq
        have := (hi.keys q hq1).1
        rw [hqr] at this
        simp [this] at hq2
      · exact absurd (outstanding_wired pre r hout) hw
    · have h0 : outstanding (run ids init pre) r = 0 := by omega
      -- a completed request is not brought back by its timer
      have hsub : ∀ q ∈ (step ids (run ids init pre) (.timeout r a)).prog,
          q ∈ (run ids init pre).prog := by
        intro q hq
        simp only [step] at hq
        split at hq
        · exact hq
        · split at hq
          · exact hq
          · split at hq
            · exact (List.mem_filter.1 hq).1
            · exact hq
      unfold outstanding at h0 ⊢
      rw [List.count_eq_zero] at h0 ⊢
      intro hc
      obtain ⟨q, hq, hqr⟩ := List.mem_map.1 hc
      exact h0 (List.mem_map.2 ⟨q, hsub q hq, hqr⟩)
  · exact not_outstanding_of_nil rfl r
  · exact not_outstanding_of_nil rfl r

/-! ### Where it fails -/

/-- **C21 violated when an id is reused** (for every pair of requests with the same id): a late
timer of an already answered request takes away the other request's entry: the first request is
completed twice, the second never, even after its own timer and a close. -/
theorem c21_id_reuse_violated (ids : Nat → Nat) (r r' : Nat) (hne : r ≠ r') (hid : ids r = ids r') :
    let s := run ids init [.send r true, .message (ids r), .send r' true, .timeout r true,
      .timeout r' true, .codecClosed]
    doneCount r s.base.acts = 2 ∧ doneCount r' s.base.acts = 0 ∧ s.prog = [] := by
  have hne' : r' ≠ r := fun h => hne h.symm
  simp [run, step, sendReq, insertIfAbsent, eraseKey, init, Base.init, Base.handle, Base.submit,
    Base.wire, Base.failAll, Base.notifyClosed, wireList, doneCount, isDone, hid, hne, hne']

/-- **C21 violated when two outstanding requests share an id**: the second is never completed. -/
theorem c21_shared_id_violated (ids : Nat → Nat) (r r' : Nat) (hne : r ≠ r') (hid : ids r = ids r') :
    let s := run ids init [.send r true, .send r' true, .message (ids r), .timeout r true,
      .timeout r' true, .codecClosed]
    doneCount r s.base.acts = 1 ∧ doneCount r' s.base.acts = 0 ∧ s.prog = [] := by
  have hne' : r' ≠ r := fun h => hne h.symm
  simp [run, step, sendReq, insertIfAbsent, eraseKey, init, Base.init, Base.handle, Base.submit,
    Base.wire, Base.failAll, Base.notifyClosed, wireList, doneCount, isDone, hid, hne, hne']

/-- **C21 violated after shutdown**: a request whose send task runs after the channel was shut down
is completed towards nobody; the caller is never told. -/
theorem c21_late_send_violated (ids : Nat → Nat) (r : Nat) :
    (run ids init [.shutdown, .send r false]).base.acts =
      [.submit r false, .done r .broken .dropped] := by
  simp [run, step, sendReq, init, Base.init, Base.handle, Base.submit, Base.failAll]

/-! ### The hypotheses are met -/

example : Scope (fun r => r + 100)
    [.send 1 true, .heartbeat 2 true, .send 3 false, .send 4 true, .message 101, .timeout 1 true,
     .message 999, .message 102, .codecClosed, .timeout 4 false, .shutdown, .codecClosed, .message 5] := by
  constructor <;> decide

example : (run (fun r => r + 100) init
    [.send 1 true, .heartbeat 2 true, .send 3 false, .send 4 true, .message 101, .timeout 1 true,
     .message 999, .message 102, .codecClosed, .timeout 4 false, .shutdown]).base.acts.filter
      (fun a => match a with | .done _ _ _ => true | _ => false) =
    [.done 3 .broken .user, .done 1 (.response 101) .user, .done 2 (.response 102) .heartbeat,
     .done 4 .broken .user] := by decide

end Ltio.Client.Async
