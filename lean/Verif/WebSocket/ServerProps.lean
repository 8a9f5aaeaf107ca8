import Verif.WebSocket.Server

/-
Further theorems about the WebSocket server connection of Verif.WebSocket.Server: the effect of llhttp's
documented pause after an upgrade request (C115), and when the calls a service sees are not the proper ones
(C116).
-/
namespace Ltio.WebSocket.Server
open Ltio.Text Ltio.Http

/-! ### C115 with llhttp -/

/-- A request that llhttp treats as an upgrade: `Connection: upgrade` and an `Upgrade` header. -/
def isUpgrade (r : Req) : Prop :=
  toLower (getHeader r.headers "Connection".toList) = "upgrade".toList ∧ hasHeader r.headers "Upgrade".toList = true

/-- The documented behaviour of llhttp: after a completed upgrade request `llhttp_execute` returns
HPE_PAUSED_UPGRADE, not HPE_OK (quoted at parser_context.h:58-64). -/
def PausesOnUpgrade (L : LL σ) : Prop := ∀ s d, (∃ r ∈ (L.exec s d).2.1, isUpgrade r) → (L.exec s d).2.2 = false

/-- Clients that conform to RFC 6455: who asks for websocket sends `Connection: Upgrade`. -/
def Conforming (L : LL σ) : Prop := ∀ s d, ∀ r ∈ (L.exec s d).2.1, wantsWebsocket r = true → isUpgrade r

/-- Nobody was ever accepted. -/
def Idle (c : Conn σ) : Prop := (c.installed = true → c.hs ≠ .success) ∧ ∀ x ∈ c.calls, ∃ t, x = .closed t

theorem idle_close (svc : List Str) (c : Conn σ) (h : ∀ x ∈ c.calls, ∃ t, x = Call.closed t) : Idle (c.close svc) := by
  obtain ⟨_, f2, _, _, f5⟩ := close_fields svc c
  refine ⟨fun hi => (by rw [f2] at hi; cases hi), ?_⟩
  rw [f5]
  intro x hx
  rcases List.mem_append.mp hx with hx | hx
  · exact h x hx
  · by_cases hp : c.path ∈ svc
    · rw [if_pos hp] at hx; exact ⟨_, List.mem_singleton.mp hx⟩
    · rw [if_neg hp] at hx; cases hx

theorem idle_handshake (L : LL σ) (hL : PausesOnUpgrade L) (hC : Conforming L) (svc : List Str) (sendOk : Bool)
    (c : Conn σ) (h : Idle c) (hs : c.hs ≠ .success) (data : List Byte) : Idle (c.handshake L svc sendOk data) := by
  obtain ⟨a1, _⟩ := commits_inv sendOk (L.exec c.ll data).2.1 { c with ll := (L.exec c.ll data).1 }
  have a2 := commits_hs sendOk (L.exec c.ll data).2.1 { c with ll := (L.exec c.ll data).1 }
  have key : (L.exec c.ll data).2.2 = true →
      ((L.exec c.ll data).2.1.foldl (Conn.commit sendOk) { c with ll := (L.exec c.ll data).1 }).hs ≠ .success := by
    intro hok
    rw [a2]
    cases hl : (L.exec c.ll data).2.1.getLast? with
    | none => exact hs
    | some r =>
      have hm := List.mem_of_getLast? hl
      have hw : wantsWebsocket r = false := by
        cases hb : wantsWebsocket r with
        | false => rfl
        | true =>
          have := hL c.ll data ⟨r, hm, hC c.ll data r hm hb⟩
          rw [hok] at this
          cases this
      simp [hw]
  unfold Conn.handshake
  simp only []
  simp only [] at a1
  generalize (L.exec c.ll data).2.1.foldl (Conn.commit sendOk) { c with ll := (L.exec c.ll data).1 } = d at a1 key
  split
  · exact idle_close svc _ (by simp only [a1]; exact h.2)
  · rename_i hok
    have hk := key (by simpa using hok)
    split
    · rename_i hd; exact absurd hd hk
    · exact idle_close svc _ (by simp only [a1]; exact h.2)
    · exact ⟨fun _ => hk, by rw [a1]; exact h.2⟩

theorem idle_step (L : LL σ) (hL : PausesOnUpgrade L) (hC : Conforming L) (svc : List Str) (c c' : Conn σ) (i : In)
    (h : Idle c) (hs : c.step L svc i = some c') : Idle c' := by
  cases i with
  | stop => cases hs; exact idle_close svc c h.2
  | event data failed sendOk =>
    unfold Conn.step at hs
    simp only [] at hs
    by_cases hi : c.installed = true
    · rw [if_pos hi] at hs
      by_cases hd : data = []
      · rw [if_pos hd] at hs
        simp only [Option.some.injEq] at hs
        rw [← hs]
        cases failed with
        | true => exact idle_close svc c h.2
        | false => exact h
      · rw [if_neg hd, Conn.onData, if_pos (h.1 hi)] at hs
        have h1 := idle_handshake L hL hC svc sendOk c h (h.1 hi) data
        simp only [Option.some.injEq] at hs
        rw [← hs]
        cases failed with
        | true => exact idle_close svc _ h1.2
        | false => exact h1
    · rw [if_neg hi] at hs
      cases hs
      exact h

/-- **C115 (no client is ever accepted)**: violation.  With llhttp as documented and clients that conform to
RFC 6455, for every set of registered topics and every history of a connection no service is ever opened and
no message is ever delivered. -/
theorem c115_llhttp_violated (L : LL σ) (hL : PausesOnUpgrade L) (hC : Conforming L) (svc : List Str) (is : List In)
    (c : Conn σ) (h : (Conn.init L).run L svc is = some c) : ∀ x ∈ c.calls, ∃ t, x = .closed t := by
  have : ∀ (is : List In) (d : Conn σ), Idle d → d.run L svc is = some c → Idle c := by
    intro is
    induction is with
    | nil => intro d hd hr; cases hr; exact hd
    | cons i is ih =>
      intro d hd hr
      rw [Conn.run] at hr
      cases hs : d.step L svc i with
      | none => rw [hs] at hr; cases hr
      | some d' => rw [hs] at hr; exact ih d' (idle_step L hL hC svc d d' i hd hs) hr
  exact (this is _ ⟨fun _ => by simp [Conn.init], by intro x hx; cases hx⟩ h).2

/-- **C115 (101 and then 400)**: violation.  With llhttp as documented a conforming handshake on a registered
path is answered with a 101, then with a 400; the connection is closed, and the service of the path is told
that a connection it has never seen opened is closed. -/
theorem c115_two_answers_violated (L : LL σ) (hL : PausesOnUpgrade L) (svc : List Str) (data : List Byte) (r : Req)
    (hd : data ≠ []) (he : (L.exec L.start data).2.1 = [r])
    (hw : getHeader r.headers "Upgrade".toList = "websocket".toList)
    (hu : toLower (getHeader r.headers "Connection".toList) = "upgrade".toList) (hp : r.path ∈ svc) :
    ∃ c, (Conn.init L).step L svc (.event data false true) = some c ∧ c.installed = false ∧
      c.sent = [.switching (acceptFor r), .badRequest] ∧ c.calls = [.closed r.path] := by
  have hw' : wantsWebsocket r = true := by unfold wantsWebsocket; rw [hw]; exact beq_self_eq_true _
  have hh : hasHeader r.headers "Upgrade".toList = true := by
    unfold hasHeader
    cases ha : r.headers.any (fun p => p.1 == toLower "Upgrade".toList) with
    | true => rfl
    | false =>
      have : getHeader r.headers "Upgrade".toList = [] := by
        unfold getHeader
        rw [List.find?_eq_none.mpr (by
          intro p hpm hx
          have : r.headers.any (fun p => p.1 == toLower "Upgrade".toList) = true := List.any_eq_true.mpr ⟨p, hpm, hx⟩
          rw [ha] at this
          exact absurd this (by decide))]
      rw [this] at hw
      exact absurd hw (by decide)
  have h2 : (L.exec L.start data).2.2 = false := hL _ _ ⟨r, by rw [he]; simp, hu, hh⟩
  refine ⟨_, by simp only [Conn.step, Conn.init, if_true, if_neg hd, Conn.onData]; rfl, ?_⟩
  simp [Conn.handshake, he, h2, Conn.commit, hw', Conn.close, Conn.closeCall, hp]

/-! ### C116: improper calls -/

/-- A connection that was accepted and has received nothing yet. -/
def Open (svc : List Str) (c : Conn σ) : Prop :=
  c.installed = true ∧ c.hs = .success ∧ c.path ∈ svc ∧ c.parser = Parser.init ∧ c.cur = none ∧ c.calls = [.opened c.path]

/-- Accepted connections are open. -/
theorem accepted_open (L : LL σ) (svc : List Str) (data : List Byte) (r : Req) (hd : data ≠ [])
    (he : (L.exec L.start data).2 = ([r], true)) (hw : getHeader r.headers "Upgrade".toList = "websocket".toList)
    (hp : r.path ∈ svc) : ∃ c, (Conn.init L).step L svc (.event data false true) = some c ∧ Open svc c ∧ c.path = r.path := by
  have hw' : wantsWebsocket r = true := by unfold wantsWebsocket; rw [hw]; exact beq_self_eq_true _
  have h1 : (L.exec L.start data).2.1 = [r] := by rw [he]
  have h2 : (L.exec L.start data).2.2 = true := by rw [he]
  refine ⟨_, by simp only [Conn.step, Conn.init, if_true, if_neg hd, Conn.onData]; rfl, ?_⟩
  simp [Conn.handshake, h1, h2, Conn.commit, hw', Conn.ready, hp, Open]

theorem wireFrame_ne (op : Byte) (fin : Bool) (f : Frag) : wireFrame op fin f ≠ [] := by
  unfold wireFrame buildFrame
  simp only []
  split <;> simp

/-- **C116 (closed twice)**: violation.  A peer that sends a CLOSE frame and closes the connection, both seen
in one socket event, makes the service be told twice that the connection is closed. -/
theorem c116_close_and_eof_violated (L : LL σ) (svc : List Str) (c : Conn σ) (h : Open svc c) (f : Frag) (hf : f.Ok)
    (sendOk : Bool) :
    ∃ d, c.step L svc (.event (wireFrame WS_OP_CLOSE true f) true sendOk) = some d ∧
      d.calls = [.opened c.path, .closed c.path, .closed c.path] := by
  obtain ⟨h1, h2, h3, h4, h5, h6⟩ := h
  obtain ⟨q, cc, hq⟩ := c07_close f hf [wireFrame WS_OP_CLOSE true f] (by simp)
  refine ⟨_, by
    simp only [Conn.step, h1, if_true, if_neg (wireFrame_ne _ _ _), Conn.onData, h2, h4, h5, hq]
    rfl, ?_⟩
  simp [Conn.effect, Conn.close, Conn.closeCall, h3, h6]

/-- **C116 (closed twice by stopping)**: violation.  A connection that has closed but is still in the table
of the service when it is stopped is reported closed a second time. -/
theorem c116_close_and_stop_violated (L : LL σ) (svc : List Str) (c : Conn σ) (h : Open svc c) (sendOk : Bool) :
    ∃ d, c.run L svc [.event [] true sendOk, .stop] = some d ∧
      d.calls = [.opened c.path, .closed c.path, .closed c.path] := by
  obtain ⟨h1, h2, h3, h4, h5, h6⟩ := h
  refine ⟨_, by simp only [Conn.run, Conn.step, h1, if_true]; rfl, ?_⟩
  simp [Conn.close, Conn.closeCall, h3, h6]

/-- **C116 (messages after the closing)**: violation.  What follows a CLOSE frame in the same read is still
delivered, after the service was told that the connection is closed; the payload has that of the CLOSE frame
in front. -/
theorem c116_after_close_violated (L : LL σ) (svc : List Str) (c : Conn σ) (h : Open svc c) (f g : Frag)
    (hf : f.Ok) (hg : g.Ok) (sendOk : Bool) :
    ∃ d, c.step L svc (.event (wireFrame WS_OP_CLOSE true f ++ wireFrame WS_OP_TEXT true g) false sendOk) = some d ∧
      d.calls = [.opened c.path, .closed c.path, .message c.path ⟨WS_OP_TEXT, f.payload ++ g.payload⟩] := by
  obtain ⟨h1, h2, h3, h4, h5, h6⟩ := h
  have hr : ∃ q, receive Parser.init none [wireFrame WS_OP_CLOSE true f ++ wireFrame WS_OP_TEXT true g] =
      some (q, none, [.sendClose, .closeService, .deliver ⟨WS_OP_TEXT, f.payload ++ g.payload⟩]) := by
    obtain ⟨q, q1, q2, q3⟩ := receive_frames init_inv rfl none [⟨WS_OP_CLOSE, true, f⟩, ⟨WS_OP_TEXT, true, g⟩]
      (by
        intro x hx; simp at hx
        rcases hx with rfl | rfl
        · exact ⟨show (8:UInt8).toNat < 16 by decide, hf⟩
        · exact ⟨show (1:UInt8).toNat < 16 by decide, hg⟩)
      [wireFrame WS_OP_CLOSE true f ++ wireFrame WS_OP_TEXT true g] (by simp [Fr.wire])
    refine ⟨q, ?_⟩
    rw [q3]
    simp only [List.flatMap_cons, List.flatMap_nil, List.append_nil, Fr.events]
    rw [onFs_append, onFs_frame _ _ (by decide)]
    simp only [Option.getD_none, if_true]
    simp [WS_OP_CONTINUE, WS_OP_TEXT, WS_OP_CLOSE]
    rw [onFs_frame _ _ (by decide)]
    simp [WS_OP_CONTINUE, WS_OP_TEXT, WS_OP_PING, WS_OP_CLOSE]
  obtain ⟨q, hq⟩ := hr
  refine ⟨_, by
    simp only [Conn.step, h1, if_true, if_neg (List.append_ne_nil_of_left_ne_nil (wireFrame_ne _ _ _) _), Conn.onData, h2, h4, h5, hq]
    rfl, ?_⟩
  simp [Conn.effect, Conn.close, Conn.closeCall, h3, h6]

/-- **C116 (closed but never opened)**: violation.  Two requests in one read, the first a handshake on a
registered path and the second not: the peer gets a 101 and a 400, and the service is told that a connection
it has never seen is closed. -/
theorem c116_never_opened_violated (L : LL σ) (svc : List Str) (data : List Byte) (r r' : Req) (hd : data ≠ [])
    (he : (L.exec L.start data).2 = ([r, r'], true)) (hw : getHeader r.headers "Upgrade".toList = "websocket".toList)
    (hw' : getHeader r'.headers "Upgrade".toList ≠ "websocket".toList) (hp : r.path ∈ svc) :
    ∃ c, (Conn.init L).step L svc (.event data false true) = some c ∧
      c.sent = [.switching (acceptFor r), .badRequest] ∧ c.calls = [.closed r.path] := by
  have h1 : wantsWebsocket r = true := by unfold wantsWebsocket; rw [hw]; exact beq_self_eq_true _
  have h2 : wantsWebsocket r' = false := by unfold wantsWebsocket; exact beq_eq_false_iff_ne.mpr hw'
  have h3 : (L.exec L.start data).2.1 = [r, r'] := by rw [he]
  have h4 : (L.exec L.start data).2.2 = true := by rw [he]
  refine ⟨_, by simp only [Conn.step, Conn.init, if_true, if_neg hd, Conn.onData]; rfl, ?_⟩
  simp [Conn.handshake, h3, h4, Conn.commit, h1, h2, Conn.close, Conn.closeCall, hp]

/-! ### C116: proper calls -/

/-- A step none of the violations above applies to: writing works, a read brings at most one request and
llhttp accepts it, an end of stream comes without data, nothing follows a CLOSE frame in its read, and the
service is stopped only with the connection registered. -/
def Clean (L : LL σ) (c : Conn σ) : In → Prop
  | .event data failed sendOk =>
    c.installed = true → data ≠ [] → failed = false ∧ sendOk = true ∧
      (c.hs ≠ .success → (L.exec c.ll data).2.2 = true ∧ (L.exec c.ll data).2.1.length ≤ 1) ∧
      (c.hs = .success → ∀ p cur outs, receive c.parser c.cur [data] = some (p, cur, outs) →
        ∀ pre post, outs = pre ++ [.closeService] ++ post → post = [])
  | .stop => c.installed = true

/-- Every step of a history is clean. -/
def CleanRun (L : LL σ) (svc : List Str) (c : Conn σ) : List In → Prop
  | [] => True
  | i :: is => Clean L c i ∧ ∀ d, c.step L svc i = some d → CleanRun L svc d is

/-- Invariant of clean histories. -/
def Tidy (svc : List Str) (c : Conn σ) : Prop :=
  Proper c.calls ∧ (c.installed = true →
    (c.hs ≠ .success → c.calls = [] ∧ c.path = [] ∧ c.hs = .none) ∧
    (c.hs = .success → c.path ∈ svc ∧ ∃ ms : List Message, c.calls = .opened c.path :: ms.map (.message c.path)))

theorem tidy_closed (svc : List Str) (c : Conn σ) (h : Proper c.calls) (hi : c.installed = false) : Tidy svc c :=
  ⟨h, fun h' => by rw [hi] at h'; cases h'⟩

theorem tidy_close (svc : List Str) (hne : [] ∉ svc) (c : Conn σ) (h : Tidy svc c) (hi : c.installed = true) :
    Tidy svc (c.close svc) := by
  obtain ⟨_, f2, _, _, f5⟩ := close_fields svc c
  refine tidy_closed svc _ ?_ f2
  rw [f5]
  obtain ⟨hp, hk⟩ := h
  obtain ⟨k1, k2⟩ := hk hi
  by_cases hs : c.hs = .success
  · obtain ⟨hm, ms, hc⟩ := k2 hs
    rw [if_pos hm, hc]
    exact Or.inr ⟨c.path, ms, Or.inr rfl⟩
  · obtain ⟨hc, hpath, _⟩ := k1 hs
    rw [if_neg (by rw [hpath]; exact hne), hc]
    exact Or.inl rfl

theorem tidy_handshake (L : LL σ) (svc : List Str) (hne : [] ∉ svc) (c : Conn σ) (h : Tidy svc c) (hi : c.installed = true)
    (hs : c.hs ≠ .success) (data : List Byte) (hok : (L.exec c.ll data).2.2 = true)
    (hl : (L.exec c.ll data).2.1.length ≤ 1) : Tidy svc (c.handshake L svc true data) := by
  obtain ⟨hc, hpath, hn⟩ := (h.2 hi).1 hs
  unfold Conn.handshake
  simp only [hok, Bool.true_eq_false, if_false]
  cases hr : (L.exec c.ll data).2.1 with
  | nil =>
    simp only [List.foldl_nil, hn]
    refine ⟨by rw [hc]; exact Or.inl rfl, fun _ => ⟨fun _ => ⟨hc, hpath, rfl⟩, fun h' => by cases h'⟩⟩
  | cons r rs =>
    rw [hr] at hl
    have : rs = [] := List.eq_nil_of_length_eq_zero (by simp at hl; simpa using hl)
    subst this
    simp only [List.foldl_cons, List.foldl_nil]
    cases hw : wantsWebsocket r with
    | true =>
      simp only [Conn.commit, hw, if_true, Conn.ready]
      split
      · rename_i hp
        simp only [hc]
        exact ⟨Or.inr ⟨r.path, [], Or.inl rfl⟩, fun _ => ⟨fun h' => absurd rfl h', fun _ => ⟨hp, [], rfl⟩⟩⟩
      · rename_i hp
        refine tidy_closed svc _ ?_ (close_fields svc _).2.1
        rw [(close_fields svc _).2.2.2.2]
        simp only [hc, if_neg hp]
        exact Or.inl rfl
    | false =>
      simp only [Conn.commit, hw, Bool.false_eq_true, if_false]
      refine tidy_closed svc _ ?_ (close_fields svc _).2.1
      rw [(close_fields svc _).2.2.2.2]
      simp only [hc, hpath, if_neg hne]
      exact Or.inl rfl

/-- Effects without a closing, or with one at the end. -/
theorem tidy_effects (svc : List Str) (outs : List Out) (c : Conn σ) (hi : c.installed = true) (hp : c.path ∈ svc)
    (hs : c.hs = .success) (ms : List Message) (hc : c.calls = .opened c.path :: ms.map (.message c.path))
    (hlast : ∀ pre post, outs = pre ++ [Out.closeService] ++ post → post = []) :
    Tidy svc (outs.foldl (Conn.effect svc) c) := by
  induction outs generalizing c ms with
  | nil => exact ⟨by rw [List.foldl_nil, hc]; exact Or.inr ⟨c.path, ms, Or.inl rfl⟩,
      fun _ => ⟨fun h' => absurd hs h', fun _ => ⟨hp, ms, hc⟩⟩⟩
  | cons o outs ih =>
    rw [List.foldl_cons]
    have hl' : ∀ pre post, outs = pre ++ [Out.closeService] ++ post → post = [] := by
      intro pre post e
      exact hlast (o :: pre) post (by rw [e]; simp)
    cases o with
    | deliver m =>
      simp only [Conn.effect, if_pos hp]
      exact ih _ hi hp hs (ms ++ [m]) (by simp [hc]) hl'
    | sendPong => exact ih _ hi hp hs ms hc hl'
    | sendClose => exact ih _ hi hp hs ms hc hl'
    | closeService =>
      have := hlast [] outs (by simp)
      subst this
      rw [List.foldl_nil]
      refine tidy_closed svc _ ?_ (close_fields svc _).2.1
      show Proper (c.close svc).calls
      rw [(close_fields svc _).2.2.2.2, if_pos hp, hc]
      exact Or.inr ⟨c.path, ms, Or.inr rfl⟩

theorem tidy_step (L : LL σ) (svc : List Str) (hne : [] ∉ svc) (c c' : Conn σ) (i : In) (h : Tidy svc c)
    (hcl : Clean L c i) (hs : c.step L svc i = some c') : Tidy svc c' := by
  cases i with
  | stop => cases hs; exact tidy_close svc hne c h hcl
  | event data failed sendOk =>
    unfold Conn.step at hs
    simp only [] at hs
    by_cases hi : c.installed = true
    · rw [if_pos hi] at hs
      by_cases hd : data = []
      · rw [if_pos hd] at hs
        simp only [Option.some.injEq] at hs
        rw [← hs]
        cases failed with
        | true => exact tidy_close svc hne c h hi
        | false => exact h
      · obtain ⟨g1, g2, g3, g4⟩ := hcl hi hd
        subst g1 g2
        rw [if_neg hd, Conn.onData] at hs
        by_cases hss : c.hs = .success
        · rw [if_neg (by simpa using hss)] at hs
          cases hr : receive c.parser c.cur [data] with
          | none => rw [hr] at hs; cases hs
          | some t =>
            obtain ⟨p, cur, outs⟩ := t
            rw [hr] at hs
            simp only [Bool.false_eq_true, if_false, Option.some.injEq] at hs
            rw [← hs]
            obtain ⟨k1, ms, k2⟩ := (h.2 hi).2 hss
            exact tidy_effects svc outs { c with parser := p, cur := cur } hi k1 hss ms k2 (g4 hss p cur outs hr)
        · rw [if_pos hss] at hs
          simp only [Bool.false_eq_true, if_false, Option.some.injEq] at hs
          rw [← hs]
          exact tidy_handshake L svc hne c h hi hss data (g3 hss).1 (g3 hss).2
    · rw [if_neg hi] at hs
      cases hs
      exact h

/-- **C116 (proper calls)**: in every clean history, of any length and with any HTTP parser, the calls are
proper: nothing, or one opening, then messages of the same topic, then possibly one closing. -/
theorem c116_proper_partial (L : LL σ) (svc : List Str) (hne : [] ∉ svc) (is : List In) (c : Conn σ)
    (hc : CleanRun L svc (Conn.init L) is) (h : (Conn.init L).run L svc is = some c) : Proper c.calls := by
  have : ∀ (is : List In) (d : Conn σ), Tidy svc d → CleanRun L svc d is → d.run L svc is = some c → Tidy svc c := by
    intro is
    induction is with
    | nil => intro d hd _ hr; cases hr; exact hd
    | cons i is ih =>
      intro d hd hcl hr
      rw [Conn.run] at hr
      cases hs : d.step L svc i with
      | none => rw [hs] at hr; cases hr
      | some d' => rw [hs] at hr; exact ih d' (tidy_step L svc hne d d' i hd hcl.1 hs) (hcl.2 d' hs) hr
  exact (this is _ ⟨Or.inl rfl, fun _ => ⟨fun _ => ⟨rfl, rfl, rfl⟩, fun h' => by simp [Conn.init] at h'⟩⟩ hc h).1

/-- **C116 (closed connections stay closed)**: once a connection is closed, events no longer reach it. -/
theorem c116_closed_final (L : LL σ) (svc : List Str) (c : Conn σ) (h : c.installed = false) (is : List In)
    (hns : .stop ∉ is) : c.run L svc is = some c := by
  induction is with
  | nil => rfl
  | cons i is ih =>
    cases i with
    | stop => exact absurd List.mem_cons_self hns
    | event data failed sendOk =>
      have : c.step L svc (.event data failed sendOk) = some c := by simp [Conn.step, h]
      rw [Conn.run, this]
      exact ih (fun hm => hns (List.mem_cons_of_mem _ hm))

/-! ### Examples -/

/-- A parser that completes one handshake for "/chat" with the first read, without pausing. -/
def demoReq : Req := ⟨[("upgrade".toList, "websocket".toList), ("connection".toList, "Upgrade".toList),
  ("sec-websocket-key".toList, "dGhlIHNhbXBsZSBub25jZQ==".toList)], "/chat".toList⟩

def demoLL (pause : Bool) : LL Bool := ⟨false, fun s _ => (true, if s then [] else [demoReq], s || !pause)⟩

/-- The documented llhttp exists in the model, and its clients conform. -/
example : PausesOnUpgrade (demoLL true) ∧ Conforming (demoLL true) := by
  constructor
  · intro s d h
    cases s with
    | false => rfl
    | true => obtain ⟨r, hr, _⟩ := h; simp [demoLL] at hr
  · intro s d r hr hw
    cases s with
    | false =>
      have : r = demoReq := by simpa [demoLL] using hr
      subst this
      exact ⟨by decide +kernel, by decide +kernel⟩
    | true => simp [demoLL] at hr

/-- The hypotheses of the accepting and refusing theorems are met. -/
example : ((demoLL false).exec (demoLL false).start [71]).2 = ([demoReq], true) ∧
    getHeader demoReq.headers "Upgrade".toList = "websocket".toList ∧
    toLower (getHeader demoReq.headers "Connection".toList) = "upgrade".toList ∧
    (∀ b ∈ bytesOf (getHeader demoReq.headers "Sec-WebSocket-Key".toList), b ≠ 0) := by
  refine ⟨rfl, by decide +kernel, by decide +kernel, by decide +kernel⟩

/-- A history: handshake, a text message, end of stream. -/
example : ((Conn.init (demoLL false)).run (demoLL false) ["/chat".toList]
      [.event [71] false true, .event [0x81, 0x02, 0x68, 0x69] false true, .event [] true true]).map (·.calls) =
    some [.opened "/chat".toList, .message "/chat".toList ⟨WS_OP_TEXT, [0x68, 0x69]⟩, .closed "/chat".toList] := by
  decide +kernel

/-- It is clean. -/
example : CleanRun (demoLL false) ["/chat".toList] (Conn.init (demoLL false))
    [.event [71] false true, .event [0x81, 0x02, 0x68, 0x69] false true, .event [] true true] := by
  obtain ⟨c, h1, ⟨o1, o2, o3, o4, o5, o6⟩, _⟩ := accepted_open (demoLL false) ["/chat".toList] [71] demoReq (by decide) rfl
    (by decide +kernel) (by decide +kernel)
  refine ⟨fun _ _ => ⟨rfl, rfl, fun _ => ⟨rfl, by decide⟩, fun h => by simp [Conn.init] at h⟩, ?_⟩
  intro d hd
  rw [h1] at hd
  cases hd
  refine ⟨fun _ _ => ⟨rfl, rfl, fun h => absurd o2 h, ?_⟩, fun d _ => ⟨fun _ h => absurd rfl h, fun _ _ => trivial⟩⟩
  intro _ p cur outs hr pre post e
  rw [o4, o5] at hr
  have : (receive Parser.init none [[0x81, 0x02, 0x68, 0x69]]).map (·.2.2) = some [.deliver ⟨WS_OP_TEXT, [0x68, 0x69]⟩] := by
    decide +kernel
  rw [hr] at this
  simp only [Option.map_some, Option.some.injEq] at this
  rw [this] at e
  have hm : Out.closeService ∈ [Out.deliver ⟨WS_OP_TEXT, [0x68, 0x69]⟩] := by rw [e]; simp
  simp at hm

end Ltio.WebSocket.Server
