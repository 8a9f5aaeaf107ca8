import Verif.Net.Link
import Verif.Http.ConnectionTls
/-
Requests and responses through a client's channel over an HTTP/1 or HTTPS connection (C185, C186): Client/Ordered.lean over the
connections of Connection.lean and ConnectionTls.lean.
-/
namespace Ltio.Client.Ordered.Web
open Ltio.Text Ltio.Http.Conn
open Ltio.Http (Req)

/-- What the caller of a request is to be given: `g` is what the client's codec handed on of a message the server sent in answer to what it was
handed on of the request. -/
def AnswerTo (Ans : M → Got → Prop) (r : Req) (g : Got) : Prop := ∃ m q, Arrived m g ∧ Ans m q ∧ Arrived (.inl r) q

section
variable {τ : Type} (t : Bool → Tok τ) (ht : ∀ i, (t i).Meets i) (Zg Zd : Gzip.Zlib) (host : Str)

/-- The connection, over TCP. -/
def tcp : Link (Net.E2E.Pair (τ × HSt) Got M) (Net.E2E.POp M) M Got (List (List Net.WRes)) := Net.E2E.link (codecs t (unzip Zg Zd)) (pieces Zg Zd host)

/-- … over TLS. -/
def tls : Link (Net.Ssl.E2E.Pair (τ × HSt) Got M) (Net.Ssl.E2E.POp M) M Got Unit := Net.Ssl.E2E.link (codecs t (unzip Zg Zd)) (pieces Zg Zd host)

include ht in
theorem tcp_lawful : (tcp t Zg Zd host).Lawful (Ok Zg Zd host) Arrived :=
  Net.E2E.link_lawful _ _ _ _ (fun ops hok => c169_prefix t ht ops hok)

include ht in
theorem tls_lawful : (tls t Zg Zd host).Lawful (Ok Zg Zd host) Arrived :=
  Net.Ssl.E2E.link_lawful _ _ _ _ (fun ops hok => Http.ConnTls.c173_prefix t ht ops hok)

variable {Zg Zd host}

include ht in
/-- **C185, over TCP.** For every user of a client's channel on an HTTP connection, every server that answers the requests it is handed on in their order,
every network, every error, time-out and close: a request that ends with a response ends with the server's answer to this very request; and
every message handed on by the client's codec completes exactly one request. -/
theorem c185_own_answer (Ans : M → Got → Prop) (req : Nat → Req) (hreq : ∀ r, OkReq Zg host (req r))
    (ops : List (Op (Net.E2E.POp M) (List (List Net.WRes)))) (hok : OkOps (tcp t Zg Zd host) (Ok Zg Zd host) ops)
    (ha : InOrder (tcp t Zg Zd host) (fun r => .inl (req r)) Ans ops) :
    ∃ st, run (tcp t Zg Zd host) (fun r => .inl (req r)) (init (tcp t Zg Zd host)) ops = some st ∧
      (respList st.chan.base.acts).length = (st.link.e false).got.length ∧
      ∀ r j v, .done r (.response j) v ∈ st.chan.base.acts → (wireList st.chan.base.acts)[j]? = some r ∧
        ∃ g, (st.link.e false).got[j]? = some g ∧ AnswerTo Ans (req r) g := by
  obtain ⟨st, h1, h2, h3⟩ := own_answers (tcp_lawful t ht Zg Zd host) (req := fun r => (.inl (req r) : M)) (fun r => (hreq r : Ok Zg Zd host false (.inl (req r)))) ops hok ha
  refine ⟨st, h1, h2, ?_⟩
  intro r j v hd
  obtain ⟨h4, g, m, q, h5, h6, h7, h8, -⟩ := h3 r j (List.mem_filterMap.2 ⟨_, hd, rfl⟩)
  exact ⟨h4, g, h5, m, q, h6, h7, h8⟩

include ht in
/-- **C185, over TLS.** The same on an HTTPS connection. -/
theorem c185_own_answer_tls (Ans : M → Got → Prop) (req : Nat → Req) (hreq : ∀ r, OkReq Zg host (req r))
    (ops : List (Op (Net.Ssl.E2E.POp M) Unit)) (hok : OkOps (tls t Zg Zd host) (Ok Zg Zd host) ops)
    (ha : InOrder (tls t Zg Zd host) (fun r => .inl (req r)) Ans ops) :
    ∃ st, run (tls t Zg Zd host) (fun r => .inl (req r)) (init (tls t Zg Zd host)) ops = some st ∧
      (respList st.chan.base.acts).length = (st.link.e false).got.length ∧
      ∀ r j v, .done r (.response j) v ∈ st.chan.base.acts → (wireList st.chan.base.acts)[j]? = some r ∧
        ∃ g, (st.link.e false).got[j]? = some g ∧ AnswerTo Ans (req r) g := by
  obtain ⟨st, h1, h2, h3⟩ := own_answers (tls_lawful t ht Zg Zd host) (req := fun r => (.inl (req r) : M)) (fun r => (hreq r : Ok Zg Zd host false (.inl (req r)))) ops hok ha
  refine ⟨st, h1, h2, ?_⟩
  intro r j v hd
  obtain ⟨h4, g, m, q, h5, h6, h7, h8, -⟩ := h3 r j (List.mem_filterMap.2 ⟨_, hd, rfl⟩)
  exact ⟨h4, g, h5, m, q, h6, h7, h8⟩

include ht in
/-- **C185.** While the channel has its connection and no end has seen an error: once the server has answered all it was handed on and all of both
directions has been brought over, every request put on the wire has got its response, in order. -/
theorem c185_complete (Ans : M → Got → Prop) (req : Nat → Req) (hreq : ∀ r, OkReq Zg host (req r))
    (ops : List (Op (Net.E2E.POp M) (List (List Net.WRes)))) (hok : OkOps (tcp t Zg Zd host) (Ok Zg Zd host) ops)
    (ha : InOrder (tcp t Zg Zd host) (fun r => .inl (req r)) Ans ops) (st : St (Net.E2E.Pair (τ × HSt) Got M))
    (hrun : run (tcp t Zg Zd host) (fun r => .inl (req r)) (init (tcp t Zg Zd host)) ops = some st) (hup : st.up = true)
    (hb : ∀ i, (st.link.e i).broken = false) (h2 : ∀ i, (st.link.e i).c.out.asString = []) (h3 : ∀ i, st.link.net i = (st.link.e i).c.sock.length)
    (h4 : ∀ i, (st.link.e i).c.peer = []) (hans : (st.link.e true).sent.length = (st.link.e true).got.length) :
    (respList st.chan.base.acts).map Prod.fst = wireList st.chan.base.acts ∧ st.chan.ing = none := by
  obtain ⟨st', e, hI⟩ := run_inv (Ans := Ans) (tcp_lawful t ht Zg Zd host) (req := fun r => (.inl (req r) : M)) (fun r => (hreq r : Ok Zg Zd host false (.inl (req r)))) ops hok ha
  rw [hrun] at e
  simp only [Option.some.injEq] at e
  subst e
  obtain ⟨hops, k1, k2⟩ := hI.core.hist
  have k2' : (Net.E2E.Pair.init (codecs t (unzip Zg Zd))).run (codecs t (unzip Zg Zd)) (pieces Zg Zd host) hops = some st.link :=
    (Net.E2E.link_run _ _ _ _).symm.trans k2
  have hok' : Net.E2E.OkOpsOf (Ok Zg Zd host) hops := by
    intro o ho i m s he
    exact k1 o ho i m (by rw [he]; rfl)
  have c0 := (c169_complete t ht hops hok' st.link k2' false (hb true) (h2 true) (h3 true) (h4 false)).length_eq
  have c1 := (c169_complete t ht hops hok' st.link k2' true (hb false) (h2 false) (h3 false) (h4 true)).length_eq
  simp only [Bool.not_false, Bool.not_true] at c0 c1
  obtain ⟨s1, s2⟩ := hI.sync hup (hb false)
  have hl : (wireList st.chan.base.acts).length = (st.link.e false).got.length := by
    have := congrArg List.length s1
    rw [List.length_map] at this
    have e1 : ((tcp t Zg Zd host).sent st.link false).length = (st.link.e false).sent.length := rfl
    omega
  have hf : (wireList st.chan.base.acts).take ((tcp t Zg Zd host).got st.link false).length = wireList st.chan.base.acts :=
    List.take_of_length_le (Nat.le_of_eq hl)
  rw [hf] at s2
  refine ⟨?_, ?_⟩
  · rw [hI.resp, hf, List.zipIdx_map_fst]
  · cases hi : st.chan.ing with
    | none => rfl
    | some r =>
      rw [hi] at s2
      have := congrArg List.length s2
      simp at this

end

/-! ### A request to a channel whose connection is gone -/

section
variable {P O M E S : Type} (L : Link P O M E S) (req : Nat → M)

/-- The server, the network and the loop: nothing the user does, and no timer. -/
def Outside : Op O S → Prop
  | .link _ | .read _ _ | .gone => True
  | _ => False

theorem outside_chan (ops : List (Op O S)) (ho : ∀ o ∈ ops, Outside o) (st st' : St P) (hup : st.up = false) (h : run L req st ops = some st') :
    st'.chan = st.chan ∧ st'.up = false := by
  induction ops generalizing st with
  | nil => simp only [run, Option.some.injEq] at h; rw [← h]; exact ⟨rfl, hup⟩
  | cons o t ih =>
    simp only [run] at h
    cases hs : step L req st o with
    | none => rw [hs] at h; simp at h
    | some s1 =>
      rw [hs, Option.bind_some] at h
      have h1 : s1.chan = st.chan ∧ s1.up = false := by
        have hO := ho o (by simp)
        cases o with
        | link x =>
          simp only [step] at hs
          split at hs
          · simp only [Option.some.injEq] at hs; rw [← hs]; exact ⟨rfl, hup⟩
          · cases hl : L.step st.link x with
            | none => rw [hl] at hs; simp at hs
            | some p => rw [hl] at hs; simp only [Option.map_some, Option.some.injEq] at hs; rw [← hs]; exact ⟨rfl, hup⟩
        | read x s =>
          simp only [step] at hs
          rw [if_neg (by rw [hup]; simp)] at hs
          simp only [Option.some.injEq] at hs; rw [← hs]; exact ⟨rfl, hup⟩
        | gone =>
          simp only [step] at hs
          rw [if_neg (by rw [hup]; simp)] at hs
          simp only [Option.some.injEq] at hs; rw [← hs]; exact ⟨rfl, hup⟩
        | _ => exact hO.elim
      obtain ⟨a, b⟩ := ih (fun x hx => ho x (by simp [hx])) s1 h1.2 h
      exact ⟨a.trans h1.1, b⟩

/-- **C186 violation.** A channel with no request in it whose connection has closed accepts a request (http_codec_service.cc:130-147 succeeds always): it is
put into the buffer of the closed connection, nothing is sent, and whatever the server, the network and the loop do, the caller hears nothing until the
time-out; then the channel reports its closing a second time. -/
theorem c186_closed_takes_violated (st : St P) (hup : st.up = false) (hi : st.chan.ing = none) (hw : st.chan.waiting = [])
    (hd : st.chan.base.delegate = true) (r : Nat) (hr : ∀ o v, .done r o v ∉ st.chan.base.acts) (hh : st.chan.base.hb ≠ some r) (s : Nat → S) :
    ∃ st1, step L req st (.submit r s) = some st1 ∧ L.sent st1.link false = L.sent st.link false ∧
      ∀ (ops : List (Op O S)), (∀ o ∈ ops, Outside o) → ∀ st2, run L req st1 ops = some st2 →
        (∀ o v, .done r o v ∉ st2.chan.base.acts) ∧
        ∃ st3, step L req st2 (.timeout r true) = some st3 ∧ .done r .timeout .user ∈ st3.chan.base.acts ∧
          st3.chan.base.acts.count .closed = st.chan.base.acts.count .closed + 1 := by
  obtain ⟨p, ⟨b, ing, w⟩, up⟩ := st
  simp only at hup hi hw hd hr hh
  subst hup hi hw
  refine ⟨⟨p, ⟨(b.submit r false).wire r, some r, []⟩, false⟩, ?_, rfl, ?_⟩
  · simp [step, feed, Queued.step, Queued.sendReq, Queued.trySendNext, Queued.trySend]
  · intro ops ho st2 h2
    obtain ⟨hc, -⟩ := outside_chan L req ops ho _ _ rfl h2
    obtain ⟨p2, c2, u2⟩ := st2
    simp only at hc
    subst hc
    have hwl : r ∈ wireList ((b.submit r false).wire r).acts := by
      show r ∈ wireList (b.acts ++ [.submit r false] ++ [.wire r])
      rw [wireList_append]; simp [wireList]
    refine ⟨?_, ⟨p2, ⟨{ b with acts := b.acts ++ [.submit r false] ++ [.wire r] ++ [.done r .timeout .user] ++ [.closed] }, none, []⟩, false⟩, ?_, ?_, ?_⟩
    · intro o v hm
      simp only [Base.submit, Base.wire, List.mem_append, List.mem_singleton, reduceCtorEq, or_false] at hm
      exact hr o v hm
    · simp only [step, if_true, lose, Queued.step]
      rw [if_neg (by simpa using hwl)]
      simp [Base.handle, Base.submit, Base.wire, hh, hd, Queued.failEverything, Base.failAll, Base.notifyClosed]
    · simp
    · simp
end

/-! ### Two requests at once: the second waits for the answer to the first, and each gets its own -/

def demoReqs (r : Nat) : Req := if r = 0 then demoReq 3 else demoReq 5

theorem demoReqs_ok (r : Nat) : OkReq Gzip.stored demoHost (demoReqs r) := by
  unfold demoReqs
  split
  · exact demoReq_ok 3 (by decide) (by decide +kernel)
  · exact demoReq_ok 5 (by decide) (by decide +kernel)

/-- A response whose body is as long as the request's. -/
def demoAns : M → Got → Bool
  | .inr (_, x), q => x.body.length == q.body.length
  | .inl _, _ => false

def demoOps : List (Op (Net.E2E.POp M) (List (List Net.WRes))) :=
  [.submit 0 (fun _ => []), .submit 1 (fun _ => []), .link (.writable false [.ok 999]), .link (.net false 999), .link (.readable true [.data 999]),
   .link (.send true (.inr (demoAccept, demoResp 3)) []), .link (.writable true [.ok 999]), .link (.net true 999), .read (.readable false [.data 999]) (fun _ => []),
   .link (.writable false [.ok 999]), .link (.net false 999), .link (.readable true [.data 999]),
   .link (.send true (.inr (demoAccept, demoResp 5)) []), .link (.writable true [.ok 999]), .link (.net true 999), .read (.readable false [.data 999]) (fun _ => [])]

/-- The hypotheses of C185 are met by it. -/
theorem w_c185 : OkOps (tcp Http.Conn.lazyTok Gzip.stored Gzip.stored demoHost) (Ok Gzip.stored Gzip.stored demoHost) demoOps ∧
    InOrder (tcp Http.Conn.lazyTok Gzip.stored Gzip.stored demoHost) (fun r => .inl (demoReqs r)) (fun m q => demoAns m q = true) demoOps := by
  constructor
  · intro o ho m hm
    simp only [demoOps, List.mem_cons, Op.link.injEq, List.not_mem_nil, or_false, reduceCtorEq, false_or] at ho
    rcases ho with rfl | rfl | rfl | rfl | rfl | rfl | rfl | rfl | rfl | rfl | rfl | rfl <;>
      simp only [tcp, Net.E2E.link, Net.E2E.POp.sends, Option.some.injEq, Prod.mk.injEq, true_and, reduceCtorEq] at hm
    · subst hm; exact demoResp_ok _ 3 (by decide) (by decide +kernel)
    · subst hm; exact demoResp_ok _ 5 (by decide) (by decide +kernel)
  · exact inOrderB_sound demoOps _ (by decide +kernel)

/-- What the two callers get. -/
example : (run (tcp Http.Conn.lazyTok Gzip.stored Gzip.stored demoHost) (fun r => .inl (demoReqs r))
      (init (tcp Http.Conn.lazyTok Gzip.stored Gzip.stored demoHost)) demoOps).map
      (fun st => (respList st.chan.base.acts, (st.link.e false).got.map (fun g => g.body.length), st.chan.ing)) =
    some ([(0, 0), (1, 1)], [3, 5], none) := by
  decide +kernel

/-- The hypotheses of C186's violation are met after the same history, once the connection has closed, by a third request. -/
theorem w_c186 : (run (tcp Http.Conn.lazyTok Gzip.stored Gzip.stored demoHost) (fun r => .inl (demoReqs r))
      (init (tcp Http.Conn.lazyTok Gzip.stored Gzip.stored demoHost)) (demoOps ++ [.gone])).map
      (fun st => ([st.up, st.chan.base.delegate, decide (2 ∈ doneList st.chan.base.acts)], st.chan.waiting, [st.chan.ing, st.chan.base.hb])) =
    some ([false, true, false], [], [none, none]) := by
  decide +kernel

end Ltio.Client.Ordered.Web
