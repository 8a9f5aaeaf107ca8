import Verif.Net.EndToEnd
import Verif.Raw.Props
import Verif.WebSocket.Props
import Verif.Line.Props
import Verif.Client.AsyncProps
import Mathlib.Data.List.Nodup
import Mathlib.Data.List.Induction
/-
The codecs of both ends of a connection (EndToEnd.lean): raw, WebSocket after the handshake, line.
-/
namespace Ltio.Net.E2E
open Ltio.IOBuffer Ltio.Net

/-! ### Codecs that decode as many messages as the buffer holds -/

variable {ε E M : Type}

/-- The loop of `OnDataReceived` (raw_codec_service.h:43-64) around a decoder; `f` is what is done with a message. -/
def ofDecoder (d : Stream.Decoder Byte ε) (f : ε → E) : Codec Unit E :=
  { init := (), direct := true,
    proc := fun _ b => match (d.drain b).rest with
      | none => none
      | some r => some ((), (d.drain b).items.map f, b.length - r.length) }

theorem drain_suffix (d : Stream.Decoder Byte ε) (hsuf : ∀ b e r, d.dec b = .out e r → r <:+ b) (b : List Byte) {k : List Byte}
    (h : (d.drain b).rest = some k) : k <:+ b := by
  induction hn : b.length using Nat.strongRecOn generalizing b with
  | ind n ih =>
    cases hd : d.dec b with
    | more => rw [Stream.drain_more d hd] at h; simp at h; subst h; exact List.suffix_refl _
    | crash => rw [Stream.drain_crash d hd] at h; simp at h
    | out e r =>
      rw [Stream.drain_out d hd] at h
      exact (ih r.length (by have := d.shrinks hd; omega) r h rfl).trans (hsuf _ _ _ hd)

theorem flatMap_single {α β : Type} (g : α → β) (l : List α) : l.flatMap (fun a => [g a]) = l.map g := by
  induction l with
  | nil => rfl
  | cons a t ih => simp [List.flatMap_cons, ih]

/-- Such a codec reads every stream of messages the decoder decodes, promptly. -/
def readsOfDecoder (d : Stream.Decoder Byte ε) (f : ε → E) (hs : d.Stable) (hnil : d.dec [] = .more)
    (hsuf : ∀ b e r, d.dec b = .out e r → r <:+ b) (ok : M → Prop) (pieces : M → List (List Byte)) (item : M → ε)
    (hw : ∀ m, ok m → ∀ x, d.dec (wireOf pieces m ++ x) = .out (item m) x) :
    Reads (ofDecoder d f) ok pieces (fun m => [f (item m)]) where
  R := fun s _ rest got => (d.drain s).rest = some rest ∧ got = (d.drain s).items.map f
  init := by rw [Stream.drain_more d hnil]; exact ⟨rfl, rfl⟩
  step := by
    intro s st rest got x ms hR hms hpre
    obtain ⟨h1, rfl⟩ := hR
    obtain ⟨y, hy⟩ := hpre
    have hall := Stream.drain_concat d (wireOf pieces) item ms (fun m hm => hw m (hms m hm)) []
    rw [List.append_nil, Stream.drain_more d hnil] at hall
    have ha := Stream.drain_append d hs (s ++ x) y
    rw [hy, hall] at ha
    have hb := Stream.drain_append d hs s x
    rw [h1] at hb
    simp only at hb
    cases hc : (d.drain (rest ++ x)).rest with
    | none =>
      rw [hb, hc] at ha
      simp at ha
    | some r' =>
      obtain ⟨pre, hp⟩ := drain_suffix d hsuf _ hc
      refine ⟨(), (d.drain (rest ++ x)).items.map f, (rest ++ x).length - r'.length, ?_, ?_, ?_⟩
      · simp only [ofDecoder, hc]
      · rw [hb, hc]
        congr 1
        rw [← hp]
        simp
      · rw [hb]; simp
  pre := by
    intro s st rest got ms hR hms hpre
    obtain ⟨h1, rfl⟩ := hR
    obtain ⟨y, hy⟩ := hpre
    have hall := Stream.drain_concat d (wireOf pieces) item ms (fun m hm => hw m (hms m hm)) []
    rw [List.append_nil, Stream.drain_more d hnil] at hall
    have ha := Stream.drain_append d hs s y
    rw [hy, hall, h1] at ha
    simp only [Stream.Outcome.mk.injEq, List.append_nil] at ha
    have e : (d.drain s).items.map f ++ (d.drain (rest ++ y)).items.map f = ms.flatMap (fun m => [f (item m)]) := by
      rw [← List.map_append, ← ha.1, List.map_map, flatMap_single]
      rfl
    exact ⟨_, e⟩

theorem readsOfDecoder_prompt (d : Stream.Decoder Byte ε) (f : ε → E) (hs : d.Stable) (hnil : d.dec [] = .more)
    (hsuf : ∀ b e r, d.dec b = .out e r → r <:+ b) (ok : M → Prop) (pieces : M → List (List Byte)) (item : M → ε)
    (hw : ∀ m, ok m → ∀ x, d.dec (wireOf pieces m ++ x) = .out (item m) x) :
    Prompt (readsOfDecoder d f hs hnil hsuf ok pieces item hw) := by
  intro s st rest got ms hR hms hsx
  obtain ⟨_, rfl⟩ := hR
  have hall := Stream.drain_concat d (wireOf pieces) item ms (fun m hm => hw m (hms m hm)) []
  rw [List.append_nil, Stream.drain_more d hnil] at hall
  rw [hsx, hall, flatMap_single]
  simp

/-! ### Raw messages -/

namespace RawPair
open Ltio.Raw (Msg Action Built onMessage)

/-- raw_message.cc:89-95 `EncodeTo`: the header and the content are sent one after the other. -/
def pieces (m : Msg) : List (List Byte) := [m.headerBytes, m.content]

/-- Messages built by the setters, of a size that a channel can send (C08). -/
def Ok (m : Msg) : Prop := Built m ∧ m.content.length < 2 ^ 31

/-- The codecs of the two ends: `true` is the server (raw_codec_service.h:43-64). -/
def codecs (pad : List Byte) (i : Bool) : Codec Unit Action := ofDecoder Raw.decoder (onMessage i true pad)

theorem decode_suffix (b : List Byte) (m : Msg) (r : List Byte) (h : Raw.decoder.dec b = .out m r) : r <:+ b := by
  have h' : Raw.decode b = .out m r := h
  unfold Raw.decode Raw.decodeBody at h'
  split at h'
  · simp at h'
  · split at h'
    · simp at h'
    · split at h'
      · split at h'
        · simp at h'
        · simp only [Stream.Res.out.injEq] at h'
          rw [← h'.2]
          exact (List.drop_suffix _ _).trans (List.drop_suffix _ _)
      · simp only [Stream.Res.out.injEq] at h'
        rw [← h'.2]
        exact List.drop_suffix _ _

theorem wireOf_eq {m : Msg} (h : Ok m) : wireOf pieces m = Raw.wire m := by
  have hsz := h.1.size
  have hl := h.2
  rw [Raw.wire_eq]
  · simp [wireOf, pieces]
  · rw [hsz, UInt64.toNat_ofNat']
    exact Nat.mod_eq_of_lt (by omega)

theorem decode_ok (m : Msg) (h : Ok m) (x : List Byte) : Raw.decoder.dec (wireOf pieces m ++ x) = .out m x := by
  rw [wireOf_eq h]
  exact Raw.decode_wire h.1.pad6 h.1.size h.2 x

def reads (pad : List Byte) (i : Bool) : Reads (codecs pad i) Ok pieces (fun m => [onMessage i true pad m]) :=
  readsOfDecoder Raw.decoder (onMessage i true pad) Raw.decoder_stable rfl decode_suffix Ok pieces (fun m => m) decode_ok

theorem prompt (pad : List Byte) (i : Bool) : Prompt (reads pad i) :=
  readsOfDecoder_prompt Raw.decoder (onMessage i true pad) Raw.decoder_stable rfl decode_suffix Ok pieces (fun m => m) decode_ok

theorem lens (m : Msg) (h : Ok m) (d : List Byte) (hd : d ∈ pieces m) : d.length < 2 ^ 31 := by
  simp only [pieces, List.mem_cons, List.not_mem_nil, or_false] at hd
  rcases hd with rfl | rfl
  · rw [Raw.headerBytes_length h.1.pad6]; omega
  · exact h.2

/-- What each end must have done with the messages: the client hands every message on; the server hands on what is no heartbeat
and answers heartbeats with one of the same id. -/
def expected (pad : List Byte) (i : Bool) (m : Msg) : Action :=
  if i = true ∧ m.code = 0 ∧ m.method = 0xFF then .reply (some (0 :: 0xFF :: pad ++ leBytes 8 0 ++ leBytes 8 m.seq.toNat)) else .deliver m

theorem onMessage_expected (pad : List Byte) (hp : pad.length = 6) (i : Bool) (m : Msg) : onMessage i true pad m = expected pad i m := by
  unfold onMessage expected
  by_cases h : i = true ∧ m.code = 0 ∧ m.method = 0xFF
  · have hh : i = true ∧ m.isHeartbeat = true := ⟨h.1, by simp [Msg.isHeartbeat, Raw.kHeartbeatMethodId, h.2.1, h.2.2]⟩
    rw [if_pos h, if_pos hh]
    simp only [if_true]
    have hb : Built ({ (Msg.create pad).asHeartbeat with seq := m.seq } : Msg) := .setAsyncId _ (.asHeartbeat (.create pad hp))
    have he := Raw.c08_encode _ hb (by simp [Msg.asHeartbeat, Msg.create])
    rw [he]
    simp [Raw.wire, Msg.asHeartbeat, Msg.create, Raw.kHeartbeatMethodId]
  · have hh : ¬ (i = true ∧ m.isHeartbeat = true) := by
      intro hh
      apply h
      have := hh.2
      simp only [Msg.isHeartbeat, Raw.kHeartbeatMethodId, Bool.and_eq_true, beq_iff_eq] at this
      exact ⟨hh.1, this⟩
    rw [if_neg h, if_neg hh, if_pos rfl]

/-- **C157.** At each end of a raw connection the messages handed on are those the other end sent, in that order, none twice and
none changed, up to some point — whatever the two applications send and when, however the kernels accept and deliver the
bytes, whatever errors occur. -/
theorem c157_prefix (pad : List Byte) (hp : pad.length = 6) (ops : List (POp Msg)) (hok : OkOps Ok ops) :
    ∃ p : Pair Unit Action Msg, (Pair.init (codecs pad)).run (codecs pad) pieces ops = some p ∧
      ∀ i, (p.e i).got <+: (p.e (!i)).sent.map (expected pad i) := by
  obtain ⟨p, e, h⟩ := safe_and_prefix (ok := fun _ => Ok) (reads pad) (fun _ => lens) hok
  refine ⟨p, e, fun i => ?_⟩
  have := h i
  rw [flatMap_single] at this
  have he : onMessage i true pad = expected pad i := funext (onMessage_expected pad hp i)
  rw [he] at this
  exact this

/-- **C157.** Everything that was sent has been handed on once the sender's buffer is empty, the network has delivered and the
receiver has read, if the sender has seen no error. -/
theorem c157_complete (pad : List Byte) (hp : pad.length = 6) (ops : List (POp Msg)) (hok : OkOps Ok ops) (p : Pair Unit Action Msg)
    (hrun : (Pair.init (codecs pad)).run (codecs pad) pieces ops = some p) (i : Bool)
    (h1 : (p.e (!i)).broken = false) (h2 : (p.e (!i)).c.out.asString = []) (h3 : p.net (!i) = (p.e (!i)).c.sock.length)
    (h4 : (p.e i).c.peer = []) : (p.e i).got = (p.e (!i)).sent.map (expected pad i) := by
  have := complete (ok := fun _ => Ok) (reads pad) (fun _ => lens) hok hrun i (prompt pad i) h1 h2 h3 h4
  rw [flatMap_single] at this
  have he : onMessage i true pad = expected pad i := funext (onMessage_expected pad hp i)
  rw [he] at this
  exact this

/-- **C157.** As long as neither end has seen an error, one write event, the network and one read event bring over all
that has been sent. -/
theorem c157_progress (pad : List Byte) (hp : pad.length = 6) (ops : List (POp Msg)) (hok : OkOps Ok ops) (p : Pair Unit Action Msg)
    (hrun : (Pair.init (codecs pad)).run (codecs pad) pieces ops = some p) (i : Bool) (hb : ∀ j, (p.e j).broken = false)
    (hsz : ((p.e (!i)).sent.flatMap Raw.wire).length < 2 ^ 31) :
    ∃ p', p.run (codecs pad) pieces (bringOver p (!i)) = some p' ∧ (p'.e i).got = (p.e (!i)).sent.map (expected pad i) ∧
      (∀ j, (p'.e j).broken = false) ∧ ∀ j, (p'.e j).sent = (p.e j).sent := by
  obtain ⟨p0, e0, hinv⟩ := PInv.run (ok := fun _ => Ok) (reads pad) (PInv.init (ok := fun _ => Ok) (reads pad)) (fun _ => lens) hok
  rw [hrun] at e0
  simp only [Option.some.injEq] at e0
  subst e0
  have hoks := (hinv.ends (!i)).oks
  have hw : (p.e (!i)).sent.flatMap (wireOf pieces) = (p.e (!i)).sent.flatMap Raw.wire := by
    generalize (p.e (!i)).sent = l at hoks
    induction l with
    | nil => rfl
    | cons m t ih => rw [List.flatMap_cons, List.flatMap_cons, wireOf_eq (hoks m (by simp)), ih (fun x hx => hoks x (by simp [hx]))]
  obtain ⟨p', q1, q2, q3⟩ := progress (ok := fun _ => Ok) (reads pad) (fun _ => lens) hok hrun i (prompt pad i) hb (by rw [hw]; exact hsz)
  refine ⟨p', q1, ?_, q3⟩
  rw [flatMap_single] at q2
  have he : onMessage i true pad = expected pad i := funext (onMessage_expected pad hp i)
  rw [he] at q2
  exact q2

/-! #### Requests and responses -/

theorem step_sent {p p' : Pair Unit Action Msg} {pad : List Byte} {o : POp Msg} (h : p.step (codecs pad) pieces o = some p') (i : Bool) :
    (p'.e i).sent = (p.e i).sent ∨ ∃ m s, o = .send i m s ∧ (p'.e i).sent = (p.e i).sent ++ [m] := by
  have aux : ∀ (j : Bool) (x : End Unit Action Msg), x.sent = (p.e j).sent → ((p.setE j x).e i).sent = (p.e i).sent := by
    intro j x hx
    by_cases hj : i = j
    · subst hj; rw [setE_same]; exact hx
    · rw [setE_other p hj]
  cases o with
  | send j m s =>
    simp only [Pair.step] at h
    split at h
    · simp only [Option.some.injEq] at h; subst h; exact Or.inl rfl
    · split at h
      · simp at h
      · simp only [Option.some.injEq] at h
        subst h
        by_cases hj : i = j
        · subst hj; rw [setE_same]; exact Or.inr ⟨m, s, rfl, rfl⟩
        · rw [setE_other p hj]; exact Or.inl rfl
  | writable j s =>
    simp only [Pair.step] at h
    split at h
    · simp only [Option.some.injEq] at h; subst h; exact Or.inl rfl
    · split at h
      · simp at h
      · simp only [Option.some.injEq] at h; subst h; exact Or.inl (aux j _ rfl)
  | readable j s =>
    simp only [Pair.step] at h
    split at h
    · simp only [Option.some.injEq] at h; subst h; exact Or.inl rfl
    · split at h
      · simp at h
      · split at h
        · simp at h
        · rename_i x hx
          simp only [Option.some.injEq] at h; subst h
          refine Or.inl (aux j _ ?_)
          unfold End.receive at hx
          split at hx
          · simp only [Option.some.injEq] at hx; subst hx; rfl
          · split at hx
            · simp at hx
            · simp only [Option.some.injEq] at hx; subst hx; rfl
  | net j n =>
    simp only [Pair.step] at h
    split at h
    · simp only [Option.some.injEq] at h; subst h; exact Or.inl rfl
    · split at h
      · simp at h
      · simp only [Option.some.injEq] at h; subst h; exact Or.inl (aux (!j) _ rfl)
  | clobber j e =>
    simp only [Pair.step] at h
    split at h
    · simp only [Option.some.injEq] at h; subst h; exact Or.inl rfl
    · split at h
      · simp at h
      · simp only [Option.some.injEq] at h; subst h; exact Or.inl (aux j _ rfl)

/-- The server sends only answers: whenever it sends `m`, it has got a request `q` of which `m` is an answer. -/
def Answers (pad : List Byte) (Ans : Msg → Msg → Prop) (ops : List (POp Msg)) : Prop :=
  ∀ pre m s post, ops = pre ++ .send true m s :: post → ∀ p, (Pair.init (codecs pad)).run (codecs pad) pieces pre = some p →
    ∃ q ∈ (p.e false).sent.take (p.e true).got.length, Ans m q

theorem sent_answered (pad : List Byte) (Ans : Msg → Msg → Prop) (ops : List (POp Msg)) : Answers pad Ans ops →
    ∀ p, (Pair.init (codecs pad)).run (codecs pad) pieces ops = some p → ∀ m ∈ (p.e true).sent, ∃ q ∈ (p.e false).sent, Ans m q := by
  induction ops using List.reverseRecOn with
  | nil =>
    intro _ p h m hm
    simp only [Pair.run, Option.some.injEq] at h
    subst h
    simp [Pair.init] at hm
  | append_singleton t o ih =>
    intro ha p h m hm
    cases ht : (Pair.init (codecs pad)).run (codecs pad) pieces t with
    | none =>
      exfalso
      have : ∀ (t : List (POp Msg)) (a : Pair Unit Action Msg), a.run (codecs pad) pieces t = none →
          a.run (codecs pad) pieces (t ++ [o]) = none := by
        intro t
        induction t with
        | nil => intro a hh; simp [Pair.run] at hh
        | cons x t ih =>
          intro a hh
          simp only [Pair.run] at hh
          rw [List.cons_append]
          simp only [Pair.run]
          cases hx : a.step (codecs pad) pieces x with
          | none => rfl
          | some a' => rw [hx] at hh; exact ih a' hh
      rw [this t _ ht] at h
      simp at h
    | some p0 =>
      rw [run_append ht] at h
      simp only [Pair.run] at h
      cases hs : p0.step (codecs pad) pieces o with
      | none => rw [hs] at h; simp at h
      | some p1 =>
        rw [hs] at h
        simp only [Option.some.injEq] at h
        subst h
        have hfalse : ∀ q ∈ (p0.e false).sent, q ∈ (p1.e false).sent := by
          intro q hq
          rcases step_sent hs false with e | ⟨_, _, _, e⟩
          · rw [e]; exact hq
          · rw [e]; exact List.mem_append_left _ hq
        have ih' := ih (fun pre m s post e => ha pre m s (post ++ [o]) (by rw [e]; simp)) p0 ht
        rcases step_sent hs true with e | ⟨m', s', rfl, e⟩
        · rw [e] at hm
          obtain ⟨q, q1, q2⟩ := ih' m hm
          exact ⟨q, hfalse q q1, q2⟩
        · rw [e, List.mem_append, List.mem_singleton] at hm
          rcases hm with hm | rfl
          · obtain ⟨q, q1, q2⟩ := ih' m hm
            exact ⟨q, hfalse q q1, q2⟩
          · obtain ⟨q, q1, q2⟩ := ha t m s' [] rfl p0 ht
            exact ⟨q, hfalse q (List.mem_of_mem_take q1), q2⟩

/-- **C158.** If the server sends nothing but answers to requests it has got, an answer carrying the id of its request
(`SendResponse` insists on it), then every message handed on at the client is an answer to a request the client sent with that id;
and if the client's ids are distinct it is an answer to *the* request of that id. -/
theorem c158_answers (pad : List Byte) (hp : pad.length = 6) (Ans : Msg → Msg → Prop) (hid : ∀ m q, Ans m q → m.seq = q.seq)
    (ops : List (POp Msg)) (hok : OkOps Ok ops) (ha : Answers pad Ans ops) (p : Pair Unit Action Msg)
    (hrun : (Pair.init (codecs pad)).run (codecs pad) pieces ops = some p) (m : Msg) (hm : Action.deliver m ∈ (p.e false).got) :
    (∃ q ∈ (p.e false).sent, q.seq = m.seq ∧ Ans m q) ∧
    (((p.e false).sent.map (·.seq)).Nodup → ∀ q ∈ (p.e false).sent, q.seq = m.seq → Ans m q) := by
  obtain ⟨p', e, h⟩ := c157_prefix pad hp ops hok
  rw [hrun] at e
  simp only [Option.some.injEq] at e
  subst e
  have hmem := (h false).subset hm
  rw [List.mem_map] at hmem
  obtain ⟨m', hm', he⟩ := hmem
  have : m' = m := by
    unfold expected at he
    rw [if_neg (by simp)] at he
    simpa using he
  subst this
  obtain ⟨q, q1, q2⟩ := sent_answered pad Ans ops ha p hrun m' hm'
  refine ⟨⟨q, q1, (hid _ _ q2).symm, q2⟩, ?_⟩
  intro hnd q' hq' hs
  have : q' = q := by
    have hs' : q'.seq = q.seq := hs.trans (hid _ _ q2)
    exact List.inj_on_of_nodup_map hnd hq' q1 hs'
  rw [this]; exact q2

/-! #### A client channel on top -/

open Ltio.Client in
theorem failAll_done (l : List Nat) (b : Client.Base) (r : Nat) (i : Nat) (v : Vis) (h : .done r (.response i) v ∈ (b.failAll l).acts) :
    .done r (.response i) v ∈ b.acts := by
  induction l generalizing b with
  | nil => exact h
  | cons x t ih =>
    have := ih _ h
    unfold Client.Base.handle at this
    split at this
    · simpa using this
    · split at this <;> simpa using this

open Ltio.Client in
/-- A request that ended with a response of id `i` did so on a message with this id. -/
theorem response_from (ids : Nat → Nat) (evs : List Async.Ev) (s : Async.St) (r i : Nat) (v : Vis)
    (h : .done r (.response i) v ∈ (Async.run ids s evs).base.acts) : .done r (.response i) v ∈ s.base.acts ∨ .message i ∈ evs := by
  have hdl : ∀ (b : Client.Base) (x : Nat) (o : Client.Outcome), .done r (.response i) v ∈ (b.handle x o).acts →
      .done r (.response i) v ∈ b.acts ∨ o = .response i := by
    intro b x o hh
    unfold Client.Base.handle at hh
    split at hh
    · simp only [List.mem_append, List.mem_singleton, Act.done.injEq] at hh
      rcases hh with hh | hh
      · exact Or.inl hh
      · exact Or.inr hh.2.1.symm
    · split at hh <;>
      · simp only [List.mem_append, List.mem_singleton, Act.done.injEq] at hh
        rcases hh with hh | hh
        · exact Or.inl hh
        · exact Or.inr hh.2.1.symm
  induction evs generalizing s with
  | nil => exact Or.inl h
  | cons e t ih =>
    have h1 := ih (Async.step ids s e) h
    rcases h1 with h1 | h1
    · have hsend : ∀ (s : Async.St) (x : Nat) (ok hb : Bool), .done r (.response i) v ∈ (Async.sendReq ids s x ok hb).base.acts →
          .done r (.response i) v ∈ s.base.acts := by
        intro s x ok hb hh
        unfold Async.sendReq at hh
        split at hh
        · simpa [Client.Base.wire, Client.Base.submit] using hh
        · rcases hdl _ _ _ hh with hh | hh
          · simpa [Client.Base.submit] using hh
          · simp at hh
      cases e with
      | send x ok => exact Or.inl (hsend _ _ _ _ h1)
      | heartbeat x ok =>
        simp only [Async.step] at h1
        split at h1
        · exact Or.inl h1
        · exact Or.inl (hsend { s with base := { s.base with hb := some x } } x ok true h1)
      | timeout x a =>
        simp only [Async.step] at h1
        split at h1
        · exact Or.inl h1
        · split at h1
          · exact Or.inl h1
          · split at h1
            · rcases hdl _ _ _ h1 with hh | hh
              · exact Or.inl hh
              · simp at hh
            · exact Or.inl h1
      | message k =>
        simp only [Async.step] at h1
        split at h1
        · exact Or.inl h1
        · rcases hdl _ _ _ h1 with hh | hh
          · exact Or.inl hh
          · right
            simp only [Client.Outcome.response.injEq] at hh
            subst hh
            exact List.mem_cons_self
      | codecClosed =>
        simp only [Async.step] at h1
        left
        apply failAll_done
        unfold Client.Base.notifyClosed at h1
        split at h1
        · simpa using h1
        · exact h1
      | shutdown =>
        simp only [Async.step] at h1
        exact Or.inl (failAll_done _ _ _ _ _ h1)
    · exact Or.inr (List.mem_cons_of_mem _ h1)

open Ltio.Client in
/-- **C158, the whole path.** A client channel (C21) on the client's end of the connection: if the messages it is told of are those the
codec handed on, and its requests `r` are the messages `req r` the client's end sent, with distinct ids, then a request of the user
that ends with a response ends with an answer of the server to this very request. -/
theorem c158_rpc (pad : List Byte) (hp : pad.length = 6) (Ans : Msg → Msg → Prop) (hid : ∀ m q, Ans m q → m.seq = q.seq)
    (ops : List (POp Msg)) (hok : OkOps Ok ops) (ha : Answers pad Ans ops) (p : Pair Unit Action Msg)
    (hrun : (Pair.init (codecs pad)).run (codecs pad) pieces ops = some p)
    (ids : Nat → Nat) (evs : List Async.Ev) (hsc : Async.Scope ids evs) (req : Nat → Msg)
    (hmsg : ∀ i, Async.Ev.message i ∈ evs → ∃ m, Action.deliver m ∈ (p.e false).got ∧ m.seq.toNat = i)
    (hreq : ∀ q ∈ (p.e false).sent, ∃ r ∈ evs.filterMap Async.reqOf, q = req r ∧ ids r = q.seq.toNat)
    (r : Nat) (ok : Bool) (hr : Async.Ev.send r ok ∈ evs) (i : Nat) (v : Vis)
    (hd : .done r (.response i) v ∈ (Async.run ids Async.init evs).base.acts) :
    ∃ m, Action.deliver m ∈ (p.e false).got ∧ m.seq.toNat = ids r ∧ Ans m (req r) := by
  have h1 := ((Async.c21_exactly_once_partial hsc).1 r ok hr).2 _ _ hd
  have hi := h1.2 i rfl
  rcases response_from ids evs Async.init r i v hd with h2 | h2
  · simp [Async.init, Client.Base.init] at h2
  · obtain ⟨m, hm, hms⟩ := hmsg i h2
    refine ⟨m, hm, by rw [hms, hi], ?_⟩
    obtain ⟨⟨q, q1, q2, q3⟩, _⟩ := c158_answers pad hp Ans hid ops hok ha p hrun m hm
    obtain ⟨r', hr', e1, e2⟩ := hreq q q1
    have : r' = r := by
      apply hsc.distinct r' hr' r (List.mem_filterMap.2 ⟨_, hr, rfl⟩)
      rw [e2, q2, hms, hi]
    rw [this] at e1
    rw [← e1]; exact q3

/-! A request, cut in two by the network, and its answer; then the client has seen the answer to its request. -/

def demoPad : List Byte := [0, 0, 0, 0, 0, 0]
def demoReq : Msg := { ((Msg.create demoPad).setContent [104, 105]) with seq := 7 }
def demoRes : Msg := (Msg.createResponse demoPad demoReq).setContent [33]

theorem demoReq_ok : Ok demoReq := ⟨.setAsyncId _ (.setContent _ (.create _ rfl)), by decide⟩
theorem demoRes_ok : Ok demoRes := ⟨.setContent _ (.response _ _ rfl), by decide⟩

def demoPre : List (POp Msg) :=
  [.send false demoReq [[.ok 9], []], .writable false [.ok 99], .net false 5, .readable true [.data 99], .net false 99,
   .readable true [.data 3, .data 99]]

def demo : List (POp Msg) := demoPre ++ [.send true demoRes [], .writable true [.ok 99], .net true 99, .readable false [.data 99]]

def seen (p : Option (Pair Unit Action Msg)) (i : Bool) : Option (List Action × List Msg × Bool) :=
  p.map (fun p => ((p.e i).got, (p.e i).sent, (p.e i).broken))

example : seen ((Pair.init (codecs demoPad)).run (codecs demoPad) pieces demo) false = some ([.deliver demoRes], [demoReq], false) ∧
    seen ((Pair.init (codecs demoPad)).run (codecs demoPad) pieces demoPre) true = some ([.deliver demoReq], [], false) := by
  constructor <;> decide +kernel

theorem demo_ok : OkOps Ok demo := by
  intro o ho i m s he
  subst he
  simp only [demo, demoPre, List.cons_append, List.nil_append, List.mem_cons, POp.send.injEq, List.not_mem_nil, or_false, reduceCtorEq,
    false_or] at ho
  rcases ho with ⟨_, rfl, _⟩ | ⟨_, rfl, _⟩
  · exact demoReq_ok
  · exact demoRes_ok

theorem split_unique {α : Type} (P : α → Prop) {a b pre post : List α} {x y : α} (ha : ∀ z ∈ a, ¬ P z) (hb : ∀ z ∈ b, ¬ P z) (hy : P y)
    (h : a ++ x :: b = pre ++ y :: post) : pre = a ∧ y = x := by
  induction a generalizing pre with
  | nil =>
    cases pre with
    | nil => simp at h; exact ⟨rfl, h.1.symm⟩
    | cons c t =>
      simp at h
      exact absurd hy (hb y (by rw [h.2]; simp))
  | cons c t ih =>
    cases pre with
    | nil =>
      simp at h
      exact absurd hy (by rw [← h.1]; exact ha c (by simp))
    | cons d u =>
      simp at h
      obtain ⟨rfl, h⟩ := h
      obtain ⟨rfl, h2⟩ := ih (fun z hz => ha z (by simp [hz])) h
      exact ⟨rfl, h2⟩

/-- The hypotheses of `c158_answers` hold of it. -/
theorem demo_answers : Answers demoPad (fun m q => m.seq = q.seq ∧ m.content = [33]) demo := by
  intro pre m s post h p hrun
  obtain ⟨rfl, h2⟩ := split_unique (fun o : POp Msg => ∃ m s, o = .send true m s) (by simp [demoPre]) (by simp) ⟨m, s, rfl⟩ h
  simp only [POp.send.injEq, true_and] at h2
  obtain ⟨rfl, rfl⟩ := h2
  have hd : seen ((Pair.init (codecs demoPad)).run (codecs demoPad) pieces demoPre) true = some ([.deliver demoReq], [], false) := by decide +kernel
  have hd' : seen ((Pair.init (codecs demoPad)).run (codecs demoPad) pieces demoPre) false = some ([], [demoReq], false) := by decide +kernel
  rw [hrun] at hd hd'
  simp only [seen, Option.map_some, Option.some.injEq, Prod.mk.injEq] at hd hd'
  rw [hd.1, hd'.2.1]
  exact ⟨demoReq, by simp, by decide, by decide⟩

/-- … and those of `c158_rpc`, with a channel on which the request is sent and the answer arrives. -/
example : Ltio.Client.Async.Scope (fun _ => 7) [.send 0 true, .message 7] ∧
    Ltio.Client.Act.done 0 (.response 7) .user ∈
      (Ltio.Client.Async.run (fun _ => 7) Ltio.Client.Async.init [.send 0 true, .message 7]).base.acts := by
  refine ⟨⟨by decide, by decide, by decide⟩, by decide⟩

end RawPair

/-! ### WebSocket messages after the handshake -/

namespace WsPair
open Ltio.WebSocket hiding Byte

/-- A message of the application: opcode and payload, and the mask the sender's side uses (clients mask, servers do not). -/
structure WMsg where
  op : Byte
  payload : List Byte
  mask : Option (List Byte)

/-- ws_codec_service.cc:165-208: one frame, written into the output buffer. -/
def pieces (m : WMsg) : List (List Byte) := [wireFrame m.op true ⟨m.payload, m.mask⟩]

/-- No fragment and no CLOSE frame; a mask has four bytes; the size is one that the code computes correctly (C05). -/
def Ok (m : WMsg) : Prop :=
  m.op.toNat < 16 ∧ m.op ≠ WS_OP_CONTINUE ∧ m.op ≠ WS_OP_CLOSE ∧ (∀ k ∈ m.mask, k.length = 4) ∧ m.payload.length + 14 < 2 ^ 31

/-- ws_codec_service.cc:295-311 `OnDataReceived` after the handshake: the parser takes all the bytes. -/
def codec : Codec (Parser × Cur) Out :=
  { init := (Parser.init, none), direct := false,
    proc := fun st b => match receive st.1 st.2 [b] with
      | none => none
      | some (q, c, os) => some ((q, c), os, b.length) }

def toSent (m : WMsg) : Sent := ⟨m.op, ⟨m.payload, m.mask⟩, []⟩

theorem toSent_ok {m : WMsg} (h : Ok m) : (toSent m).Ok := by
  obtain ⟨h1, h2, h3, h4, h5⟩ := h
  refine ⟨h1, h2, h3, ⟨h4, ?_⟩, by simp [toSent]⟩
  simp only [toSent]; omega

theorem toSent_wire (m : WMsg) : (toSent m).wire = wireOf pieces m := by
  simp [toSent, Sent.wire, wireConts, wireOf, pieces]

/-- What has to be done with a message at the other end. -/
def expected (m : WMsg) : List Out := (if m.op = WS_OP_PING then [.sendPong] else []) ++ [.deliver ⟨m.op, m.payload⟩]

theorem lens (m : WMsg) (h : Ok m) (d : List Byte) (hd : d ∈ pieces m) : d.length < 2 ^ 31 := by
  simp only [pieces, List.mem_singleton] at hd
  subst hd
  obtain ⟨h1, h2, h3, h4, h5⟩ := h
  have hm : (m.mask.getD [0,0,0,0]).length = 4 := by
    cases hk : m.mask with
    | none => rfl
    | some k => exact h4 k (by simp [hk])
  have := (c05_frame_size (mkFlags m.op m.mask.isSome true) (m.mask.getD [0,0,0,0]) hm m.payload).1
  unfold wireFrame
  rw [this]
  unfold calcFrameSize
  simp only
  split <;> split <;> (try split) <;> omega

theorem all_read (ms : List WMsg) (hms : ∀ m ∈ ms, Ok m) :
    ∃ q es, execF Parser.init (ms.flatMap (wireOf pieces)) = some (q, es) ∧ onFs none es = some (none, ms.flatMap expected) := by
  obtain ⟨q, _, h⟩ := c07_messages_reassembled_partial (ms.map toSent) (by
    intro x hx
    rw [List.mem_map] at hx
    obtain ⟨m, hm, rfl⟩ := hx
    exact toSent_ok (hms m hm)) [ms.flatMap (wireOf pieces)] (by
    simp only [List.flatten_cons, List.flatten_nil, List.append_nil, List.flatMap_map]
    congr 1)
  rw [receive_eq init_inv] at h
  simp only [List.flatten_cons, List.flatten_nil, List.append_nil] at h
  cases he : execF Parser.init (ms.flatMap (wireOf pieces)) with
  | none => rw [he] at h; simp at h
  | some x =>
    obtain ⟨q', es⟩ := x
    rw [he] at h
    simp only at h
    cases ho : onFs none es with
    | none => rw [ho] at h; simp at h
    | some y =>
      obtain ⟨c, os⟩ := y
      rw [ho] at h
      simp only [Option.some.injEq, Prod.mk.injEq] at h
      obtain ⟨_, rfl, rfl⟩ := h
      refine ⟨q', es, rfl, ?_⟩
      rw [ho, List.flatMap_map]
      congr 2
      congr 1
      funext m
      have e1 : (toSent m).op = m.op := rfl
      have e2 : (toSent m).payload = m.payload := by simp [toSent, Sent.payload]
      rw [e1, e2]; rfl

/-- A prefix of a stream that can be read can be read. -/
theorem prefix_read {s y : List Byte} {q : Parser} {es : List FEvent} {c : Cur} {os : List Out}
    (h1 : execF Parser.init (s ++ y) = some (q, es)) (h2 : onFs none es = some (c, os)) :
    ∃ q' es' c' os', execF Parser.init s = some (q', es') ∧ onFs none es' = some (c', os') ∧ os' <+: os := by
  rw [execF_append init_inv] at h1
  cases he : execF Parser.init s with
  | none => rw [he] at h1; simp [seqF] at h1
  | some x =>
    obtain ⟨q', es'⟩ := x
    rw [he] at h1
    simp only [seqF, Option.map_eq_some_iff] at h1
    obtain ⟨⟨q2, e2⟩, _, h4⟩ := h1
    simp only [Prod.mk.injEq] at h4
    obtain ⟨_, rfl⟩ := h4
    rw [onFs_append] at h2
    cases ho : onFs none es' with
    | none => rw [ho] at h2; simp at h2
    | some z =>
      obtain ⟨c', os'⟩ := z
      rw [ho] at h2
      simp only at h2
      cases ho2 : onFs c' e2 with
      | none => rw [ho2] at h2; simp at h2
      | some w =>
        rw [ho2] at h2
        simp only [Option.some.injEq, Prod.mk.injEq] at h2
        exact ⟨q', es', c', os', rfl, ho, ⟨_, h2.2⟩⟩

def reads : Reads codec Ok pieces expected where
  R := fun s st rest got => rest = [] ∧ ∃ es, execF Parser.init s = some (st.1, es) ∧ onFs none es = some (st.2, got)
  init := ⟨rfl, [], execF_nil _, rfl⟩
  step := by
    intro s st rest got x ms hR hms hpre
    obtain ⟨rfl, es, h1, h2⟩ := hR
    obtain ⟨y, hy⟩ := hpre
    obtain ⟨q, as, a1, a2⟩ := all_read ms hms
    rw [← hy] at a1
    obtain ⟨q', es', c', os', b1, b2, _⟩ := prefix_read a1 a2
    have hinv := execF_inv init_inv s h1
    have b1' := b1
    rw [execF_append init_inv, h1] at b1
    simp only [seqF, Option.map_eq_some_iff] at b1
    obtain ⟨⟨q2, e2⟩, b3, b4⟩ := b1
    simp only [Prod.mk.injEq] at b4
    obtain ⟨rfl, rfl⟩ := b4
    have b2' := b2
    rw [onFs_append, h2] at b2
    simp only at b2
    cases ho : onFs st.2 e2 with
    | none => rw [ho] at b2; simp at b2
    | some w =>
      obtain ⟨c2, o2⟩ := w
      rw [ho] at b2
      simp only [Option.some.injEq, Prod.mk.injEq] at b2
      obtain ⟨rfl, rfl⟩ := b2
      refine ⟨(q2, c2), o2, x.length, ?_, by simp, es ++ e2, b1', b2'⟩
      simp only [codec, List.nil_append]
      rw [receive_eq hinv]
      simp only [List.flatten_cons, List.flatten_nil, List.append_nil, b3, ho]
  pre := by
    intro s st rest got ms hR hms hpre
    obtain ⟨_, es, h1, h2⟩ := hR
    obtain ⟨y, hy⟩ := hpre
    obtain ⟨q, as, a1, a2⟩ := all_read ms hms
    rw [← hy] at a1
    obtain ⟨q', es', c', os', b1, b2, b3⟩ := prefix_read a1 a2
    rw [h1] at b1
    simp only [Option.some.injEq, Prod.mk.injEq] at b1
    obtain ⟨_, rfl⟩ := b1
    rw [h2] at b2
    simp only [Option.some.injEq, Prod.mk.injEq] at b2
    rw [b2.2]; exact b3

theorem prompt : Prompt reads := by
  intro s st rest got ms hR hms hs
  obtain ⟨_, es, h1, h2⟩ := hR
  obtain ⟨q, as, a1, a2⟩ := all_read ms hms
  rw [hs, a1] at h1
  simp only [Option.some.injEq, Prod.mk.injEq] at h1
  obtain ⟨_, rfl⟩ := h1
  rw [h2] at a2
  simp only [Option.some.injEq, Prod.mk.injEq] at a2
  exact a2.2

/-- **C159.** The same for WebSocket messages once the handshake is done: each end is handed the messages the other sent, with their
opcode and payload, in order, unchanged, none twice, up to some point; and a pong is due for exactly the pings. -/
theorem c159_prefix (ops : List (POp WMsg)) (hok : OkOps Ok ops) :
    ∃ p : Pair (Parser × Cur) Out WMsg, (Pair.init (fun _ => codec)).run (fun _ => codec) pieces ops = some p ∧
      ∀ i, (p.e i).got <+: (p.e (!i)).sent.flatMap expected :=
  safe_and_prefix (ok := fun _ => Ok) (fun _ => reads) (fun _ => lens) hok

/-- **C159.** … and to the last one when all has been written, has arrived and has been read. -/
theorem c159_complete (ops : List (POp WMsg)) (hok : OkOps Ok ops) (p : Pair (Parser × Cur) Out WMsg)
    (hrun : (Pair.init (fun _ => codec)).run (fun _ => codec) pieces ops = some p) (i : Bool)
    (h1 : (p.e (!i)).broken = false) (h2 : (p.e (!i)).c.out.asString = []) (h3 : p.net (!i) = (p.e (!i)).c.sock.length)
    (h4 : (p.e i).c.peer = []) : (p.e i).got = (p.e (!i)).sent.flatMap expected :=
  complete (ok := fun _ => Ok) (fun _ => reads) (fun _ => lens) hok hrun i prompt h1 h2 h3 h4

/-- **C159.** … which stays possible as long as neither end has seen an error. -/
theorem c159_progress (ops : List (POp WMsg)) (hok : OkOps Ok ops) (p : Pair (Parser × Cur) Out WMsg)
    (hrun : (Pair.init (fun _ => codec)).run (fun _ => codec) pieces ops = some p) (i : Bool) (hb : ∀ j, (p.e j).broken = false)
    (hsz : ((p.e (!i)).sent.flatMap (wireOf pieces)).length < 2 ^ 31) :
    ∃ p', p.run (fun _ => codec) pieces (bringOver p (!i)) = some p' ∧ (p'.e i).got = (p.e (!i)).sent.flatMap expected ∧
      (∀ j, (p'.e j).broken = false) ∧ ∀ j, (p'.e j).sent = (p.e j).sent :=
  progress (ok := fun _ => Ok) (fun _ => reads) (fun _ => lens) hok hrun i prompt hb hsz

/-- A masked ping of the client, which the server answers with a pong. -/
def demo : List (POp WMsg) :=
  [.send false ⟨WS_OP_PING, [1, 2, 3], some [9, 8, 7, 6]⟩ [[.ok 2]], .writable false [.ok 99], .net false 4, .readable true [.data 99],
   .net false 99, .readable true [.data 99], .send true ⟨WS_OP_PONG, [], none⟩ [], .writable true [.ok 99], .net true 99, .readable false [.data 99]]

def seen (p : Option (Pair (Parser × Cur) Out WMsg)) (i : Bool) : Option (List Out × Bool) := p.map (fun p => ((p.e i).got, (p.e i).broken))

example : seen ((Pair.init (fun _ => codec)).run (fun _ => codec) pieces demo) true = some ([.sendPong, .deliver ⟨WS_OP_PING, [1, 2, 3]⟩], false) ∧
    seen ((Pair.init (fun _ => codec)).run (fun _ => codec) pieces demo) false = some ([.deliver ⟨WS_OP_PONG, []⟩], false) := by
  constructor <;> decide +kernel

theorem demo_ok : OkOps Ok demo := by
  intro o ho i m s he
  subst he
  simp only [demo, List.mem_cons, POp.send.injEq, List.not_mem_nil, or_false, reduceCtorEq, false_or] at ho
  rcases ho with ⟨_, rfl, _⟩ | ⟨_, rfl, _⟩
  · exact ⟨by decide, by decide, by decide, by simp, by decide⟩
  · exact ⟨by decide, by decide, by decide, by simp, by decide⟩

end WsPair

/-! ### Lines -/

namespace LinePair
open Ltio.Line

/-- line_codec_service.cc:60-69 `SendMessage`. -/
def pieces (l : List Byte) : List (List Byte) := [l, [13, 10]]

/-- No CRLF inside, and of a size that can be sent. -/
def Ok (l : List Byte) : Prop := Plain l ∧ l.length < 2 ^ 31

/-- line_codec_service.cc:34-58 `OnDataReceived`. -/
def codec : Codec Unit (List Byte) :=
  { init := (), direct := true,
    proc := fun _ b => some ((), (onDataReceived b).1, b.length - (onDataReceived b).2.length) }

theorem wireOf_eq (l : List Byte) : wireOf pieces l = sendMessage l := by simp [wireOf, pieces, sendMessage]

theorem lens (l : List Byte) (h : Ok l) (d : List Byte) (hd : d ∈ pieces l) : d.length < 2 ^ 31 := by
  simp only [pieces, List.mem_cons, List.not_mem_nil, or_false] at hd
  rcases hd with rfl | rfl
  · exact h.2
  · decide

theorem onData_cases (b : List Byte) :
    (onDataReceived b = ([], b)) ∨ ∃ l r, Plain l ∧ b = l ++ 13 :: 10 :: r ∧ onDataReceived b = ([l], r) := by
  unfold onDataReceived
  cases h : IOBuffer.searchCRLF b with
  | none => exact Or.inl rfl
  | some i =>
    right
    obtain ⟨pre, post, e, hl, hp, _⟩ := search_some h
    refine ⟨pre, post, hp, e, ?_⟩
    subst e; subst hl
    simp

def reads : Reads codec Ok pieces (fun l => [l]) where
  R := fun s _ rest got => s = got.flatMap sendMessage ++ rest ∧ ∀ l ∈ got, Plain l
  init := ⟨rfl, by simp⟩
  step := by
    intro s st rest got x ms hR _ _
    obtain ⟨rfl, hp⟩ := hR
    rcases onData_cases (rest ++ x) with h | ⟨l, r, hl, e, h⟩
    · refine ⟨(), [], 0, ?_, ?_, ?_⟩
      · simp only [codec, h, Nat.sub_self]
      · simp
      · simpa using hp
    · refine ⟨(), [l], (rest ++ x).length - r.length, ?_, ?_, ?_⟩
      · simp only [codec, h]
      · rw [List.append_assoc, e]
        have : (l ++ 13 :: 10 :: r).length - r.length = l.length + 2 := by simp; omega
        rw [this]
        simp [sendMessage, List.drop_append]
      · intro y hy
        rw [List.mem_append, List.mem_singleton] at hy
        rcases hy with hy | rfl
        · exact hp y hy
        · exact hl
  pre := by
    intro s st rest got ms hR hms hpre
    obtain ⟨rfl, hp⟩ := hR
    obtain ⟨y, hy⟩ := hpre
    have hw : ms.flatMap (wireOf pieces) = ms.flatMap sendMessage := by
      congr 1
    rw [hw, List.append_assoc] at hy
    obtain ⟨u, hu, _⟩ := lines_prefix got ms hp (fun l hl => (hms l hl).1) (rest ++ y) [] (search_none.1 rfl) (by simpa using hy)
    rw [flatMap_single, List.map_id']
    exact ⟨u, hu.symm⟩

/-- **C160 (safety).** On a connection of two line services each application is handed a prefix of the lines the other sent. That all of
them are handed on is false: `c160_stuck_violated`. -/
theorem c160_prefix_partial (ops : List (POp (List Byte))) (hok : OkOps Ok ops) :
    ∃ p : Pair Unit (List Byte) (List Byte), (Pair.init (fun _ => codec)).run (fun _ => codec) pieces ops = some p ∧
      ∀ i, (p.e i).got <+: (p.e (!i)).sent := by
  obtain ⟨p, e, h⟩ := safe_and_prefix (ok := fun _ => Ok) (fun _ => reads) (fun _ => lens) hok
  refine ⟨p, e, fun i => ?_⟩
  have := h i
  rw [flatMap_single, List.map_id'] at this
  exact this

/-- Two lines written together. -/
def demo : List (POp (List Byte)) := [.send false [97] [], .send false [98] [], .writable false [.ok 9], .net false 6, .readable true [.data 9]]

def stuck : Option (Pair Unit (List Byte) (List Byte)) → Bool
  | none => false
  | some p => !(p.e false).broken && !(p.e true).broken && (p.e false).c.out.asString == [] && p.net false == (p.e false).c.sock.length && (p.e true).c.peer == [] &&
      (p.e false).sent == [[97], [98]] && (p.e true).got == [[97]]

/-- **C160, violation.** Two lines arrive together: everything is written, has arrived and has been read without an error, and the
application has the first one only. -/
theorem c160_stuck_violated : OkOps Ok demo ∧ ∃ p, (Pair.init (fun _ => codec)).run (fun _ => codec) pieces demo = some p ∧
    (∀ i, (p.e i).broken = false) ∧ (p.e false).c.out.asString = [] ∧ p.net false = (p.e false).c.sock.length ∧
    (p.e true).c.peer = [] ∧ (p.e false).sent = [[97], [98]] ∧ (p.e true).got = [[97]] := by
  refine ⟨?_, ?_⟩
  · intro o ho i m s he
    subst he
    have hok : ∀ b : Byte, Ok [b] := by
      intro b
      exact ⟨search_none.1 rfl, by simp⟩
    simp only [demo, List.mem_cons, POp.send.injEq, List.not_mem_nil, or_false, reduceCtorEq] at ho
    rcases ho with ⟨_, rfl, _⟩ | ⟨_, rfl, _⟩ <;> exact hok _
  · have h : stuck ((Pair.init (fun _ => codec)).run (fun _ => codec) pieces demo) = true := by decide +kernel
    cases hr : (Pair.init (fun _ => codec)).run (fun _ => codec) pieces demo with
    | none => rw [hr] at h; simp [stuck] at h
    | some p =>
      rw [hr] at h
      simp only [stuck, Bool.and_eq_true, Bool.not_eq_true', beq_iff_eq] at h
      obtain ⟨⟨⟨⟨⟨⟨h1, h0⟩, h2⟩, h3⟩, h4⟩, h5⟩, h6⟩ := h
      exact ⟨p, rfl, fun i => by cases i <;> assumption, h2, h3, h4, h5, h6⟩

end LinePair


end Ltio.Net.E2E
