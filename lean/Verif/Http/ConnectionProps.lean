import Verif.Http.Connection
import Mathlib.Data.List.Forall2
/-
HTTP/1 connections: what one end's application is handed is what the other end's application sent (C168, C169).
-/
namespace Ltio.Http.Conn
open Ltio.Text Ltio.Net Ltio.Net.E2E

/-! ### The bytes of a message -/

theorem latin_all {P : Char → Bool} (hP : ∀ c, P c = true → c.toNat < 256) {s : Str} (h : s.all P = true) : ∀ c ∈ s, c.toNat < 256 := by
  intro c hc
  rw [List.all_eq_true] at h
  exact hP c (h c hc)

theorem dec_latin (n : Nat) : ∀ c ∈ dec n, c.toNat < 256 := by
  intro c hc
  have := (dec_digits n c hc).1
  simp only [Char.isDigit, Bool.and_eq_true, decide_eq_true_eq] at this
  have h2 : c.val.toNat ≤ '9'.val.toNat := by exact UInt32.le_iff_toNat_le.1 this.2
  have e : '9'.val.toNat = 57 := by decide
  show c.val.toNat < 256
  omega

theorem field_latin (c : Char) (h : fieldChar c = true) : c.toNat < 256 := by
  unfold fieldChar at h
  simp only [Bool.or_eq_true, beq_iff_eq, Bool.and_eq_true, decide_eq_true_eq] at h
  rcases h with rfl | h
  · decide
  · exact h.1.2

theorem url_latin (c : Char) (h : urlChar c = true) : c.toNat < 256 := by
  unfold urlChar at h
  simp only [Bool.and_eq_true, decide_eq_true_eq] at h
  omega

theorem token_latin (c : Char) (h : tokenChar c = true) : c.toNat < 256 := by
  unfold tokenChar at h
  rw [Bool.or_eq_true] at h
  rcases h with h | h
  · simp only [Char.isAlphanum, Char.isAlpha, Char.isUpper, Char.isLower, Char.isDigit, Bool.or_eq_true, Bool.and_eq_true, decide_eq_true_eq] at h
    have e1 : 'Z'.val.toNat = 90 := by decide
    have e2 : 'z'.val.toNat = 122 := by decide
    have e3 : '9'.val.toNat = 57 := by decide
    show c.val.toNat < 256
    rcases h with (h | h) | h
    · have := UInt32.le_iff_toNat_le.1 h.2; omega
    · have := UInt32.le_iff_toNat_le.1 h.2; omega
    · have := UInt32.le_iff_toNat_le.1 h.2; omega
  · have hall : ∀ c ∈ "!#$%&'*+-.^_`|~".toList, c.toNat < 256 := by decide +kernel
    exact hall c (List.contains_iff_mem.1 h)

theorem methods_latin : ∀ x ∈ methods, ∀ c ∈ x, c.toNat < 256 := by decide +kernel

theorem text_latin {client : Bool} {m : HMsg} (h : m.Sound client) : ∀ c ∈ m.text, c.toNat < 256 := by
  have hline : ∀ c ∈ m.start.line m.minor, c.toNat < 256 := by
    have hs := h.start
    have h1 : ∀ c ∈ " HTTP/1.".toList, c.toNat < 256 := by decide +kernel
    have h2 : ∀ c ∈ "HTTP/1.".toList, c.toNat < 256 := by decide +kernel
    have h3 : ∀ c ∈ [' '], c.toNat < 256 := by decide +kernel
    have h4 := dec_latin m.minor
    cases hst : m.start with
    | req me u =>
      rw [hst] at hs
      have h5 := methods_latin me hs.2.1
      have h6 := latin_all url_latin hs.2.2.2
      unfold Start.line reqLine
      generalize dec m.minor = D at *
      generalize " HTTP/1.".toList = H at *
      intro c hc
      simp only [List.mem_append] at hc
      rcases hc with (((hc | hc) | hc) | hc) | hc
      exacts [h5 c hc, h3 c hc, h6 c hc, h1 c hc, h4 c hc]
    | resp k r =>
      rw [hst] at hs
      have h5 := dec_latin k
      have h6 := latin_all field_latin hs.2.2.2.2
      have e0 : (Start.resp k r).line m.minor = respLine k r m.minor := rfl
      rw [e0]; unfold respLine
      generalize dec m.minor = D at *
      generalize dec k = K at *
      generalize "HTTP/1.".toList = H at *
      intro c hc
      simp only [List.mem_append] at hc
      rcases hc with ((((hc | hc) | hc) | hc) | hc) | hc
      exacts [h2 c hc, h4 c hc, h3 c hc, h5 c hc, h3 c hc, h6 c hc]
  have hcr : ∀ c ∈ crlf, c.toNat < 256 := by decide +kernel
  have hsep : ∀ c ∈ ": ".toList, c.toNat < 256 := by decide +kernel
  have hbody := h.body.1
  unfold HMsg.text
  generalize m.start.line m.minor = L at *
  intro c hc
  rw [List.mem_append, List.mem_append, List.mem_append, List.mem_append] at hc
  rcases hc with (hc | hc) | hc | hc | hc
  · exact hline c hc
  · exact hcr c hc
  · obtain ⟨p, hp, hc⟩ := List.mem_flatMap.1 hc
    have hf := h.fields p hp
    unfold headerLine at hc
    generalize ": ".toList = H at *
    simp only [List.mem_append] at hc
    rcases hc with ((hc | hc) | hc) | hc
    · exact latin_all token_latin hf.name.2 c hc
    · exact hsep c hc
    · exact latin_all field_latin hf.value.1 c hc
    · exact hcr c hc
  · exact hcr c hc
  · exact hbody c hc

/-! ### The codec of a connection -/

variable {τ : Type}

/-- `OnDataReceived` (http_codec_service.cc:67-87, parser_context.h:33-47): the whole buffer goes to llhttp and is consumed.  `none`
stands for an error of the parser too. -/
def codec (t : Tok τ) (z : Unzip) (client : Bool) : Codec (τ × HSt) Got where
  init := (t.init, HSt.init)
  direct := false
  proc := fun st b => (t.exec st.1 (ofB b)).bind (fun x => (hsteps z client st.2 x.2).map (fun y => ((x.1, y.1), y.2, b.length)))

/-- The two ends: `true` is the server. -/
def codecs (t : Bool → Tok τ) (z : Unzip) (i : Bool) : Codec (τ × HSt) Got := codec (t i) z i

section
variable (Zg Zd : Gzip.Zlib) (host : Str)

def handed (i : Bool) (m : M) : List Got := ((wireM Zg Zd host m).got (unzip Zg Zd) i).toList

theorem wire_text {i : Bool} {m : M} (h : Ok Zg Zd host i m) : ofB (wireOf (pieces Zg Zd host) m) = (wireM Zg Zd host m).text := by
  unfold wireOf pieces
  rw [List.flatten_cons, List.flatten_nil, List.append_nil, bytes_eq h]
  exact ofB_toB (text_latin (wireM_sound h))

theorem wires_text {i : Bool} {ms : List M} (h : ∀ m ∈ ms, Ok Zg Zd host i m) :
    ofB (ms.flatMap (wireOf (pieces Zg Zd host))) = (ms.map (wireM Zg Zd host)).flatMap HMsg.text := by
  induction ms with
  | nil => rfl
  | cons m t ih =>
    rw [List.flatMap_cons, ofB_append, wire_text Zg Zd host (h m (by simp)), ih (fun x hx => h x (by simp [hx])), List.map_cons, List.flatMap_cons]

/-- What the parser has done with the first bytes of a stream of messages. -/
theorem read_stream {t : Tok τ} {i : Bool} (ht : t.Meets (!i)) {ms : List M} (h : ∀ m ∈ ms, Ok Zg Zd host i m) {s : List UInt8}
    (hs : s <+: ms.flatMap (wireOf (pieces Zg Zd host))) {cs : List Str} (hc : cs.flatten = ofB s) :
    ∃ st evs p got, t.run cs = some (st, evs) ∧ hsteps (unzip Zg Zd) (!i) HSt.init evs = some (p, got) ∧ got <+: ms.flatMap (handed Zg Zd host (!i)) ∧
      (s = ms.flatMap (wireOf (pieces Zg Zd host)) → got = ms.flatMap (handed Zg Zd host (!i))) := by
  have hsound : ∀ x ∈ ms.map (wireM Zg Zd host), x.Sound (!i) := by
    intro x hx
    obtain ⟨m, hm, rfl⟩ := List.mem_map.1 hx
    exact wireM_sound (h m hm)
  have hpre : cs.flatten <+: (ms.map (wireM Zg Zd host)).flatMap HMsg.text := by
    rw [hc, ← wires_text Zg Zd host h]
    obtain ⟨y, hy⟩ := hs
    exact ⟨ofB y, by rw [← ofB_append, hy]⟩
  obtain ⟨st, evs, fs, r1, r2, r3, r4⟩ := ht _ hsound cs hpre
  have hgot : ∀ x ∈ ms.map (wireM Zg Zd host), x.got (unzip Zg Zd) (!i) = some ((x.got (unzip Zg Zd) (!i)).getD ⟨[], [], 0, 0, false, [], []⟩) := by
    intro x hx
    obtain ⟨m, hm, rfl⟩ := List.mem_map.1 hx
    obtain ⟨g, hg, _⟩ := got_of (h m hm)
    rw [hg]; rfl
  obtain ⟨p, hp⟩ := hsteps_all (unzip Zg Zd) (!i) r2 (fun x hx p hp => ((hsound x hx).fields p hp).name.1)
    (fun x hx hu => by
      have := (hsound x hx).start
      cases hst : x.start with
      | req a b => rw [hst] at this; exact this.1
      | resp a b => rw [hst] at hu; exact absurd rfl hu)
    (fun x => (x.got (unzip Zg Zd) (!i)).getD ⟨[], [], 0, 0, false, [], []⟩) hgot none false []
  have hout : (ms.map (wireM Zg Zd host)).map (fun x => (x.got (unzip Zg Zd) (!i)).getD ⟨[], [], 0, 0, false, [], []⟩) = ms.flatMap (handed Zg Zd host (!i)) := by
    clear hp r1 r2 r3 r4 hpre hsound hs
    induction ms with
    | nil => rfl
    | cons m t ih =>
      rw [List.map_cons, List.map_cons, List.flatMap_cons, ih (fun x hx => h x (by simp [hx])) (fun x hx => hgot x (by simp at hx ⊢; right; exact hx))]
      unfold handed
      rw [hgot (wireM Zg Zd host m) (by simp)]
      rfl
  rw [hout] at hp
  have hinit : HSt.init = ⟨⟨none, false, [], [], []⟩, []⟩ := rfl
  rw [← hinit] at hp
  obtain ⟨p1, o1, q1, q2⟩ := hsteps_prefix (unzip Zg Zd) (!i) r3 hp
  refine ⟨st, evs, p1, o1, r1, q1, q2, ?_⟩
  intro he
  have := r4 (by rw [hc, he, wires_text Zg Zd host h])
  rw [this, hp] at q1
  simp only [Option.some.injEq, Prod.mk.injEq] at q1
  exact q1.2.symm

/-- The parser reads every stream of messages, whatever the pieces. -/
def reads (t : Tok τ) (i : Bool) (ht : t.Meets (!i)) : Reads (codec t (unzip Zg Zd) (!i)) (Ok Zg Zd host i) (pieces Zg Zd host) (handed Zg Zd host (!i)) where
  R := fun s st rest got => rest = [] ∧ ∃ cs evs, cs.flatten = ofB s ∧ t.run cs = some (st.1, evs) ∧
    hsteps (unzip Zg Zd) (!i) HSt.init evs = some (st.2, got)
  init := ⟨rfl, [], [], rfl, rfl, rfl⟩
  step := by
    intro s st rest got x ms hR hms hpre
    obtain ⟨rfl, cs, evs, hc, hr, hh⟩ := hR
    obtain ⟨st', evs', p, got', r1, r2, _, _⟩ := read_stream Zg Zd host ht hms hpre (cs := cs ++ [ofB x]) (by rw [List.flatten_append, hc, ofB_append]; simp)
    have r1' := r1
    unfold Tok.run at r1' hr
    rw [runFrom_append, hr, Option.bind_some] at r1'
    cases he : t.exec st.1 (ofB x) with
    | none => simp [Tok.runFrom, he] at r1'
    | some y =>
      simp only [Tok.runFrom, he, Option.bind_some, Option.map_some, Option.some.injEq, Prod.mk.injEq, List.append_nil] at r1'
      obtain ⟨e1, e2⟩ := r1'
      have r2' := r2
      rw [← e2, hsteps_append, hh, Option.bind_some] at r2'
      cases hy : hsteps (unzip Zg Zd) (!i) st.2 y.2 with
      | none => simp [hy] at r2'
      | some w =>
        simp only [hy, Option.map_some, Option.some.injEq, Prod.mk.injEq] at r2'
        refine ⟨(y.1, w.1), w.2, x.length, ?_, by simp, cs ++ [ofB x], evs', by rw [List.flatten_append, hc, ofB_append]; simp, ?_, ?_⟩
        · simp only [codec, List.nil_append, he, Option.bind_some, hy, Option.map_some]
        · rw [r1, e1]
        · rw [r2, r2'.1, r2'.2]
  pre := by
    intro s st rest got ms hR hms hpre
    obtain ⟨_, cs, evs, hc, hr, hh⟩ := hR
    obtain ⟨st', evs', p, got', r1, r2, r3, _⟩ := read_stream Zg Zd host ht hms hpre hc
    rw [hr] at r1
    simp only [Option.some.injEq, Prod.mk.injEq] at r1
    rw [← r1.2, hh] at r2
    simp only [Option.some.injEq, Prod.mk.injEq] at r2
    rw [r2.2]
    exact r3

theorem prompt (t : Tok τ) (i : Bool) (ht : t.Meets (!i)) : Prompt (reads Zg Zd host t i ht) := by
  intro s st rest got ms hR hms hs
  obtain ⟨_, cs, evs, hc, hr, hh⟩ := hR
  obtain ⟨st', evs', p, got', r1, r2, _, r4⟩ := read_stream Zg Zd host ht hms (s := s) (by rw [hs]; exact List.prefix_refl _) hc
  rw [hr] at r1
  simp only [Option.some.injEq, Prod.mk.injEq] at r1
  rw [← r1.2, hh] at r2
  simp only [Option.some.injEq, Prod.mk.injEq] at r2
  rw [r2.2]
  exact r4 hs

theorem lens (i : Bool) (m : M) (h : Ok Zg Zd host i m) (d : List UInt8) (hd : d ∈ pieces Zg Zd host m) : d.length < 2 ^ 31 := by
  unfold pieces at hd
  rw [List.mem_singleton] at hd
  subst hd
  rw [toB_length]
  cases i with
  | false =>
    cases m with
    | inr x => exact h.elim
    | inl r => exact OkReq.size h
  | true =>
    cases m with
    | inl x => exact h.elim
    | inr x => exact OkResp.size h

end

/-- A message is handed on as it was sent, except that its body may have something after it if the library compressed it with gzip. -/
def Arrived (m : M) (g : Got) : Prop := HeadOk m g ∧ bodyM m <+: g.body ∧ (¬ Gzipped m → g.body = bodyM m)

/-- … exactly as it was sent. -/
def Same (m : M) (g : Got) : Prop := HeadOk m g ∧ g.body = bodyM m

section
variable {Zg Zd : Gzip.Zlib} {host : Str}

/-- What is handed on, message by message. -/
def Full (m : M) (g : Got) : Prop := Arrived m g ∧
  (Gzipped m → (bodyM m).length < 16384 → g.body = bodyM m ++ List.replicate (16384 - (bodyM m).length) nul)

theorem handed_full {i : Bool} {ms : List M} (h : ∀ m ∈ ms, Ok Zg Zd host (!i) m) :
    List.Forall₂ Full ms (ms.flatMap (handed Zg Zd host i)) := by
  induction ms with
  | nil => exact List.Forall₂.nil
  | cons m t ih =>
    obtain ⟨g, hg, h1, h2, h3, h4⟩ := got_of (h m (by simp))
    rw [Bool.not_not] at hg
    have : handed Zg Zd host i m = [g] := by unfold handed; rw [hg]; rfl
    rw [List.flatMap_cons, this]
    exact List.Forall₂.cons ⟨⟨h1, h2, h3⟩, h4⟩ (ih (fun x hx => h x (by simp [hx])))

theorem forall2_prefix {α β : Type} {R : α → β → Prop} {a : List α} {b c : List β} (h : List.Forall₂ R a b) (hp : c <+: b) :
    ∃ d, d <+: a ∧ List.Forall₂ R d c := by
  obtain ⟨x, rfl⟩ := hp
  refine ⟨a.take c.length, List.take_prefix _ _, ?_⟩
  have := List.forall₂_take c.length h
  rwa [List.take_left] at this

variable (t : Bool → Tok τ) (ht : ∀ i, (t i).Meets i)

/-- The two ends' parsers. -/
def readers (i : Bool) : Reads (codecs t (unzip Zg Zd) i) (Ok Zg Zd host (!i)) (pieces Zg Zd host) (handed Zg Zd host i) :=
  match i with
  | false => reads Zg Zd host (t false) true (ht false)
  | true => reads Zg Zd host (t true) false (ht true)

theorem readers_prompt (i : Bool) : Prompt (readers (Zg := Zg) (Zd := Zd) (host := host) t ht i) := by
  cases i with
  | false => exact prompt Zg Zd host (t false) true (ht false)
  | true => exact prompt Zg Zd host (t true) false (ht true)

include ht in
theorem run_ok {ops : List (POp M)} (hok : OkOpsOf (Ok Zg Zd host) ops) : ∃ p : Pair (τ × HSt) Got M,
    (Pair.init (codecs t (unzip Zg Zd))).run (codecs t (unzip Zg Zd)) (pieces Zg Zd host) ops = some p ∧
    (∀ i m, m ∈ (p.e i).sent → Ok Zg Zd host i m) ∧ ∀ i, (p.e i).got <+: (p.e (!i)).sent.flatMap (handed Zg Zd host i) := by
  obtain ⟨p, e, h⟩ := PInv.run (readers (Zg := Zg) (Zd := Zd) (host := host) t ht) (PInv.init (readers t ht)) (lens Zg Zd host) hok
  obtain ⟨p', e', h'⟩ := safe_and_prefix (readers (Zg := Zg) (Zd := Zd) (host := host) t ht) (lens Zg Zd host) hok
  rw [e] at e'
  simp only [Option.some.injEq] at e'
  subst e'
  exact ⟨p, e, fun i m hm => (h.ends i).oks m hm, h'⟩

include ht in
/-- **C169.** At each end of an HTTP/1 connection the messages handed on are those the other end sent, in that order, up to some point,
each with its method, URL or status, version and headers, and with a body that is the sent one, or, if the library compressed it with gzip, begins with
the sent one — whatever is sent and when, however the kernels accept and deliver the bytes, whatever errors occur. -/
theorem c169_prefix (ops : List (POp M)) (hok : OkOpsOf (Ok Zg Zd host) ops) : ∃ p : Pair (τ × HSt) Got M,
    (Pair.init (codecs t (unzip Zg Zd))).run (codecs t (unzip Zg Zd)) (pieces Zg Zd host) ops = some p ∧
    ∀ i, ∃ ms, ms <+: (p.e (!i)).sent ∧ List.Forall₂ Arrived ms (p.e i).got := by
  obtain ⟨p, e, h1, h2⟩ := run_ok t ht hok
  refine ⟨p, e, fun i => ?_⟩
  obtain ⟨ms, m1, m2⟩ := forall2_prefix (handed_full (h1 (!i))) (h2 i)
  exact ⟨ms, m1, m2.imp (fun _ _ h => h.1)⟩

include ht in
/-- **C169.** All of them have been handed on once the sender's buffer is empty, the network has delivered and the receiver has read, if the
sender has seen no error. -/
theorem c169_complete (ops : List (POp M)) (hok : OkOpsOf (Ok Zg Zd host) ops) (p : Pair (τ × HSt) Got M)
    (hrun : (Pair.init (codecs t (unzip Zg Zd))).run (codecs t (unzip Zg Zd)) (pieces Zg Zd host) ops = some p) (i : Bool)
    (h1 : (p.e (!i)).broken = false) (h2 : (p.e (!i)).c.out.asString = []) (h3 : p.net (!i) = (p.e (!i)).c.sock.length)
    (h4 : (p.e i).c.peer = []) : List.Forall₂ Arrived (p.e (!i)).sent (p.e i).got := by
  obtain ⟨p', e, k1, _⟩ := run_ok (Zg := Zg) (Zd := Zd) (host := host) t ht hok
  rw [hrun] at e
  simp only [Option.some.injEq] at e
  subst e
  rw [complete (readers (Zg := Zg) (Zd := Zd) (host := host) t ht) (lens Zg Zd host) hok hrun i (readers_prompt t ht i) h1 h2 h3 h4]
  exact (handed_full (k1 (!i))).imp (fun _ _ h => h.1)

theorem full_progress (ops : List (POp M)) (hok : OkOpsOf (Ok Zg Zd host) ops) (p : Pair (τ × HSt) Got M)
    (hrun : (Pair.init (codecs t (unzip Zg Zd))).run (codecs t (unzip Zg Zd)) (pieces Zg Zd host) ops = some p) (i : Bool)
    (hb : ∀ j, (p.e j).broken = false) (hsz : ((p.e (!i)).sent.flatMap (bytes Zg Zd host)).length < 2 ^ 31) (ht : ∀ i, (t i).Meets i) :
    ∃ p', p.run (codecs t (unzip Zg Zd)) (pieces Zg Zd host) (bringOver p (!i)) = some p' ∧ List.Forall₂ Full (p.e (!i)).sent (p'.e i).got ∧
      (∀ j, (p'.e j).broken = false) ∧ ∀ j, (p'.e j).sent = (p.e j).sent := by
  obtain ⟨p0, e0, k1, _⟩ := run_ok (Zg := Zg) (Zd := Zd) (host := host) t ht hok
  rw [hrun] at e0
  simp only [Option.some.injEq] at e0
  subst e0
  have hl : ((p.e (!i)).sent.flatMap (wireOf (pieces Zg Zd host))).length = ((p.e (!i)).sent.flatMap (bytes Zg Zd host)).length := by
    rw [List.length_flatMap, List.length_flatMap]
    congr 1
    apply List.map_congr_left
    intro m _
    unfold wireOf pieces
    rw [List.flatten_cons, List.flatten_nil, List.append_nil, toB_length]
  obtain ⟨p', q1, q2, q3⟩ := progress (readers (Zg := Zg) (Zd := Zd) (host := host) t ht) (lens Zg Zd host) hok hrun i (readers_prompt t ht i) hb (by rw [hl]; exact hsz)
  refine ⟨p', q1, ?_, q3⟩
  rw [q2]
  exact handed_full (k1 (!i))

/-- **C169.** As long as neither end has seen an error, one write event, the network and one read event bring over all that has been sent. -/
theorem c169_progress (ht : ∀ i, (t i).Meets i) (ops : List (POp M)) (hok : OkOpsOf (Ok Zg Zd host) ops) (p : Pair (τ × HSt) Got M)
    (hrun : (Pair.init (codecs t (unzip Zg Zd))).run (codecs t (unzip Zg Zd)) (pieces Zg Zd host) ops = some p) (i : Bool)
    (hb : ∀ j, (p.e j).broken = false) (hsz : ((p.e (!i)).sent.flatMap (bytes Zg Zd host)).length < 2 ^ 31) :
    ∃ p', p.run (codecs t (unzip Zg Zd)) (pieces Zg Zd host) (bringOver p (!i)) = some p' ∧ List.Forall₂ Arrived (p.e (!i)).sent (p'.e i).got ∧
      (∀ j, (p'.e j).broken = false) ∧ ∀ j, (p'.e j).sent = (p.e j).sent := by
  obtain ⟨p', q1, q2, q3⟩ := full_progress t ops hok p hrun i hb hsz ht
  exact ⟨p', q1, q2.imp (fun _ _ h => h.1), q3⟩

/-! ### Exactly what was sent -/

theorem same_of {a : List M} {b : List Got} (h : List.Forall₂ Arrived a b) (hn : ∀ m ∈ a, ¬ Gzipped m) : List.Forall₂ Same a b := by
  induction h with
  | nil => exact List.Forall₂.nil
  | cons h _ ih => exact List.Forall₂.cons ⟨h.1, h.2.2 (hn _ (by simp))⟩ (ih (fun m hm => hn m (by simp [hm])))

def readersN (i : Bool) : Reads (codecs t (unzip Zg Zd) i) (fun m => Ok Zg Zd host (!i) m ∧ ¬ Gzipped m) (pieces Zg Zd host) (handed Zg Zd host i) :=
  (readers t ht i).weaken (fun _ hm => hm.1)

include ht in
/-- **C168.** Missing: messages the library compresses with gzip, see `c168_gzip_padded_violated`. -/
theorem c168_prefix_partial (ops : List (POp M)) (hok : OkOpsOf (fun i m => Ok Zg Zd host i m ∧ ¬ Gzipped m) ops) : ∃ p : Pair (τ × HSt) Got M,
    (Pair.init (codecs t (unzip Zg Zd))).run (codecs t (unzip Zg Zd)) (pieces Zg Zd host) ops = some p ∧
    ∀ i, ∃ ms, ms <+: (p.e (!i)).sent ∧ List.Forall₂ Same ms (p.e i).got := by
  have hok' : OkOpsOf (Ok Zg Zd host) ops := fun o ho i m s he => (hok o ho i m s he).1
  obtain ⟨p, e, h⟩ := c169_prefix t ht ops hok'
  obtain ⟨p2, e2, h2⟩ := PInv.run (ok := fun i m => Ok Zg Zd host i m ∧ ¬ Gzipped m) (readersN t ht)
    (PInv.init (ok := fun i m => Ok Zg Zd host i m ∧ ¬ Gzipped m) (readersN t ht)) (fun i m hm => lens Zg Zd host i m hm.1) hok
  rw [e] at e2
  simp only [Option.some.injEq] at e2
  subst e2
  refine ⟨p, e, fun i => ?_⟩
  obtain ⟨ms, m1, m2⟩ := h i
  exact ⟨ms, m1, same_of m2 (fun m hm => ((h2.ends (!i)).oks m (m1.subset hm)).2)⟩

/-- **C168.** Missing: as in `c168_prefix_partial`. -/
theorem c168_complete_partial (ht : ∀ i, (t i).Meets i) (ops : List (POp M)) (hok : OkOpsOf (fun i m => Ok Zg Zd host i m ∧ ¬ Gzipped m) ops) (p : Pair (τ × HSt) Got M)
    (hrun : (Pair.init (codecs t (unzip Zg Zd))).run (codecs t (unzip Zg Zd)) (pieces Zg Zd host) ops = some p) (i : Bool)
    (h1 : (p.e (!i)).broken = false) (h2 : (p.e (!i)).c.out.asString = []) (h3 : p.net (!i) = (p.e (!i)).c.sock.length)
    (h4 : (p.e i).c.peer = []) : List.Forall₂ Same (p.e (!i)).sent (p.e i).got := by
  have hok' : OkOpsOf (Ok Zg Zd host) ops := fun o ho i m s he => (hok o ho i m s he).1
  obtain ⟨p2, e2, k2⟩ := PInv.run (ok := fun i m => Ok Zg Zd host i m ∧ ¬ Gzipped m) (readersN t ht)
    (PInv.init (ok := fun i m => Ok Zg Zd host i m ∧ ¬ Gzipped m) (readersN t ht)) (fun i m hm => lens Zg Zd host i m hm.1) hok
  rw [hrun] at e2
  simp only [Option.some.injEq] at e2
  subst e2
  exact same_of (c169_complete t ht ops hok' p hrun i h1 h2 h3 h4) (fun m hm => ((k2.ends (!i)).oks m hm).2)

theorem bufSend_ok {c : Chan} (h : c.out.Inv) (he : c.out.asString = []) {d : List UInt8} (hd : d.length < 2 ^ 31) :
    ∃ c' rv, bufSend c d [] = some (c', rv) ∧ ¬ rv < 0 := by
  obtain ⟨o, e1, e2, e3⟩ := IOBuffer.write_spec c.out h d
  obtain ⟨_, _, _, _, _, i6, _⟩ := handleWrite_spec [] { c with out := o } e2
  unfold bufSend
  rw [e1]
  refine ⟨_, _, rfl, ?_⟩
  intro hc
  rcases i6 hc with h | h
  · simp at h
  · have hl := IOBuffer.asString_length o e2
    rw [e3, he, List.nil_append] at hl
    simp only at h
    omega

/-- The first message of a connection is not too much for the output buffer. -/
theorem first_send {i : Bool} {m : M} (h : Ok Zg Zd host i m) : ∃ p : Pair (τ × HSt) Got M,
    (Pair.init (codecs t (unzip Zg Zd))).run (codecs t (unzip Zg Zd)) (pieces Zg Zd host) [.send i m []] = some p ∧
    (∀ j, (p.e j).broken = false) ∧ (p.e i).sent = [m] := by
  have hlen := lens Zg Zd host i m h (toB (bytes Zg Zd host m)) (by simp [pieces])
  obtain ⟨c', rv, e1, e2⟩ := bufSend_ok (c := Chan.init) IOBuffer.init_inv rfl hlen
  have e3 : sendPieces false Chan.init [] [(toB (bytes Zg Zd host m), [])] = some (c', [.send (toB (bytes Zg Zd host m)) []], false) := by
    have e : sendOne false Chan.init (toB (bytes Zg Zd host m)) [] = some (c', rv) := e1
    rw [sendPieces, e, Option.bind_some, if_neg e2]
    rfl
  refine ⟨(Pair.init (codecs t (unzip Zg Zd))).setE i ⟨c', (codecs t (unzip Zg Zd) i).init, [], [m], false, [.send (toB (bytes Zg Zd host m)) []]⟩, ?_, ?_, ?_⟩
  · have : (Pair.init (codecs t (unzip Zg Zd)) : Pair (τ × HSt) Got M).step (codecs t (unzip Zg Zd)) (pieces Zg Zd host) (.send i m []) =
        some ((Pair.init (codecs t (unzip Zg Zd))).setE i ⟨c', (codecs t (unzip Zg Zd) i).init, [], [m], false, [.send (toB (bytes Zg Zd host m)) []]⟩) := by
      have ez : (pieces Zg Zd host m).zip ([] ++ List.replicate (pieces Zg Zd host m).length []) = [(toB (bytes Zg Zd host m), ([] : List WRes))] := rfl
      have ed : (codecs t (unzip Zg Zd) i).direct = false := rfl
      simp only [Pair.step, Pair.init, ez, ed, e3]
      rfl
    rw [Pair.run, this]
    rfl
  · intro j
    by_cases hj : j = i
    · subst hj; rw [setE_same]
    · rw [setE_other _ hj]; rfl
  · rw [setE_same]

include ht in
/-- **C168, violation.** A body of more than 8096 and less than 16384 bytes that the library compresses with gzip (every such request; every such response to a
client that accepts gzip, as the library's own does by default) is handed on with NUL bytes after it, up to 16384, because
the result of decompression is not cut to its length (gzip_utils.cc:195-239, C102). -/
theorem c168_gzip_padded_violated (i : Bool) (m : M) (h : Ok Zg Zd host i m) (hg : Gzipped m) (hs : (bodyM m).length < 16384) :
    ∃ ops p g, OkOpsOf (Ok Zg Zd host) ops ∧
      (Pair.init (codecs t (unzip Zg Zd))).run (codecs t (unzip Zg Zd)) (pieces Zg Zd host) ops = some p ∧
      (p.e i).sent = [m] ∧ (p.e (!i)).got = [g] ∧ g.body = bodyM m ++ List.replicate (16384 - (bodyM m).length) nul ∧ g.body ≠ bodyM m := by
  obtain ⟨p, e1, e2, e3⟩ := first_send t h
  have hok : OkOpsOf (Ok Zg Zd host) [.send i m []] := by
    intro o ho j x s he
    rw [List.mem_singleton] at ho
    rw [ho] at he
    simp only [POp.send.injEq] at he
    rw [← he.1, ← he.2.1]
    exact h
  have hsz : ((p.e (!(!i))).sent.flatMap (bytes Zg Zd host)).length < 2 ^ 31 := by
    rw [Bool.not_not, e3]
    have := lens Zg Zd host i m h (toB (bytes Zg Zd host m)) (by simp [pieces])
    rw [toB_length] at this
    simpa using this
  obtain ⟨p', q1, q2, q3, q4⟩ := full_progress t [.send i m []] hok p e1 (!i) e2 hsz ht
  rw [Bool.not_not, e3] at q2
  obtain ⟨g, hgot, hf⟩ : ∃ g, (p'.e (!i)).got = [g] ∧ Full m g := by
    generalize (p'.e (!i)).got = l at q2
    cases q2 with
    | cons h t => cases t with
      | nil => exact ⟨_, rfl, h⟩
  refine ⟨[.send i m []] ++ bringOver p (!(!i)), p', g, ?_, ?_, ?_, hgot, hf.2 hg hs, ?_⟩
  · intro o ho j x s he
    rcases List.mem_append.1 ho with ho | ho
    · exact hok o ho j x s he
    · unfold bringOver at ho
      subst he
      simp at ho
  · rw [run_append e1]; exact q1
  · rw [q4, e3]
  · intro hc
    have := congrArg List.length (hf.2 hg hs)
    rw [hc, List.length_append, List.length_replicate] at this
    omega

end


/-! ### A connection -/

def demoHost : Str := "h:80".toList

/-- A request with a header of its own and a body of `n` bytes. -/
def demoReq (n : Nat) : Req := ⟨"POST".toList, "/a?b=1".toList, 1, [("x-k".toList, "v w".toList)], true, List.replicate n 'a'⟩

def demoResp (n : Nat) : Resp := ⟨200, 1, [("server".toList, "s".toList)], true, List.replicate n 'b'⟩

theorem one_stored {k v : Str} (h : FieldSound (k, v)) (h1 : toLower k = k) (h2 : k ≠ "connection".toList)
    (h3 : k ≠ "transfer-encoding".toList ∧ k ≠ "upgrade".toList ∧ k ≠ "proxy-connection".toList) : Stored [(k, v)] := by
  refine ⟨?_, ?_, by simp, ?_, ?_⟩
  · intro p hp; rw [List.mem_singleton] at hp; rw [hp]; exact h
  · intro p hp; rw [List.mem_singleton] at hp; rw [hp]; exact h1
  · intro p hp; rw [List.mem_singleton] at hp; rw [hp]; intro hc; exact absurd hc h2
  · intro p hp; rw [List.mem_singleton] at hp; rw [hp]; exact h3

theorem demo_zips (c : Char) (n : Nat) (hn : n < 2 ^ 30) : Zips Gzip.stored (List.replicate n c) := by
  refine ⟨by decide, by rw [List.length_replicate]; omega, ?_⟩
  show (1 :: toB (List.replicate n c)).length < 2 ^ 31
  rw [List.length_cons, toB_length, List.length_replicate]
  omega

theorem demoReq_ok (n : Nat) (hn : n < 2 ^ 30) (hs : (encodeReq (prepReq (zip Gzip.stored) demoHost (demoReq n))).length < 2 ^ 31) :
    OkReq Gzip.stored demoHost (demoReq n) where
  method := by show "POST".toList ∈ methods; decide +kernel
  url := Or.inr ⟨by show "/a?b=1".toList.head? = some '/'; decide +kernel, by show "/a?b=1".toList.all urlChar = true; decide +kernel⟩
  minor := Nat.le_refl 1
  keep := rfl
  headers := one_stored ⟨⟨by decide +kernel, by decide +kernel⟩, by decide +kernel⟩ (by decide +kernel) (by decide +kernel) (by decide +kernel)
  coding := by
    intro p hp he
    have hp' : p = ("x-k".toList, "v w".toList) := List.mem_singleton.1 hp
    rw [hp'] at he
    exact absurd he (by decide +kernel)
  length := by
    intro p hp he
    have hp' : p = ("x-k".toList, "v w".toList) := List.mem_singleton.1 hp
    rw [hp'] at he
    exact absurd he (by decide +kernel)
  latin := by
    intro c hc
    have hc' : c = 'a' := List.eq_of_mem_replicate hc
    rw [hc']; decide
  zips := demo_zips 'a' n hn
  hostOk := ⟨⟨by decide +kernel, by decide +kernel⟩, by decide +kernel⟩
  size := hs

theorem demoResp_ok (a : Str) (n : Nat) (hn : n < 2 ^ 30) (hs : ((encodeResp (beforeSend (zip Gzip.stored) (zip Gzip.stored) a (demoResp n))).getD []).length < 2 ^ 31) :
    OkResp Gzip.stored Gzip.stored a (demoResp n) where
  code := ⟨by show (200 : Int) ≤ 200; decide, by show known 200 = true; decide +kernel, by intro h; rcases h with h | h <;> exact absurd h (by show (200 : Int) ≠ _; decide)⟩
  minor := Nat.le_refl 1
  keep := rfl
  headers := one_stored ⟨⟨by decide +kernel, by decide +kernel⟩, by decide +kernel⟩ (by decide +kernel) (by decide +kernel) (by decide +kernel)
  coding := by
    intro p hp he
    have hp' : p = ("server".toList, "s".toList) := List.mem_singleton.1 hp
    rw [hp'] at he
    exact absurd he (by decide +kernel)
  length := by
    intro p hp he
    have hp' : p = ("server".toList, "s".toList) := List.mem_singleton.1 hp
    rw [hp'] at he
    exact absurd he (by decide +kernel)
  latin := by
    intro c hc
    have hc' : c = 'b' := List.eq_of_mem_replicate hc
    rw [hc']; decide
  zips := ⟨demo_zips 'b' n hn, demo_zips 'b' n hn⟩
  size := hs

def demoAccept : Str := "gzip, deflate".toList

/-- A request, cut in two by the network, and its response. -/
def demo : List (POp M) :=
  [.send false (.inl (demoReq 3)) [], .writable false [.ok 9], .net false 40, .readable true [.data 99], .writable false [.ok 999], .net false 999,
   .readable true [.data 3, .data 999], .send true (.inr (demoAccept, demoResp 2)) [], .writable true [.ok 999], .net true 999, .readable false [.data 999]]

theorem demo_ok : OkOpsOf (fun i m => Ok Gzip.stored Gzip.stored demoHost i m ∧ ¬ Gzipped m) demo := by
  intro o ho i m s he
  subst he
  simp only [demo, List.mem_cons, POp.send.injEq, List.not_mem_nil, or_false, reduceCtorEq, false_or] at ho
  rcases ho with ⟨rfl, rfl, _⟩ | ⟨rfl, rfl, _⟩
  · exact ⟨demoReq_ok 3 (by decide) (by decide +kernel), fun h => absurd h.1 (by show ¬ 8096 < (List.replicate 3 'a').length; decide)⟩
  · exact ⟨demoResp_ok _ 2 (by decide) (by decide +kernel), fun h => absurd h.1 (by show ¬ 8096 < (List.replicate 2 'b').length; decide)⟩

def seen (p : Option (Pair ((Str) × HSt) Got M)) (i : Bool) : Option (List Got) := p.map (fun p => (p.e i).got)

def strs (l : List (String × String)) : Headers := l.map (fun p => (p.1.toList, p.2.toList))

example : seen ((Pair.init (codecs lazyTok (unzip Gzip.stored Gzip.stored))).run (codecs lazyTok (unzip Gzip.stored Gzip.stored))
      (pieces Gzip.stored Gzip.stored demoHost) demo) true =
    some [⟨"POST".toList, "/a?b=1".toList, 0, 1, true, strs [("x-k", "v w"), ("host", "h:80"), ("connection", "keep-alive"),
      ("accept-encoding", "deflate,gzip"), ("content-length", "3"), ("content-type", "text/plain")], "aaa".toList⟩] := by
  decide +kernel

example : seen ((Pair.init (codecs lazyTok (unzip Gzip.stored Gzip.stored))).run (codecs lazyTok (unzip Gzip.stored Gzip.stored))
      (pieces Gzip.stored Gzip.stored demoHost) demo) false =
    some [⟨[], [], 200, 1, true, strs [("server", "s"), ("connection", "keep-alive"), ("content-length", "2"), ("content-type", "text/plain")], "bb".toList⟩] := by
  decide +kernel

/-- The contract of llhttp can be met: with the reading of Receive.lean's messages as a whole, for both ends. -/
theorem w_c169 : ∀ i, (lazyTok i).Meets i := lazyTok_meets

/-- The hypotheses of C168's violation are met. -/
theorem w_c168 : Ok Gzip.stored Gzip.stored demoHost false (.inl (demoReq 8100)) ∧ Gzipped (.inl (demoReq 8100)) := by
  refine ⟨demoReq_ok 8100 (by decide) (by decide +kernel), ?_, by decide +kernel⟩
  show 8096 < (List.replicate 8100 'a').length
  rw [List.length_replicate]; decide

end Ltio.Http.Conn
