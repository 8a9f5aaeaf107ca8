import Verif.Http.Receive
import Mathlib.Data.List.Forall2
/-
A tokenizer that meets the contract of Receive.lean: it waits for whole messages.
-/
namespace Ltio.Http.Conn
open Ltio.Text

theorem takeLine_stable (x : Str) : ∀ (s : Str) (p : Str × Str), takeLine s = some p → takeLine (s ++ x) = some (p.1, p.2 ++ x) := by
  intro s
  induction s with
  | nil => intro p h; simp [takeLine] at h
  | cons c t ih =>
    intro p h
    unfold takeLine at h
    rw [List.cons_append]
    unfold takeLine
    split at h
    · rename_i hc
      simp only [Option.some.injEq] at h
      cases t with
      | nil => simp at hc
      | cons d t =>
        have hd : d = '\n' := by simpa using hc.2
        rw [if_pos ⟨hc.1, by simp [hd]⟩, ← h]
        rfl
    · rename_i hc
      cases ht : takeLine t with
      | none => rw [ht] at h; simp at h
      | some q =>
        rw [ht] at h
        simp only [Option.map_some, Option.some.injEq] at h
        have hcx : ¬ (c = '\r' ∧ (t ++ x).head? = some '\n') := by
          intro hh
          cases t with
          | nil => simp [takeLine] at ht
          | cons d t => exact hc ⟨hh.1, by simpa using hh.2⟩
        rw [if_neg hcx, ih q ht, ← h]
        rfl

theorem parseHeaders_stable (x : Str) (s : Str) : ∀ (p : Headers × Str), parseHeaders s = some p → parseHeaders (s ++ x) = some (p.1, p.2 ++ x) := by
  fun_induction parseHeaders s with
  | case1 s h => intro p hp; simp at hp
  | case2 s q h he =>
    intro p hp
    simp only [Option.some.injEq] at hp
    have := takeLine_stable x s q h
    rw [parseHeaders.eq_def]
    split
    · rename_i e; rw [this] at e; simp at e
    · rename_i p' e
      rw [this] at e
      simp only [Option.some.injEq] at e
      rw [← e, if_pos he, ← hp]
  | case3 s q h he hs => intro p hp; simp at hp
  | case4 s q h he kv hs ih =>
    intro p hp
    cases hh : parseHeaders q.2 with
    | none => rw [hh] at hp; simp at hp
    | some w =>
      rw [hh] at hp
      simp only [Option.map_some, Option.some.injEq] at hp
      have := takeLine_stable x s q h
      rw [parseHeaders.eq_def]
      split
      · rename_i e; rw [this] at e; simp at e
      · rename_i p' e
        rw [this] at e
        simp only [Option.some.injEq] at e
        rw [← e, if_neg he]
        simp only [hs, ih w hh, Option.map_some, ← hp]

theorem parseHeaders_le (s : Str) : ∀ (p : Headers × Str), parseHeaders s = some p → p.2.length ≤ s.length := by
  fun_induction parseHeaders s with
  | case1 s h => intro p hp; simp at hp
  | case2 s q h he =>
    intro p hp
    simp only [Option.some.injEq] at hp
    have := takeLine_lt _ _ h
    rw [← hp]; exact Nat.le_of_lt this
  | case3 s q h he hs => intro p hp; simp at hp
  | case4 s q h he kv hs ih =>
    intro p hp
    cases hh : parseHeaders q.2 with
    | none => rw [hh] at hp; simp at hp
    | some w =>
      rw [hh] at hp
      simp only [Option.map_some, Option.some.injEq] at hp
      have := takeLine_lt _ _ h
      have := ih w hh
      rw [← hp]
      simp only
      omega

theorem parseMsg_stable (x s : Str) (m : Str × Headers × Str × Str) (h : parseMsg s = some m) :
    parseMsg (s ++ x) = some (m.1, m.2.1, m.2.2.1, m.2.2.2 ++ x) := by
  unfold parseMsg at h
  split at h
  · simp at h
  · rename_i l hl
    split at h
    · simp at h
    · rename_i w hw
      split at h
      · simp at h
      · rename_i n hn
        split at h
        · rename_i hle
          simp only [Option.some.injEq] at h
          unfold parseMsg
          rw [takeLine_stable x s l hl]
          simp only
          rw [parseHeaders_stable x _ w hw]
          simp only [hn]
          rw [if_pos (by simp; omega), ← h, List.take_append_of_le_length hle, List.drop_append_of_le_length hle]
        · simp at h

theorem parseMsg_lt (s : Str) (m : Str × Headers × Str × Str) (h : parseMsg s = some m) : m.2.2.2.length < s.length := by
  unfold parseMsg at h
  split at h
  · simp at h
  · rename_i l hl
    split at h
    · simp at h
    · rename_i w hw
      split at h
      · simp at h
      · split at h
        · simp only [Option.some.injEq] at h
          have := takeLine_lt _ _ hl
          have := parseHeaders_le _ _ hw
          rw [← h]
          simp only [List.length_drop]
          omega
        · simp at h

/-- Whole messages from a stream. -/
def msgDecoder : Stream.Decoder Char (Str × Headers × Str) where
  dec s := match parseMsg s with
    | none => .more
    | some m => .out (m.1, m.2.1, m.2.2.1) m.2.2.2
  shrinks := by
    intro b e r h
    cases hp : parseMsg b with
    | none => rw [hp] at h; simp at h
    | some m =>
      rw [hp] at h
      simp only [Stream.Res.out.injEq] at h
      rw [← h.2]
      exact parseMsg_lt b m hp

theorem msgDecoder_stable : msgDecoder.Stable := by
  constructor
  · intro b e r x h
    simp only [msgDecoder] at h ⊢
    cases hp : parseMsg b with
    | none => rw [hp] at h; simp at h
    | some m =>
      rw [hp] at h
      simp only [Stream.Res.out.injEq] at h
      rw [parseMsg_stable x b m hp]
      simp only [← h.1, ← h.2]
  · intro b x h
    simp only [msgDecoder] at h
    cases hp : parseMsg b <;> rw [hp] at h <;> simp at h

theorem msgDecoder_rest (s : Str) : ∃ k, (msgDecoder.drain s).rest = some k := by
  induction hn : s.length using Nat.strongRecOn generalizing s with
  | ind n ih =>
    cases hd : msgDecoder.dec s with
    | more => rw [Stream.drain_more _ hd]; exact ⟨_, rfl⟩
    | crash =>
      simp only [msgDecoder] at hd
      cases hp : parseMsg s <;> rw [hp] at hd <;> simp at hd
    | out e r =>
      rw [Stream.drain_out _ hd]
      exact ih r.length (by have := msgDecoder.shrinks hd; omega) r rfl

/-- Text before and after the first space. -/
def upToSpace (s : Str) : Str × Str := (s.takeWhile (· ≠ ' '), (s.dropWhile (· ≠ ' ')).drop 1)

def startOf (client : Bool) (line : Str) : Start × Nat :=
  if client = true then
    (.req (upToSpace line).1 (upToSpace (upToSpace line).2).1, (readDec ((upToSpace (upToSpace line).2).2.drop 7)).getD 0)
  else
    (.resp ((readDec (upToSpace (upToSpace line).2).1).getD 0) (upToSpace (upToSpace line).2).2, (readDec ((upToSpace line).1.drop 7)).getD 0)

/-- A message in one piece. -/
def whole (m : HMsg) : Cut :=
  ⟨if m.start.url = [] then [] else [m.start.url], m.headers.map (fun p => ⟨[p.1], [p.2], by simp, by simp⟩), [m.body]⟩

def evOf (client : Bool) (x : Str × Headers × Str) : List Ev :=
  (whole ⟨(startOf client x.1).1, (startOf client x.1).2, x.2.1, x.2.2⟩).events (HMsg.info ⟨(startOf client x.1).1, (startOf client x.1).2, x.2.1, x.2.2⟩)

/-- The tokenizer. -/
def lazyTok (client : Bool) : Tok Str where
  init := []
  exec kept c := ((msgDecoder.drain (kept ++ c)).rest).map (fun k => (k, (msgDecoder.drain (kept ++ c)).items.flatMap (evOf client)))

theorem lazy_run (client : Bool) (cs : List Str) :
    (lazyTok client).run cs = ((msgDecoder.drain cs.flatten).rest).map (fun k => (k, (msgDecoder.drain cs.flatten).items.flatMap (evOf client))) := by
  induction cs using List.reverseRecOn with
  | nil =>
    have : msgDecoder.dec [] = .more := rfl
    rw [List.flatten_nil, Stream.drain_more _ this]
    rfl
  | append_singleton cs c ih =>
    unfold Tok.run at ih ⊢
    rw [runFrom_append, ih]
    obtain ⟨k, hk⟩ := msgDecoder_rest cs.flatten
    rw [hk, Option.map_some, Option.bind_some]
    simp only [Tok.runFrom, lazyTok]
    have ha := Stream.drain_append _ msgDecoder_stable cs.flatten c
    rw [hk] at ha
    simp only at ha
    have e : (cs ++ [c]).flatten = cs.flatten ++ c := by simp
    rw [e, ha]
    obtain ⟨k', hk'⟩ := msgDecoder_rest (k ++ c)
    simp [hk']

theorem whole_of (m : HMsg) : (whole m).Of m := by
  constructor
  · unfold whole
    simp only
    split <;> simp_all
  · intro h; unfold whole; simp [h]
  · simp [whole, Frag.name, Frag.val, Function.comp_def]
  · simp [whole]

theorem upToSpace_eq (a b : Str) (h : ' ' ∉ a) : upToSpace (a ++ ' ' :: b) = (a, b) := by
  have := takeWhile_free ' ' a b h
  unfold upToSpace
  rw [this.1, this.2]
  rfl

theorem dec_no (n : Nat) (c : Char) (h : c.isDigit = false) : c ∉ dec n := fun hc => by
  have := (dec_digits n c hc).1
  rw [h] at this
  exact absurd this (by decide)

theorem methods_facts : ∀ x ∈ methods, ' ' ∉ x ∧ '\r' ∉ x := by decide +kernel

theorem startOf_line {client : Bool} {m : HMsg} (h : m.Sound client) : startOf client (m.start.line m.minor) = (m.start, m.minor) := by
  have hs := h.start
  cases hst : m.start with
  | req me u =>
    rw [hst] at hs
    obtain ⟨rfl, h1, _, h3⟩ := hs
    have hme : ' ' ∉ me := (methods_facts me h1).1
    have hu : ' ' ∉ u := by
      intro hc
      rw [List.all_eq_true] at h3
      exact absurd (h3 _ hc) (by decide)
    have e1 : (Start.req me u).line m.minor = me ++ ' ' :: (u ++ ' ' :: ("HTTP/1.".toList ++ dec m.minor)) := by
      have e : " HTTP/1.".toList = ' ' :: "HTTP/1.".toList := rfl
      rw [Start.line, reqLine, e]
      generalize dec m.minor = D
      simp
    unfold startOf
    rw [if_pos rfl, e1, upToSpace_eq _ _ hme]
    simp only
    rw [upToSpace_eq _ _ hu]
    simp only
    have e2 : ("HTTP/1.".toList ++ dec m.minor).drop 7 = dec m.minor := rfl
    rw [e2, readDec_dec]
    rfl
  | resp c r =>
    rw [hst] at hs
    obtain ⟨rfl, h1, _⟩ := hs
    have hm : ' ' ∉ "HTTP/1.".toList ++ dec m.minor := by
      rw [List.mem_append, not_or]
      exact ⟨by decide, dec_no _ _ (by decide)⟩
    have e1 : (Start.resp c r).line m.minor = ("HTTP/1.".toList ++ dec m.minor) ++ ' ' :: (dec c ++ ' ' :: r) := by
      have e0 : (Start.resp c r).line m.minor = respLine c r m.minor := rfl
      rw [e0]; unfold respLine
      generalize dec m.minor = D
      generalize dec c = C
      simp
    unfold startOf
    rw [if_neg (by decide), e1, upToSpace_eq _ _ hm]
    simp only
    rw [upToSpace_eq _ _ (dec_no _ _ (by decide))]
    simp only
    have e2 : ("HTTP/1.".toList ++ dec m.minor).drop 7 = dec m.minor := rfl
    rw [e2, readDec_dec, readDec_dec]
    rfl

theorem token_facts (c : Char) (h : tokenChar c = true) : c ≠ ':' ∧ c ≠ '\r' := by
  constructor <;> (rintro rfl; exact absurd h (by decide))

theorem field_facts (c : Char) (h : fieldChar c = true) : c ≠ '\r' := by
  rintro rfl; exact absurd h (by decide)

theorem FieldSound.clean {p : Str × Str} (h : FieldSound p) : p.1 ≠ [] ∧ ':' ∉ p.1 ∧ '\r' ∉ p.1 ∧ '\r' ∉ p.2 := by
  obtain ⟨⟨h1, h2⟩, h3, _⟩ := h
  rw [List.all_eq_true] at h2 h3
  exact ⟨h1, fun hc => (token_facts _ (h2 _ hc)).1 rfl, fun hc => (token_facts _ (h2 _ hc)).2 rfl, fun hc => field_facts _ (h3 _ hc) rfl⟩

theorem contentLength_sound {client : Bool} {m : HMsg} (h : m.Sound client) : contentLength m.headers = some m.body.length := by
  obtain ⟨n, hn⟩ := h.length
  have := List.head?_filter (p := fun p : Str × Str => sameName p.1 "content-length".toList) (l := m.headers)
  rw [hn] at this
  unfold contentLength
  rw [← this]
  exact readDec_dec _

theorem line_clean {client : Bool} {m : HMsg} (h : m.Sound client) : '\r' ∉ m.start.line m.minor := by
  have hs := h.start
  cases hst : m.start with
  | req me u =>
    rw [hst] at hs
    obtain ⟨_, h1, _, h3⟩ := hs
    have hme : '\r' ∉ me := (methods_facts me h1).2
    have hu : '\r' ∉ u := by
      intro hc
      rw [List.all_eq_true] at h3
      exact absurd (h3 _ hc) (by decide)
    have h7 : '\r' ∉ " HTTP/1.".toList := by decide
    have h8 : '\r' ∉ [' '] := by decide
    have h9 : '\r' ∉ dec m.minor := dec_no m.minor '\r' (by decide)
    unfold Start.line reqLine
    generalize dec m.minor = D at *
    generalize " HTTP/1.".toList = H at *
    simp only [List.mem_append, not_or]
    exact ⟨⟨⟨⟨hme, h8⟩, hu⟩, h7⟩, h9⟩
  | resp c r =>
    rw [hst] at hs
    obtain ⟨_, _, _, _, h3⟩ := hs
    have hr : '\r' ∉ r := by
      intro hc
      rw [List.all_eq_true] at h3
      exact absurd (h3 _ hc) (by decide)
    have h7 : '\r' ∉ "HTTP/1.".toList := by decide
    have h8 : '\r' ∉ [' '] := by decide
    have h9 : '\r' ∉ dec m.minor := dec_no m.minor '\r' (by decide)
    have h10 : '\r' ∉ dec c := dec_no c '\r' (by decide)
    have e0 : (Start.resp c r).line m.minor = respLine c r m.minor := rfl
    rw [e0]; unfold respLine
    generalize dec m.minor = D at *
    generalize dec c = C at *
    generalize "HTTP/1.".toList = H at *
    simp only [List.mem_append, not_or]
    exact ⟨⟨⟨⟨⟨h7, h9⟩, h8⟩, h10⟩, h8⟩, hr⟩

theorem decode_text {client : Bool} {m : HMsg} (h : m.Sound client) (x : Str) :
    msgDecoder.dec (m.text ++ x) = .out (m.start.line m.minor, m.headers, m.body) x := by
  have e : m.text ++ x = m.start.line m.minor ++ crlf ++ (m.headers.flatMap (fun p => headerLine p.1 p.2) ++ (crlf ++ (m.body ++ x))) := by
    simp [HMsg.text]
  have hp : parseMsg (m.text ++ x) = some (m.start.line m.minor, m.headers, m.body, x) := by
    rw [e]
    unfold parseMsg
    rw [takeLine_line _ _ (line_clean h)]
    simp only
    rw [parseHeaders_clean _ _ (fun p hp => (h.fields p hp).clean)]
    simp only [contentLength_sound h]
    simp
  simp only [msgDecoder, hp]

/-- The contract can be met. -/
theorem lazyTok_meets (client : Bool) : (lazyTok client).Meets client := by
  intro ms hms cs hpre
  obtain ⟨y, hy⟩ := hpre
  have hnil : msgDecoder.dec [] = .more := rfl
  have hall := Stream.drain_concat msgDecoder HMsg.text (fun m => (m.start.line m.minor, m.headers, m.body)) ms
    (fun m hm x => decode_text (hms m hm) x) []
  rw [List.append_nil, Stream.drain_more _ hnil] at hall
  obtain ⟨k, hk⟩ := msgDecoder_rest cs.flatten
  have hev : ∀ (ms : List HMsg), (∀ m ∈ ms, m.Sound client) →
      (ms.map (fun m => (m.start.line m.minor, m.headers, m.body))).flatMap (evOf client) = allEvents (ms.map whole) ms := by
    intro ms
    induction ms with
    | nil => intro _; rfl
    | cons m ms ih =>
      intro h
      rw [List.map_cons, List.flatMap_cons, ih (fun x hx => h x (by simp [hx])), List.map_cons, allEvents]
      congr 1
      unfold evOf
      rw [startOf_line (h m (by simp))]
  refine ⟨k, (msgDecoder.drain cs.flatten).items.flatMap (evOf client), ms.map whole, ?_, ?_, ?_, ?_⟩
  · rw [lazy_run, hk]; rfl
  · rw [List.forall₂_map_left_iff]
    exact List.forall₂_same.2 (fun m _ => whole_of m)
  · have ha := Stream.drain_append _ msgDecoder_stable cs.flatten y
    rw [hy, hall, hk] at ha
    simp only [Stream.Outcome.mk.injEq, List.append_nil] at ha
    rw [← hev ms hms, ha.1, List.flatMap_append]
    exact List.prefix_append _ _
  · intro he
    rw [he, hall, List.append_nil]
    exact hev ms hms

end Ltio.Http.Conn
