import Verif.Http.Receive
import Mathlib.Data.List.Nodup
/-
The sending side of the HTTP/1 codec: `BeforeSendRequest` (http_codec_service.cc:240-259), `BeforeSendResponse` and the encoders of
Encode.lean; and what the receiving side (Receive.lean) makes of it.
-/
namespace Ltio.Http.Conn
open Ltio.Text

def ce : Str := "content-encoding".toList
def cl : Str := "content-length".toList

/-- The compressing half of `BeforeSendRequest` (http_codec_service.cc:240-252). -/
def packReq (gzip : Str → Option Str) (r : Req) : Req :=
  if r.body.length > 8096 ∧ hasHeader r.headers "Content-Encoding".toList = false then
    match gzip r.body with
    | some z => { r with body := z, headers := insertHeader (insertHeader r.headers "Content-Encoding".toList "gzip".toList) "Content-Length".toList (dec z.length) }
    | none => r
  else r

/-- … and the other half (253-259): `host` is that of `GetRemoteInfo`. -/
def hostReq (host : Str) (r : Req) : Req :=
  if hasHeader r.headers "Host".toList = false then { r with headers := insertHeader r.headers "Host".toList host } else r

/-- `BeforeSendRequest` (http_codec_service.cc:240-259). -/
def prepReq (gzip : Str → Option Str) (host : Str) (r : Req) : Req := hostReq host (packReq gzip r)

/-- The message on the wire. -/
def wireReq (r : Req) : HMsg :=
  ⟨.req r.method (if r.url = [] then ['/'] else r.url), r.minor, r.headers ++ added r.headers r.keepAlive true r.body, r.body⟩

def wireResp (r : Resp) : HMsg :=
  ⟨.resp r.code.toNat (desc r.code).toList, r.minor, r.headers ++ added r.headers r.keepAlive false r.body, r.body⟩

theorem encodeReq_text (r : Req) : encodeReq r = (wireReq r).text := by
  have h := added_req r.headers r.keepAlive r.body
  have e0 : (Start.req r.method (if r.url = [] then ['/'] else r.url)).line r.minor = reqLine r.method (if r.url = [] then ['/'] else r.url) r.minor := rfl
  unfold HMsg.text wireReq encodeReq
  simp only
  rw [List.flatMap_append, ← h, e0]
  unfold reqLine
  generalize dec r.minor = D
  generalize " HTTP/1.".toList = H
  simp only [List.append_assoc]

theorem status_text : ∀ e ∈ lineTable, ∀ m ≤ 1,
    headLine (e.1 : Int) m = some (String.ofList (respLine e.1 (desc (e.1 : Int)).toList m ++ crlf)) ∧ (desc (e.1 : Int)).toList.all fieldChar = true := by
  decide +kernel

theorem known_mem {c : Nat} (h : known c = true) : ∃ s, (c, s) ∈ lineTable := by
  obtain ⟨v, hv⟩ := Option.isSome_iff_exists.1 (show (lineTable.lookup c).isSome from h)
  exact ⟨v, lookup_mem hv⟩

theorem encodeResp_text (r : Resp) (h0 : 0 ≤ r.code) (hk : known r.code.toNat = true) (hm : r.minor ≤ 1) : encodeResp r = some (wireResp r).text := by
  obtain ⟨s, hs⟩ := known_mem hk
  obtain ⟨h1, _⟩ := status_text _ hs r.minor hm
  simp only at h1
  rw [Int.toNat_of_nonneg h0] at h1
  have h := added_resp r.headers r.keepAlive r.body
  unfold HMsg.text wireResp encodeResp
  rw [h1]
  simp only
  have e0 : (Start.resp r.code.toNat (desc r.code).toList).line r.minor = respLine r.code.toNat (desc r.code).toList r.minor := rfl
  rw [List.flatMap_append, ← h, e0, String.toList_ofList]
  generalize respLine r.code.toNat (desc r.code).toList r.minor = L
  simp only [List.append_assoc]

/-! ### Headers an application may set -/

/-- Sound fields as `InsertHeader` stores them, none that changes framing or connection. -/
structure Stored (h : Headers) : Prop where
  fields : ∀ p ∈ h, FieldSound p
  lower : ∀ p ∈ h, toLower p.1 = p.1
  nodup : (h.map Prod.fst).Nodup
  alives : ∀ p ∈ h, p.1 = "connection".toList → p.2.map Char.toLower = "keep-alive".toList
  others : ∀ p ∈ h, p.1 ≠ "transfer-encoding".toList ∧ p.1 ≠ "upgrade".toList ∧ p.1 ≠ "proxy-connection".toList

theorem token_not_nul {s : Str} (h : s.all tokenChar = true) : nul ∉ s := by
  intro hc
  rw [List.all_eq_true] at h
  exact absurd (h _ hc) (by decide)

theorem Stored.same {h : Headers} (hs : Stored h) {p : Str × Str} (hp : p ∈ h) (k : Str) (hk : k.map Char.toLower = k) :
    sameName p.1 k = true ↔ p.1 = k := by
  have h1 := hs.lower p hp
  rw [toLower_eq _ (token_not_nul (hs.fields p hp).name.2)] at h1
  unfold sameName
  rw [h1, hk]
  simp

theorem has_iff (h : Headers) (k : Str) : hasHeader h k = true ↔ toLower k ∈ h.map Prod.fst := by
  unfold hasHeader
  rw [List.any_eq_true, List.mem_map]
  simp

theorem Stored.insert {h : Headers} (hs : Stored h) {k v : Str} (hf : FieldSound (toLower k, v)) (hk : k ≠ [])
    (hl : toLower (toLower k) = toLower k) (ha : toLower k = "connection".toList → v.map Char.toLower = "keep-alive".toList)
    (ho : toLower k ≠ "transfer-encoding".toList ∧ toLower k ≠ "upgrade".toList ∧ toLower k ≠ "proxy-connection".toList) :
    Stored (insertHeader h k v) := by
  unfold insertHeader insertKey
  rw [if_neg hk]
  split
  · exact hs
  · rename_i hn
    have hmem : ∀ p ∈ h ++ [(toLower k, v)], p ∈ h ∨ p = (toLower k, v) := by
      intro p hp
      simpa using hp
    refine ⟨?_, ?_, ?_, ?_, ?_⟩
    · intro p hp
      rcases hmem p hp with hp | rfl
      · exact hs.fields p hp
      · exact hf
    · intro p hp
      rcases hmem p hp with hp | rfl
      · exact hs.lower p hp
      · exact hl
    · rw [List.map_append, List.nodup_append]
      refine ⟨hs.nodup, by simp, ?_⟩
      intro a ha b hb
      simp only [List.map_cons, List.map_nil, List.mem_singleton] at hb
      subst hb
      rintro rfl
      apply hn
      rw [List.any_eq_true]
      obtain ⟨p, hp, he⟩ := List.mem_map.1 ha
      exact ⟨p, hp, by simp [he]⟩
    · intro p hp
      rcases hmem p hp with hp | rfl
      · exact hs.alives p hp
      · exact ha
    · intro p hp
      rcases hmem p hp with hp | rfl
      · exact hs.others p hp
      · exact ho

theorem sound_value_dec (n : Nat) : (dec n).all fieldChar = true ∧ blank (dec n).head? = false ∧ blank (dec n).getLast? = false := by
  have hd : ∀ c, c.isDigit = true → fieldChar c = true ∧ blank (some c) = false := by
    intro c hc
    have h1 : 48 ≤ c.toNat ∧ c.toNat ≤ 57 := by
      simp only [Char.isDigit, Bool.and_eq_true, decide_eq_true_eq] at hc
      exact hc
    constructor
    · unfold fieldChar
      rw [Bool.or_eq_true]
      right
      simp only [Bool.and_eq_true, decide_eq_true_eq]
      omega
    · unfold blank
      have a1 : c ≠ ' ' := by rintro rfl; exact absurd hc (by decide)
      have a2 : c ≠ '\t' := by rintro rfl; exact absurd hc (by decide)
      simp [a1, a2]
  have hall := dec_digits n
  refine ⟨?_, ?_, ?_⟩
  · rw [List.all_eq_true]; exact fun c hc => (hd c (hall c hc).1).1
  · cases h : (dec n).head? with
    | none => rfl
    | some c => exact (hd c (hall c (List.mem_of_head? h)).1).2
  · cases h : (dec n).getLast? with
    | none => rfl
    | some c => exact (hd c (hall c (List.mem_of_getLast? h)).1).2

/-- The names the encoders may add. -/
def addedNames : List Str := ["Connection", "Accept-Encoding", "Content-Length", "Content-Type"].map String.toList

theorem mem_added {h : Headers} {a : Bool} {body : Str} {p : Str × Str} (hp : p ∈ added h true a body) :
    (p = ("Connection".toList, "keep-alive".toList) ∧ hasHeader h "Connection".toList = false) ∨
    (p = ("Accept-Encoding".toList, "deflate,gzip".toList) ∧ hasHeader h "Accept-Encoding".toList = false) ∨
    (p = ("Content-Length".toList, dec body.length) ∧ hasHeader h "Content-Length".toList = false) ∨
    (p = ("Content-Type".toList, "text/plain".toList) ∧ hasHeader h "Content-Type".toList = false) := by
  unfold added at hp
  simp only [List.mem_append] at hp
  rcases hp with ((hp | hp) | hp) | hp
  · split at hp
    · rename_i hh; left
      exact ⟨List.mem_singleton.1 hp, by simpa using hh⟩
    · simp at hp
  · split at hp
    · rename_i hh; right; left
      exact ⟨List.mem_singleton.1 hp, by simpa using hh.2⟩
    · simp at hp
  · split at hp
    · rename_i hh; right; right; left
      exact ⟨List.mem_singleton.1 hp, by simpa using hh⟩
    · simp at hp
  · split at hp
    · rename_i hh; right; right; right
      exact ⟨List.mem_singleton.1 hp, by simpa using hh⟩
    · simp at hp

theorem filter_added (h : Headers) (a : Bool) (body : Str) :
    (added h true a body).filter (fun p => sameName p.1 "content-length".toList) =
      if hasHeader h "Content-Length".toList = false then [("Content-Length".toList, dec body.length)] else [] := by
  have c1 : sameName "Connection".toList "content-length".toList = false := by decide +kernel
  have c2 : sameName "Accept-Encoding".toList "content-length".toList = false := by decide +kernel
  have c3 : sameName "Content-Length".toList "content-length".toList = true := by decide +kernel
  have c4 : sameName "Content-Type".toList "content-length".toList = false := by decide +kernel
  unfold added
  generalize dec body.length = D
  cases hasHeader h "Connection".toList <;> cases hasHeader h "Content-Length".toList <;>
    cases hasHeader h "Content-Type".toList <;> cases hasHeader h "Accept-Encoding".toList <;> cases a <;>
    simp only [List.filter_append, List.filter_cons, List.filter_nil, c1, c2, c3, c4, Bool.not_true, Bool.not_false, if_true, if_false,
      and_true, and_false, and_self, Bool.false_eq_true, List.nil_append, List.append_nil] <;> rfl

theorem cl_token : "Content-Length".toList ≠ [] ∧ "Content-Length".toList.all tokenChar = true := by decide +kernel

theorem conn_added (h : Headers) (a : Bool) (body : Str) (hh : hasHeader h "Connection".toList = false) :
    ("Connection".toList, "keep-alive".toList) ∈ added h true a body := by
  unfold added
  generalize dec body.length = D
  rw [hh]
  simp only [List.mem_append]
  exact Or.inl (Or.inl (Or.inl (List.mem_singleton.2 rfl)))

/-- What is on the wire is sound. -/
theorem sound_of {client : Bool} {st : Start} {minor : Nat} {h : Headers} {a : Bool} {body : Str} (hs : Stored h)
    (hst : st.Sound client body) (hm : minor ≤ 1) (hl : ∀ p ∈ h, p.1 = "content-length".toList → p.2 = dec body.length)
    (hb : (∀ c ∈ body, c.toNat < 256) ∧ body.length < 2 ^ 31) : HMsg.Sound client ⟨st, minor, h ++ added h true a body, body⟩ := by
  refine ⟨hst, hm, ?_, ?_, ?_, ?_, ?_, hb⟩
  · intro p hp
    rcases List.mem_append.1 hp with hp | hp
    · exact hs.fields p hp
    · rcases mem_added hp with ⟨rfl, _⟩ | ⟨rfl, _⟩ | ⟨rfl, _⟩ | ⟨rfl, _⟩
      · exact ⟨by decide +kernel, by decide +kernel⟩
      · exact ⟨by decide +kernel, by decide +kernel⟩
      · exact ⟨cl_token, sound_value_dec _⟩
      · exact ⟨by decide +kernel, by decide +kernel⟩
  · simp only [List.filter_append, filter_added]
    cases hh : hasHeader h "Content-Length".toList with
    | false =>
      refine ⟨"Content-Length".toList, ?_⟩
      rw [if_pos rfl]
      have : h.filter (fun p => sameName p.1 "content-length".toList) = [] := by
        rw [List.filter_eq_nil_iff]
        intro p hp hc
        rw [hs.same hp _ (by decide)] at hc
        have : hasHeader h "Content-Length".toList = true := by
          rw [has_iff]
          exact List.mem_map.2 ⟨p, hp, by rw [hc]; rfl⟩
        rw [hh] at this
        exact absurd this (by decide)
      rw [this, List.nil_append]
    | true =>
      rw [has_iff] at hh
      obtain ⟨p, hp, he⟩ := List.mem_map.1 hh
      have hpe : p.1 = "content-length".toList := by rw [he]; rfl
      refine ⟨p.1, ?_⟩
      rw [if_neg (by decide), List.append_nil]
      obtain ⟨x, y, hxy⟩ := List.append_of_mem hp
      have hnd := hs.nodup
      rw [hxy, List.map_append, List.map_cons, List.nodup_append] at hnd
      obtain ⟨_, h2, h3⟩ := hnd
      rw [List.nodup_cons] at h2
      have hno : ∀ l : Headers, (∀ q ∈ l, q ∈ h) → p.1 ∉ l.map Prod.fst → l.filter (fun q => sameName q.1 "content-length".toList) = [] := by
        intro l hlm hl
        rw [List.filter_eq_nil_iff]
        intro q hq hc
        rw [hs.same (hlm q hq) _ (by decide)] at hc
        exact hl (List.mem_map.2 ⟨q, hq, by rw [hc, hpe]⟩)
      have hx : x.filter (fun q => sameName q.1 "content-length".toList) = [] :=
        hno x (fun q hq => by rw [hxy]; simp [hq]) (fun hc => h3 _ hc _ (by simp) rfl)
      have hy : y.filter (fun q => sameName q.1 "content-length".toList) = [] :=
        hno y (fun q hq => by rw [hxy]; simp [hq]) h2.1
      have hps : sameName p.1 "content-length".toList = true := (hs.same hp _ (by decide)).2 hpe
      conv => lhs; rw [hxy]
      rw [List.filter_append, List.filter_cons, if_pos hps, hx, hy, List.nil_append, ← hl p hp hpe]
  · cases hh : hasHeader h "Connection".toList with
    | false =>
      refine ⟨("Connection".toList, "keep-alive".toList), ?_, by decide +kernel⟩
      exact List.mem_append_right _ (conn_added h a body hh)
    | true =>
      rw [has_iff] at hh
      obtain ⟨p, hp, he⟩ := List.mem_map.1 hh
      exact ⟨p, List.mem_append_left _ hp, (hs.same hp _ (by decide)).2 (by rw [he]; rfl)⟩
  · intro p hp hc
    rcases List.mem_append.1 hp with hp | hp
    · exact hs.alives p hp ((hs.same hp _ (by decide)).1 hc)
    · rcases mem_added hp with ⟨rfl, _⟩ | ⟨rfl, _⟩ | ⟨rfl, _⟩ | ⟨rfl, _⟩
      · decide +kernel
      · exact absurd hc (by decide +kernel)
      · have : sameName "Content-Length".toList "connection".toList = false := by decide +kernel
        simp only [this] at hc
        exact absurd hc (by decide)
      · exact absurd hc (by decide +kernel)
  · intro p hp
    rcases List.mem_append.1 hp with hp | hp
    · have ho := hs.others p hp
      refine ⟨?_, ?_, ?_⟩ <;> rw [← Bool.not_eq_true, hs.same hp _ (by decide)]
      · exact ho.1
      · exact ho.2.1
      · exact ho.2.2
    · have hn : p.1 ∈ addedNames := by
        rcases mem_added hp with ⟨rfl, _⟩ | ⟨rfl, _⟩ | ⟨rfl, _⟩ | ⟨rfl, _⟩
        · exact List.mem_map.2 ⟨"Connection", by simp, rfl⟩
        · exact List.mem_map.2 ⟨"Accept-Encoding", by simp, rfl⟩
        · exact List.mem_map.2 ⟨"Content-Length", by simp, rfl⟩
        · exact List.mem_map.2 ⟨"Content-Type", by simp, rfl⟩
      have : ∀ n ∈ addedNames, sameName n "transfer-encoding".toList = false ∧ sameName n "upgrade".toList = false ∧
          sameName n "proxy-connection".toList = false := by decide +kernel
      exact this _ hn

/-! ### Headers as they arrive -/

theorem lookup_insertHeader_some {h : Headers} {k v n w : Str} (hl : lookup h n = some w) : lookup (insertHeader h k v) n = some w := by
  unfold insertHeader
  split
  · exact hl
  · rw [lookup_insertKey]
    split
    · rw [hl]
    · exact hl

theorem lookup_insertHeader_ne {h : Headers} {k v n : Str} (hne : toLower k ≠ n) : lookup (insertHeader h k v) n = lookup h n := by
  unfold insertHeader
  split
  · rfl
  · rw [lookup_insertKey, if_neg hne]

theorem lookup_fold_some (l : Headers) {h : Headers} {n w : Str} (hl : lookup h n = some w) :
    lookup (l.foldl (fun h p => insertHeader h p.1 p.2) h) n = some w := by
  induction l generalizing h with
  | nil => exact hl
  | cons p l ih => exact ih (lookup_insertHeader_some hl)

theorem lookup_fold_ne (l : Headers) {h : Headers} {n : Str} (hne : ∀ p ∈ l, toLower p.1 ≠ n) :
    lookup (l.foldl (fun h p => insertHeader h p.1 p.2) h) n = lookup h n := by
  induction l generalizing h with
  | nil => rfl
  | cons p l ih =>
    rw [List.foldl_cons, ih (fun q hq => hne q (by simp [hq])), lookup_insertHeader_ne (hne p (by simp))]

theorem fold_stored (l : Headers) : ∀ (h : Headers), (∀ p ∈ l, toLower p.1 = p.1 ∧ p.1 ≠ []) → ((h ++ l).map Prod.fst).Nodup →
    l.foldl (fun h p => insertHeader h p.1 p.2) h = h ++ l := by
  induction l with
  | nil => intro h _ _; simp
  | cons p l ih =>
    intro h hl hn
    obtain ⟨h1, h2⟩ := hl p (by simp)
    have e : insertHeader h p.1 p.2 = h ++ [p] := by
      unfold insertHeader insertKey
      rw [if_neg h2, h1, if_neg]
      intro hc
      rw [List.any_eq_true] at hc
      obtain ⟨q, hq, he⟩ := hc
      rw [List.map_append, List.nodup_append] at hn
      exact hn.2.2 q.1 (List.mem_map_of_mem hq) p.1 (by simp) (by simpa using he)
    rw [List.foldl_cons, e, ih _ (fun q hq => hl q (by simp [hq])) (by simpa using hn)]
    simp

theorem Stored.fold {h : Headers} (hs : Stored h) : h.foldl (fun h p => insertHeader h p.1 p.2) [] = h := by
  have := fold_stored h [] (fun p hp => ⟨hs.lower p hp, (hs.fields p hp).name.1⟩) (by simpa using hs.nodup)
  simpa using this

theorem getHeader_lookup (h : Headers) (f : Str) : getHeader h f = (lookup h (toLower f)).getD [] := by
  unfold getHeader lookup
  cases h.find? (fun p => p.1 == toLower f) <;> rfl

theorem Stored.lookup_mem {h : Headers} (hs : Stored h) {p : Str × Str} (hp : p ∈ h) : lookup h p.1 = some p.2 := by
  have hnd := hs.nodup
  clear hs
  induction h with
  | nil => simp at hp
  | cons q h ih =>
    rw [List.map_cons, List.nodup_cons] at hnd
    unfold lookup at *
    rw [List.find?_cons]
    rcases List.mem_cons.1 hp with rfl | hp'
    · simp
    · have hne : (q.1 == p.1) = false := by
        rw [beq_eq_false_iff_ne]
        intro he
        exact hnd.1 (List.mem_map.2 ⟨p, hp', he.symm⟩)
      rw [hne]
      exact ih hp' hnd.2

/-- The headers that arrive. -/
def arrived (h : Headers) (a : Bool) (body : Str) : Headers :=
  (h ++ added h true a body).foldl (fun h p => insertHeader h p.1 p.2) []

theorem arrived_eq {h : Headers} (hs : Stored h) (a : Bool) (body : Str) :
    arrived h a body = (added h true a body).foldl (fun h p => insertHeader h p.1 p.2) h := by
  unfold arrived
  rw [List.foldl_append, hs.fold]

theorem arrived_mem {h : Headers} (hs : Stored h) (a : Bool) (body : Str) {p : Str × Str} (hp : p ∈ h) :
    lookup (arrived h a body) p.1 = some p.2 := by
  rw [arrived_eq hs]
  exact lookup_fold_some _ (hs.lookup_mem hp)

theorem arrived_ce {h : Headers} (hs : Stored h) (a : Bool) (body : Str) : lookup (arrived h a body) ce = lookup h ce := by
  rw [arrived_eq hs]
  refine lookup_fold_ne _ ?_
  intro p hp
  rcases mem_added hp with ⟨rfl, _⟩ | ⟨rfl, _⟩ | ⟨rfl, _⟩ | ⟨rfl, _⟩
  · decide +kernel
  · decide +kernel
  · show toLower "Content-Length".toList ≠ ce
    decide +kernel
  · decide +kernel

theorem lookup_none_of_has {h : Headers} {k : Str} (hh : hasHeader h k = false) : lookup h (toLower k) = none := by
  have : h.any (fun p => p.1 == toLower k) = (lookup h (toLower k)).isSome := any_eq_lookup h _
  unfold hasHeader at hh
  rw [hh] at this
  cases hl : lookup h (toLower k) with
  | none => rfl
  | some x => rw [hl] at this; simp at this

end Ltio.Http.Conn
