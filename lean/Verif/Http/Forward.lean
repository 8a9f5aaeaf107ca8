import Verif.Http.ConnectionProps
/-
A message the library handed on is sent on by it: the request or response object of the parser is given to `SendRequest` or
`SendResponse` of another connection (C170, C171).
-/
namespace Ltio.Http.Conn
open Ltio.Text Ltio.Net Ltio.Net.E2E

/-- The request the parser made, as it is (http_request.h: method, URL, version, headers, keep-alive and body are members of the object). -/
def sendOnReq (g : Got) : Req := ⟨g.method, g.url, g.minor, g.headers, g.keep, g.body⟩

/-- The response the parser made. -/
def sendOnResp (g : Got) : Resp := ⟨g.code, g.minor, g.headers, g.keep, g.body⟩

/-! ### The headers that arrive are complete -/

def lowNames : List Str := ["connection", "accept-encoding", "content-length", "content-type"].map String.toList

theorem low_added (h : Headers) (a : Bool) (body : Str) : ((added h true a body).map (fun p => toLower p.1)).Sublist lowNames := by
  have e1 : toLower "Connection".toList = "connection".toList := by decide +kernel
  have e2 : toLower "Accept-Encoding".toList = "accept-encoding".toList := by decide +kernel
  have e3 : toLower "Content-Length".toList = "content-length".toList := by decide +kernel
  have e4 : toLower "Content-Type".toList = "content-type".toList := by decide +kernel
  have en : lowNames = [toLower "Connection".toList] ++ [toLower "Accept-Encoding".toList] ++ [toLower "Content-Length".toList] ++ [toLower "Content-Type".toList] := by
    rw [e1, e2, e3, e4]; rfl
  rw [en]
  unfold added
  generalize dec body.length = D
  rw [List.map_append, List.map_append, List.map_append]
  refine List.Sublist.append (List.Sublist.append (List.Sublist.append ?_ ?_) ?_) ?_ <;> split
  · exact List.Sublist.refl _
  · exact List.nil_sublist _
  · exact List.Sublist.refl _
  · exact List.nil_sublist _
  · exact List.Sublist.refl _
  · exact List.nil_sublist _
  · exact List.Sublist.refl _
  · exact List.nil_sublist _

theorem added_new {h : Headers} {a : Bool} {body : Str} {p : Str × Str} (hp : p ∈ added h true a body) : toLower p.1 ∉ h.map Prod.fst ∧ p.1 ≠ [] := by
  have key : ∀ k : Str, hasHeader h k = false → toLower k ∉ h.map Prod.fst := by
    intro k hk hc
    rw [← has_iff, hk] at hc
    exact absurd hc (by decide)
  rcases mem_added hp with ⟨e, hh⟩ | ⟨e, hh⟩ | ⟨e, hh⟩ | ⟨e, hh⟩ <;> rw [e] <;> refine ⟨key _ hh, ?_⟩
  · show "Connection".toList ≠ []; decide +kernel
  · show "Accept-Encoding".toList ≠ []; decide +kernel
  · show "Content-Length".toList ≠ []; decide +kernel
  · show "Content-Type".toList ≠ []; decide +kernel

theorem fold_new (l : Headers) : ∀ (h : Headers), (∀ p ∈ l, p.1 ≠ []) → (h.map Prod.fst ++ l.map (fun p => toLower p.1)).Nodup →
    l.foldl (fun h p => insertHeader h p.1 p.2) h = h ++ l.map (fun p => (toLower p.1, p.2)) := by
  induction l with
  | nil => intro h _ _; simp
  | cons p l ih =>
    intro h hl hn
    have e : insertHeader h p.1 p.2 = h ++ [(toLower p.1, p.2)] := by
      unfold insertHeader insertKey
      rw [if_neg (hl p (by simp)), if_neg]
      intro hc
      rw [List.any_eq_true] at hc
      obtain ⟨q, hq, he⟩ := hc
      rw [List.nodup_append] at hn
      exact hn.2.2 q.1 (List.mem_map_of_mem hq) (toLower p.1) (by simp) (by simpa using he)
    rw [List.foldl_cons, e, ih _ (fun q hq => hl q (by simp [hq])) (by simpa using hn)]
    simp

/-- What arrives: what was set and what the encoder added, in lower case. -/
theorem arrived_list {h : Headers} (hs : Stored h) (a : Bool) (body : Str) :
    arrived h a body = h ++ (added h true a body).map (fun p => (toLower p.1, p.2)) := by
  rw [arrived_eq hs]
  refine fold_new _ _ (fun p hp => (added_new hp).2) ?_
  rw [List.nodup_append]
  refine ⟨hs.nodup, (low_added h a body).nodup (by decide +kernel), ?_⟩
  intro x hx y hy he
  obtain ⟨p, hp, rfl⟩ := List.mem_map.1 hy
  rw [he] at hx
  exact (added_new hp).1 hx

theorem arrived_stored {h : Headers} (hs : Stored h) (a : Bool) (body : Str) : Stored (arrived h a body) := by
  have hnd : ((arrived h a body).map Prod.fst).Nodup := by
    rw [arrived_list hs, List.map_append, List.map_map, List.nodup_append]
    refine ⟨hs.nodup, (low_added h a body).nodup (by decide +kernel), ?_⟩
    intro x hx y hy he
    obtain ⟨p, hp, rfl⟩ := List.mem_map.1 hy
    rw [he] at hx
    exact (added_new hp).1 hx
  have hmem : ∀ p ∈ arrived h a body, p ∈ h ∨ p = ("connection".toList, "keep-alive".toList) ∨ p = ("accept-encoding".toList, "deflate,gzip".toList) ∨
      p = (cl, dec body.length) ∨ p = ("content-type".toList, "text/plain".toList) := by
    intro p hp
    rw [arrived_list hs, List.mem_append] at hp
    rcases hp with hp | hp
    · exact Or.inl hp
    · right
      obtain ⟨q, hq, rfl⟩ := List.mem_map.1 hp
      have e1 : toLower "Connection".toList = "connection".toList := by decide +kernel
      have e2 : toLower "Accept-Encoding".toList = "accept-encoding".toList := by decide +kernel
      have e3 : toLower "Content-Length".toList = cl := by decide +kernel
      have e4 : toLower "Content-Type".toList = "content-type".toList := by decide +kernel
      rcases mem_added hq with ⟨e, _⟩ | ⟨e, _⟩ | ⟨e, _⟩ | ⟨e, _⟩ <;> rw [e]
      · left; dsimp only; rw [e1]
      · right; left; dsimp only; rw [e2]
      · right; right; left; dsimp only; rw [e3]
      · right; right; right; dsimp only; rw [e4]
  refine ⟨?_, ?_, hnd, ?_, ?_⟩
  · intro p hp
    rcases hmem p hp with hp | e | e | e | e
    · exact hs.fields p hp
    · rw [e]; exact ⟨by decide +kernel, by decide +kernel⟩
    · rw [e]; exact ⟨by decide +kernel, by decide +kernel⟩
    · rw [e]; exact ⟨⟨show cl ≠ [] by decide +kernel, show cl.all tokenChar = true by decide +kernel⟩, sound_value_dec _⟩
    · rw [e]; exact ⟨by decide +kernel, by decide +kernel⟩
  · intro p hp
    rcases hmem p hp with hp | e | e | e | e
    · exact hs.lower p hp
    · rw [e]; decide +kernel
    · rw [e]; decide +kernel
    · rw [e]; show toLower cl = cl; decide +kernel
    · rw [e]; decide +kernel
  · intro p hp hc
    rcases hmem p hp with hp | e | e | e | e
    · exact hs.alives p hp hc
    · rw [e]; decide +kernel
    · rw [e] at hc; exact absurd hc (by decide +kernel)
    · rw [e] at hc
      have : cl ≠ "connection".toList := by decide +kernel
      exact absurd hc this
    · rw [e] at hc; exact absurd hc (by decide +kernel)
  · intro p hp
    rcases hmem p hp with hp | e | e | e | e
    · exact hs.others p hp
    · rw [e]; decide +kernel
    · rw [e]; decide +kernel
    · rw [e]
      have : cl ≠ "transfer-encoding".toList ∧ cl ≠ "upgrade".toList ∧ cl ≠ "proxy-connection".toList := by decide +kernel
      exact this
    · rw [e]; decide +kernel

theorem has_of_mem {h : Headers} {k : Str} {p : Str × Str} (hp : p ∈ h) (he : p.1 = toLower k) : hasHeader h k = true := by
  rw [has_iff]
  exact List.mem_map.2 ⟨p, hp, he⟩

/-- Nothing is left to add. -/
theorem arrived_complete {h : Headers} (hs : Stored h) (a : Bool) (body body' : Str) : added (arrived h a body) true a body' = [] := by
  have hold : ∀ k, hasHeader h k = true → hasHeader (arrived h a body) k = true := by
    intro k hk
    rw [has_iff] at hk ⊢
    rw [arrived_list hs, List.map_append, List.mem_append]
    exact Or.inl hk
  have hnew : ∀ p ∈ added h true a body, hasHeader (arrived h a body) p.1 = true := by
    intro p hp
    refine has_of_mem (p := (toLower p.1, p.2)) ?_ rfl
    rw [arrived_list hs, List.mem_append]
    exact Or.inr (List.mem_map.2 ⟨p, hp, rfl⟩)
  have h1 : hasHeader (arrived h a body) "Connection".toList = true := by
    cases hh : hasHeader h "Connection".toList with
    | true => exact hold _ hh
    | false => exact hnew _ (conn_added h a body hh)
  have h2 : a = true → hasHeader (arrived h a body) "Accept-Encoding".toList = true := by
    intro ha
    cases hh : hasHeader h "Accept-Encoding".toList with
    | true => exact hold _ hh
    | false =>
      refine hnew ("Accept-Encoding".toList, "deflate,gzip".toList) ?_
      unfold added
      rw [hh, ha]
      simp only [List.mem_append]
      exact Or.inl (Or.inl (Or.inr (List.mem_singleton.2 rfl)))
  have h3 : hasHeader (arrived h a body) "Content-Length".toList = true := by
    cases hh : hasHeader h "Content-Length".toList with
    | true => exact hold _ hh
    | false =>
      refine hnew ("Content-Length".toList, dec body.length) ?_
      unfold added
      generalize dec body.length = D
      rw [hh]
      simp only [List.mem_append]
      exact Or.inl (Or.inr (List.mem_singleton.2 rfl))
  have h4 : hasHeader (arrived h a body) "Content-Type".toList = true := by
    cases hh : hasHeader h "Content-Type".toList with
    | true => exact hold _ hh
    | false =>
      refine hnew ("Content-Type".toList, "text/plain".toList) ?_
      unfold added
      generalize dec body.length = D
      rw [hh]
      simp only [List.mem_append]
      exact Or.inr (List.mem_singleton.2 rfl)
  unfold added
  generalize dec body'.length = D
  rw [h1, h3, h4]
  cases a with
  | false => rfl
  | true => rw [h2 rfl]; rfl

theorem lower_length {h : Headers} {a : Bool} {body : Str} {p : Str × Str} (hp : p ∈ added h true a body) : (toLower p.1).length = p.1.length := by
  rcases mem_added hp with ⟨e, _⟩ | ⟨e, _⟩ | ⟨e, _⟩ | ⟨e, _⟩ <;> rw [e]
  · show (toLower "Connection".toList).length = "Connection".toList.length; decide +kernel
  · show (toLower "Accept-Encoding".toList).length = "Accept-Encoding".toList.length; decide +kernel
  · show (toLower "Content-Length".toList).length = "Content-Length".toList.length; decide +kernel
  · show (toLower "Content-Type".toList).length = "Content-Type".toList.length; decide +kernel

theorem line_length (k k' v : Str) (h : k.length = k'.length) : (headerLine k v).length = (headerLine k' v).length := by
  unfold headerLine
  simp only [List.length_append]
  rw [h]

theorem text_length {h : Headers} (hs : Stored h) (st : Start) (minor : Nat) (a : Bool) (body : Str) :
    (HMsg.text ⟨st, minor, arrived h a body, body⟩).length = (HMsg.text ⟨st, minor, h ++ added h true a body, body⟩).length := by
  unfold HMsg.text
  dsimp only
  generalize st.line minor = L
  rw [arrived_list hs]
  simp only [List.length_append, List.flatMap_append, List.flatMap_map]
  have : (List.flatMap (fun p : Str × Str => headerLine (toLower p.1) p.2) (added h true a body)).length =
      (List.flatMap (fun p : Str × Str => headerLine p.1 p.2) (added h true a body)).length := by
    rw [List.length_flatMap, List.length_flatMap]
    congr 1
    apply List.map_congr_left
    intro p hp
    exact line_length _ _ _ (lower_length hp)
  rw [this]

theorem mem_arrived {h : Headers} (hs : Stored h) {a : Bool} {body : Str} {p : Str × Str} (hp : p ∈ arrived h a body) :
    p ∈ h ∨ (hasHeader h "Content-Length".toList = false ∧ p = (cl, dec body.length)) ∨ (p.1 ≠ ce ∧ p.1 ≠ cl) := by
  rw [arrived_list hs, List.mem_append] at hp
  rcases hp with hp | hp
  · exact Or.inl hp
  · right
    obtain ⟨q, hq, rfl⟩ := List.mem_map.1 hp
    have e1 : toLower "Connection".toList ≠ ce ∧ toLower "Connection".toList ≠ cl := by decide +kernel
    have e2 : toLower "Accept-Encoding".toList ≠ ce ∧ toLower "Accept-Encoding".toList ≠ cl := by decide +kernel
    have e3 : toLower "Content-Length".toList = cl := by decide +kernel
    have e4 : toLower "Content-Type".toList ≠ ce ∧ toLower "Content-Type".toList ≠ cl := by decide +kernel
    rcases mem_added hq with ⟨e, hh⟩ | ⟨e, hh⟩ | ⟨e, hh⟩ | ⟨e, hh⟩ <;> rw [e]
    · exact Or.inr e1
    · exact Or.inr e2
    · exact Or.inl ⟨hh, by dsimp only; rw [e3]⟩
    · exact Or.inr e4

theorem has_ce_arrived {h : Headers} (hs : Stored h) (a : Bool) (body : Str) :
    hasHeader (arrived h a body) "Content-Encoding".toList = hasHeader h "Content-Encoding".toList := by
  have e : toLower "Content-Encoding".toList = ce := by decide +kernel
  have : ∀ g : Headers, hasHeader g "Content-Encoding".toList = (lookup g ce).isSome := by
    intro g
    unfold hasHeader
    rw [e]
    exact any_eq_lookup g ce
  rw [this, this, arrived_ce hs]

/-! ### Requests -/

/-- What a request that is not compressed is made into. -/
theorem plain_got {Zg Zd : Gzip.Zlib} {host : Str} {r : Req} (ok : OkReq Zg host r) (hn : ¬ packsReq r) :
    (wireM Zg Zd host (.inl r)).got (unzip Zg Zd) true = some ⟨r.method, if r.url = [] then ['/'] else r.url, 0, r.minor, true,
      arrived (prepReq (zip Zg) host r).headers true r.body, r.body⟩ := by
  obtain ⟨hp, e1, e2, e3, e4, e5⟩ := prep_facts ok
  rcases e5 with ⟨_, n2, n3⟩ | ⟨n1, _⟩
  · show (wireReq (prepReq (zip Zg) host r)).got (unzip Zg Zd) true = _
    have hd : decodeBody (unzip Zg Zd) true (arrived (prepReq (zip Zg) host r).headers true r.body) r.body =
        some (arrived (prepReq (zip Zg) host r).headers true r.body, r.body) := by
      apply decode_plain
      rw [arrived_ce hp.stored, n3]
      exact lookup_of_plain ok.headers ok.coding
    unfold HMsg.got commit wireReq HMsg.info
    rw [e4, e1, e2, e3, n2]
    simp only [Start.method, Start.url, Start.code]
    unfold arrived at hd ⊢
    rw [hd]
    rfl
  · exact absurd n1 hn

theorem prep_host {gz : Str → Option Str} {host : Str} {r : Req} : hasHeader (prepReq gz host r).headers "Host".toList = true := by
  unfold prepReq
  generalize packReq gz r = q
  unfold hostReq
  split
  · rename_i hh
    rw [has_iff]
    dsimp only
    unfold insertHeader insertKey
    rw [if_neg (by decide +kernel)]
    have hh' : ¬ (q.headers.any (fun p => p.1 == toLower "Host".toList)) = true := by
      unfold hasHeader at hh
      rw [hh]; decide
    rw [if_neg hh', List.map_append, List.mem_append]
    exact Or.inr (List.mem_singleton.2 rfl)
  · rename_i hh
    simpa using hh

theorem prep_same {Zg : Gzip.Zlib} {host : Str} {r : Req} (hn : ¬ packsReq r) (hh : hasHeader r.headers "Host".toList = true) :
    prepReq (zip Zg) host r = r := by
  unfold prepReq packReq
  rw [if_neg (fun h => hn ⟨h.1, h.2⟩)]
  unfold hostReq
  rw [hh, if_neg (by decide)]

theorem has_mono {h : Headers} (hs : Stored h) {a : Bool} {body k : Str} (hk : hasHeader h k = true) : hasHeader (arrived h a body) k = true := by
  rw [has_iff] at hk ⊢
  rw [arrived_list hs, List.map_append, List.mem_append]
  exact Or.inl hk

/-- **C171.** A request the library did not compress, sent on as it was received, is one the connection carries (C168), is not compressed, and is
received again exactly as the first time. -/
theorem c171_request (Zg Zd : Gzip.Zlib) (host host' : Str) (r : Req) (ok : OkReq Zg host r) (hn : ¬ packsReq r)
    (hh : FieldSound ("host".toList, host')) : ∃ g, handed Zg Zd host true (.inl r) = [g] ∧ Same (.inl r) g ∧
      OkReq Zg host' (sendOnReq g) ∧ ¬ packsReq (sendOnReq g) ∧ handed Zg Zd host' true (.inl (sendOnReq g)) = [g] := by
  obtain ⟨hp, e1, e2, e3, e4, e5⟩ := prep_facts ok
  obtain ⟨g0, hg0, hh0, _, hb0, _⟩ := got_of (Zd := Zd) (i := false) (m := .inl r) (show Ok Zg Zd host false (.inl r) from ok)
  have hg := plain_got (Zd := Zd) ok hn
  rw [Bool.not_false] at hg0
  rw [hg] at hg0
  simp only [Option.some.injEq] at hg0
  have hbody : (prepReq (zip Zg) host r).body = r.body := by
    rcases e5 with ⟨_, n2, _⟩ | ⟨n1, _⟩
    · exact n2
    · exact absurd n1 hn
  have hce : lookup (prepReq (zip Zg) host r).headers ce = lookup r.headers ce := by
    rcases e5 with ⟨_, _, n3⟩ | ⟨n1, _⟩
    · exact n3
    · exact absurd n1 hn
  have hcehas : hasHeader (arrived (prepReq (zip Zg) host r).headers true r.body) "Content-Encoding".toList = hasHeader r.headers "Content-Encoding".toList := by
    have e : toLower "Content-Encoding".toList = ce := by decide +kernel
    have : ∀ g : Headers, hasHeader g "Content-Encoding".toList = (lookup g ce).isSome := by
      intro g
      unfold hasHeader
      rw [e]
      exact any_eq_lookup g ce
    rw [has_ce_arrived hp.stored, this, this, hce]
  have hn' : ¬ packsReq (sendOnReq ⟨r.method, if r.url = [] then ['/'] else r.url, 0, r.minor, true,
      arrived (prepReq (zip Zg) host r).headers true r.body, r.body⟩) := by
    intro hc
    exact hn ⟨hc.1, by rw [← hcehas]; exact hc.2⟩
  have hhost : hasHeader (arrived (prepReq (zip Zg) host r).headers true r.body) "Host".toList = true := has_mono hp.stored prep_host
  have hprep : prepReq (zip Zg) host' (sendOnReq ⟨r.method, if r.url = [] then ['/'] else r.url, 0, r.minor, true,
      arrived (prepReq (zip Zg) host r).headers true r.body, r.body⟩) = sendOnReq ⟨r.method, if r.url = [] then ['/'] else r.url, 0, r.minor, true,
      arrived (prepReq (zip Zg) host r).headers true r.body, r.body⟩ := prep_same hn' hhost
  have hurl : (if (if r.url = [] then ['/'] else r.url) = [] then ['/'] else (if r.url = [] then ['/'] else r.url)) = if r.url = [] then ['/'] else r.url := by
    by_cases h : r.url = [] <;> simp [h]
  have hok : OkReq Zg host' (sendOnReq ⟨r.method, if r.url = [] then ['/'] else r.url, 0, r.minor, true,
      arrived (prepReq (zip Zg) host r).headers true r.body, r.body⟩) := by
    refine ⟨ok.method, ?_, ok.minor, rfl, arrived_stored hp.stored _ _, ?_, ?_, ok.latin, ok.zips, hh, ?_⟩
    · right
      show (if r.url = [] then ['/'] else r.url).head? = some '/' ∧ (if r.url = [] then ['/'] else r.url).all urlChar = true
      split
      · exact ⟨rfl, by decide⟩
      · rename_i hu
        rcases ok.url with h | h
        · exact absurd h hu
        · exact h
    · intro p hp' he
      rcases mem_arrived hp.stored hp' with hm | ⟨_, e⟩ | ⟨e, _⟩
      · have hl := hp.stored.lookup_mem hm
        rw [he] at hl
        have hl' : lookup r.headers ce = some p.2 := by rw [← hce]; exact hl
        rcases lookup_of_plain ok.headers ok.coding with h | ⟨v, h, h1, h2⟩
        · rw [h] at hl'; exact absurd hl' (by simp)
        · rw [h] at hl'
          simp only [Option.some.injEq] at hl'
          rw [← hl']
          exact ⟨h1, h2⟩
      · rw [e] at he
        have : cl ≠ "content-encoding".toList := by decide +kernel
        exact absurd he this
      · exact absurd he e
    · intro p hp' he
      refine ⟨?_, hn'⟩
      show p.2 = dec r.body.length
      rcases mem_arrived hp.stored hp' with hm | ⟨_, e⟩ | ⟨_, e⟩
      · have := hp.length p hm he
        rw [hbody] at this
        exact this
      · rw [e]
      · exact absurd he e
    · rw [hprep, encodeReq_text]
      have hsz := ok.size
      rw [encodeReq_text] at hsz
      have ew : wireReq (sendOnReq ⟨r.method, if r.url = [] then ['/'] else r.url, 0, r.minor, true,
          arrived (prepReq (zip Zg) host r).headers true r.body, r.body⟩) =
          ⟨.req r.method (if r.url = [] then ['/'] else r.url), r.minor, arrived (prepReq (zip Zg) host r).headers true r.body, r.body⟩ := by
        unfold wireReq sendOnReq
        dsimp only
        rw [hurl, arrived_complete hp.stored, List.append_nil]
      have ew0 : wireReq (prepReq (zip Zg) host r) = ⟨.req r.method (if r.url = [] then ['/'] else r.url), r.minor,
          (prepReq (zip Zg) host r).headers ++ added (prepReq (zip Zg) host r).headers true true r.body, r.body⟩ := by
        unfold wireReq
        rw [e4, e1, e2, e3, hbody]
      rw [ew0, ← text_length hp.stored] at hsz
      rw [ew]
      exact hsz
  have hg2 := plain_got (Zd := Zd) hok hn'
  refine ⟨_, by unfold handed; rw [hg]; rfl, ⟨by rw [hg0]; exact hh0, rfl⟩, hok, hn', ?_⟩
  unfold handed
  rw [hg2, hprep]
  have hfold : arrived (sendOnReq ⟨r.method, if r.url = [] then ['/'] else r.url, 0, r.minor, true,
      arrived (prepReq (zip Zg) host r).headers true r.body, r.body⟩).headers true (sendOnReq ⟨r.method, if r.url = [] then ['/'] else r.url, 0, r.minor, true,
      arrived (prepReq (zip Zg) host r).headers true r.body, r.body⟩).body = arrived (prepReq (zip Zg) host r).headers true r.body := by
    show arrived (arrived (prepReq (zip Zg) host r).headers true r.body) true r.body = _
    rw [arrived_eq (arrived_stored hp.stored _ _), arrived_complete hp.stored]
    rfl
  rw [hfold]
  by_cases h : r.url = [] <;> simp [sendOnReq, h]

/-- **C171.** Along any chain of such proxies, whatever their targets, the request that is received stays the same. -/
theorem c171_chain (Zg Zd : Gzip.Zlib) (host : Str) (hosts : List Str) (r : Req) (ok : OkReq Zg host r) (hn : ¬ packsReq r)
    (hh : ∀ h ∈ hosts, FieldSound ("host".toList, h)) : ∃ g, Same (.inl r) g ∧ handed Zg Zd host true (.inl r) = [g] ∧
      hosts.foldl (fun l h => l.flatMap (fun g => handed Zg Zd h true (.inl (sendOnReq g)))) (handed Zg Zd host true (.inl r)) = [g] := by
  obtain ⟨g, h1, h2, _⟩ := c171_request Zg Zd host host r ok hn ok.hostOk
  refine ⟨g, h2, h1, ?_⟩
  rw [h1]
  induction hosts with
  | nil => rfl
  | cons h t ih =>
    obtain ⟨g', h1', _, _, _, h3⟩ := c171_request Zg Zd host h r ok hn (hh h (by simp))
    rw [h1] at h1'
    simp only [List.cons.injEq, and_true] at h1'
    subst h1'
    rw [List.foldl_cons, List.flatMap_cons, List.flatMap_nil, List.append_nil, h3]
    exact ih (fun x hx => hh x (by simp [hx]))

/-! ### Responses -/

/-- The library does not compress this response for a client that accepts `a`. -/
def PlainResp (a : Str) (r : Resp) : Prop := ¬ packsResp "gzip".toList a r ∧ ¬ packsResp "deflate".toList a r

theorem plain_send {gz df : Str → Option Str} {a : Str} {r : Resp} (hn : PlainResp a r) : beforeSend gz df a r = r := by
  unfold beforeSend
  by_cases hp : r.body.length > 8096 ∧ hasHeader r.headers "Content-Encoding".toList = false
  · rw [if_pos hp, if_neg (fun hg => hn.1 ⟨hp.1, hp.2, hg⟩), if_neg (fun hg => hn.2 ⟨hp.1, hp.2, hg⟩)]
  · rw [if_neg hp]

theorem plain_gotR {Zg Zd : Gzip.Zlib} {host a : Str} {r : Resp} (ok : OkResp Zg Zd a r) (hn : PlainResp a r) :
    (wireM Zg Zd host (.inr (a, r))).got (unzip Zg Zd) false = some ⟨[], [], r.code.toNat, r.minor, true,
      arrived r.headers false r.body, r.body⟩ := by
  show (wireResp (beforeSend (zip Zg) (zip Zd) a r)).got (unzip Zg Zd) false = _
  rw [plain_send hn]
  have hd : decodeBody (unzip Zg Zd) false (arrived r.headers false r.body) r.body = some (arrived r.headers false r.body, r.body) := by
    apply decode_plain
    rw [arrived_ce ok.headers]
    exact lookup_of_plain ok.headers ok.coding
  unfold HMsg.got commit wireResp HMsg.info
  rw [ok.keep]
  simp only [Start.method, Start.url, Start.code]
  unfold arrived at hd ⊢
  rw [hd]
  rfl

/-- **C171.** The same for responses. -/
theorem c171_response (Zg Zd : Gzip.Zlib) (host a a' : Str) (r : Resp) (ok : OkResp Zg Zd a r) (hn : PlainResp a r) (hn' : PlainResp a' r) :
    ∃ g, handed Zg Zd host false (.inr (a, r)) = [g] ∧ Same (.inr (a, r)) g ∧
      OkResp Zg Zd a' (sendOnResp g) ∧ PlainResp a' (sendOnResp g) ∧ handed Zg Zd host false (.inr (a', sendOnResp g)) = [g] := by
  obtain ⟨g0, hg0, hh0, _, _, _⟩ := got_of (host := host) (i := true) (m := .inr (a, r)) (show Ok Zg Zd host true (.inr (a, r)) from ok)
  have hg := plain_gotR (host := host) ok hn
  rw [Bool.not_true] at hg0
  rw [hg] at hg0
  simp only [Option.some.injEq] at hg0
  have hs := ok.headers
  have hc : ((r.code.toNat : Nat) : Int) = r.code := by have := ok.code.1; omega
  have hpk : ∀ k x, packsResp k x (sendOnResp ⟨[], [], r.code.toNat, r.minor, true, arrived r.headers false r.body, r.body⟩) ↔ packsResp k x r := by
    intro k x
    unfold packsResp sendOnResp
    dsimp only
    rw [has_ce_arrived hs]
  have hpl : PlainResp a' (sendOnResp ⟨[], [], r.code.toNat, r.minor, true, arrived r.headers false r.body, r.body⟩) :=
    ⟨fun h => hn'.1 ((hpk _ _).1 h), fun h => hn'.2 ((hpk _ _).1 h)⟩
  have hok : OkResp Zg Zd a' (sendOnResp ⟨[], [], r.code.toNat, r.minor, true, arrived r.headers false r.body, r.body⟩) := by
    refine ⟨?_, ok.minor, rfl, arrived_stored hs _ _, ?_, ?_, ok.latin, ok.zips, ?_⟩
    · show 200 ≤ ((r.code.toNat : Nat) : Int) ∧ known ((r.code.toNat : Nat) : Int).toNat = true ∧ _
      rw [hc]
      exact ⟨ok.code.1, ok.code.2.1, fun h => ok.code.2.2 (by
        have : (((r.code.toNat : Nat) : Int) = 204 ∨ ((r.code.toNat : Nat) : Int) = 304) := h
        rw [hc] at this
        exact this)⟩
    · intro p hp' he
      rcases mem_arrived hs hp' with hm | ⟨_, e⟩ | ⟨e, _⟩
      · exact ok.coding p hm he
      · rw [e] at he
        have : cl ≠ "content-encoding".toList := by decide +kernel
        exact absurd he this
      · exact absurd he e
    · intro p hp' he
      refine ⟨?_, hpl⟩
      show p.2 = dec r.body.length
      rcases mem_arrived hs hp' with hm | ⟨_, e⟩ | ⟨_, e⟩
      · exact (ok.length p hm he).1
      · rw [e]
      · exact absurd he e
    · rw [plain_send hpl]
      have hsz := ok.size
      rw [plain_send hn, encodeResp_text _ (by have := ok.code.1; omega) ok.code.2.1 ok.minor, Option.getD_some] at hsz
      rw [encodeResp_text (sendOnResp ⟨[], [], r.code.toNat, r.minor, true, arrived r.headers false r.body, r.body⟩) (by show 0 ≤ ((r.code.toNat : Nat) : Int); omega) (by show known ((r.code.toNat : Nat) : Int).toNat = true; rw [hc]; exact ok.code.2.1) ok.minor, Option.getD_some]
      have ew : wireResp (sendOnResp ⟨[], [], r.code.toNat, r.minor, true, arrived r.headers false r.body, r.body⟩) =
          ⟨.resp r.code.toNat (desc r.code).toList, r.minor, arrived r.headers false r.body, r.body⟩ := by
        unfold wireResp sendOnResp
        dsimp only
        rw [arrived_complete hs, List.append_nil, hc]
      have ew0 : wireResp r = ⟨.resp r.code.toNat (desc r.code).toList, r.minor, r.headers ++ added r.headers true false r.body, r.body⟩ := by
        unfold wireResp
        rw [ok.keep]
      rw [ew0, ← text_length hs] at hsz
      rw [ew]
      exact hsz
  have hg2 := plain_gotR (host := host) hok hpl
  refine ⟨_, by unfold handed; rw [hg]; rfl, ⟨by rw [hg0]; exact hh0, rfl⟩, hok, hpl, ?_⟩
  unfold handed
  rw [hg2]
  have hfold : arrived (sendOnResp ⟨[], [], r.code.toNat, r.minor, true, arrived r.headers false r.body, r.body⟩).headers false
      (sendOnResp ⟨[], [], r.code.toNat, r.minor, true, arrived r.headers false r.body, r.body⟩).body = arrived r.headers false r.body := by
    show arrived (arrived r.headers false r.body) false r.body = _
    rw [arrived_eq (arrived_stored hs _ _), arrived_complete hs]
    rfl
  rw [hfold]
  rfl

/-- **C171.** Responses along any chain, back over hops none of which compresses them. -/
theorem c171_chain_response (Zg Zd : Gzip.Zlib) (host a : Str) (as : List Str) (r : Resp) (ok : OkResp Zg Zd a r) (hn : PlainResp a r)
    (hh : ∀ a' ∈ as, PlainResp a' r) : ∃ g, Same (.inr (a, r)) g ∧ handed Zg Zd host false (.inr (a, r)) = [g] ∧
      as.foldl (fun l a' => l.flatMap (fun g => handed Zg Zd host false (.inr (a', sendOnResp g)))) (handed Zg Zd host false (.inr (a, r))) = [g] := by
  obtain ⟨g, h1, h2, _⟩ := c171_response Zg Zd host a a r ok hn hn
  refine ⟨g, h2, h1, ?_⟩
  rw [h1]
  induction as with
  | nil => rfl
  | cons h t ih =>
    obtain ⟨g', h1', _, _, _, h3⟩ := c171_response Zg Zd host a h r ok hn (hh h (by simp))
    rw [h1] at h1'
    simp only [List.cons.injEq, and_true] at h1'
    subst h1'
    rw [List.foldl_cons, List.flatMap_cons, List.flatMap_nil, List.append_nil, h3]
    exact ih (fun x hx => hh x (by simp [hx]))

/-! ### Compressed messages -/

theorem get_append {h x : Headers} {k v : Str} (hl : lookup h (toLower k) = some v) : getHeader (h ++ x) k = v := by
  rw [getHeader_lookup]
  have : lookup (h ++ x) (toLower k) = some v := by
    unfold lookup at hl ⊢
    rw [List.find?_append]
    cases hf : h.find? (fun p => p.1 == toLower k) with
    | none => rw [hf] at hl; simp at hl
    | some p => rw [hf] at hl; simpa using hl
  rw [this]; rfl

theorem cl_low : toLower "Content-Length".toList = cl := by decide +kernel

/-- **C170, violation.** A request the library compressed and undid is sent on with the length it had compressed: it says less than its body has. -/
theorem c170_request_violated (Zg Zd : Gzip.Zlib) (host host' : Str) (r : Req) (ok : OkReq Zg host r) (hp : packsReq r)
    (hz : (Zg.deflate 9 (toB r.body)).data.length < r.body.length) :
    ∃ g, handed Zg Zd host true (.inl r) = [g] ∧ ∃ n, n < (wireM Zg Zd host' (.inl (sendOnReq g))).body.length ∧
      getHeader (wireM Zg Zd host' (.inl (sendOnReq g))).headers "Content-Length".toList = dec n := by
  obtain ⟨hpp, e1, e2, e3, e4, e5⟩ := prep_facts ok
  rcases e5 with ⟨n1, _⟩ | ⟨_, n2, n3⟩
  · exact absurd hp n1
  obtain ⟨b, b1, ⟨y, hy⟩, _⟩ := unzip_gzip (Zd := Zd) ok.zips ok.latin
  have hcl : lookup (prepReq (zip Zg) host r).headers cl = some (dec (Zg.deflate 9 (toB r.body)).data.length) := by
    have hq : (packReq (zip Zg) r).headers = insertHeader (insertHeader r.headers "Content-Encoding".toList "gzip".toList) "Content-Length".toList
        (dec (Zg.deflate 9 (toB r.body)).data.length) := by
      unfold packReq
      rw [if_pos ⟨hp.1, hp.2⟩, zip_eq ok.zips]
      dsimp only
      rw [ofB_length]
    have hn : lookup (insertHeader r.headers "Content-Encoding".toList "gzip".toList) cl = none := by
      have e : toLower "Content-Encoding".toList ≠ cl := by decide +kernel
      rw [lookup_insertHeader_ne e]
      cases hl : lookup r.headers cl with
      | none => rfl
      | some v =>
        exfalso
        unfold lookup at hl
        cases hf : r.headers.find? (fun p => p.1 == cl) with
        | none => rw [hf] at hl; simp at hl
        | some p =>
          have e := List.find?_some hf
          exact absurd hp (ok.length p (List.mem_of_find?_eq_some hf) (beq_iff_eq.1 e)).2
    have h1 : lookup (packReq (zip Zg) r).headers cl = some (dec (Zg.deflate 9 (toB r.body)).data.length) := by
      rw [hq]
      generalize dec _ = D
      unfold insertHeader at hn ⊢
      rw [if_neg (show ¬ "Content-Length".toList = [] by decide), lookup_insertKey, cl_low, if_pos rfl, hn]
    unfold prepReq
    generalize packReq (zip Zg) r = q at h1
    unfold hostReq
    split
    · have e : toLower "Host".toList ≠ cl := by decide +kernel
      dsimp only
      rw [lookup_insertHeader_ne e]
      exact h1
    · exact h1
  have hd : decodeBody (unzip Zg Zd) true (arrived (prepReq (zip Zg) host r).headers true (prepReq (zip Zg) host r).body)
      (prepReq (zip Zg) host r).body = some (arrived (prepReq (zip Zg) host r).headers true (prepReq (zip Zg) host r).body, b) := by
    rw [decode_gzip (by rw [arrived_ce hpp.stored, n3])]
    conv => lhs; arg 2; rw [n2, b1]
    rfl
  have hg : (wireM Zg Zd host (.inl r)).got (unzip Zg Zd) true = some ⟨r.method, if r.url = [] then ['/'] else r.url, 0, r.minor, true,
      arrived (prepReq (zip Zg) host r).headers true (prepReq (zip Zg) host r).body, b⟩ := by
    show (wireReq (prepReq (zip Zg) host r)).got (unzip Zg Zd) true = _
    unfold HMsg.got commit wireReq HMsg.info
    rw [e4, e1, e2, e3]
    simp only [Start.method, Start.url, Start.code]
    unfold arrived at hd ⊢
    rw [hd]
    rfl
  refine ⟨_, by unfold handed; rw [hg]; rfl, (Zg.deflate 9 (toB r.body)).data.length, ?_⟩
  have hce : hasHeader (arrived (prepReq (zip Zg) host r).headers true (prepReq (zip Zg) host r).body) "Content-Encoding".toList = true := by
    rw [has_ce_arrived hpp.stored]
    have e : toLower "Content-Encoding".toList = ce := by decide +kernel
    unfold hasHeader
    rw [e]
    have := any_eq_lookup (prepReq (zip Zg) host r).headers ce
    rw [n3] at this
    exact this
  have hsame : prepReq (zip Zg) host' (sendOnReq ⟨r.method, if r.url = [] then ['/'] else r.url, 0, r.minor, true,
      arrived (prepReq (zip Zg) host r).headers true (prepReq (zip Zg) host r).body, b⟩) = sendOnReq ⟨r.method, if r.url = [] then ['/'] else r.url, 0, r.minor, true,
      arrived (prepReq (zip Zg) host r).headers true (prepReq (zip Zg) host r).body, b⟩ := by
    apply prep_same
    · intro hc
      have := hc.2
      unfold sendOnReq at this
      dsimp only at this
      rw [hce] at this
      exact absurd this (by decide)
    · exact has_mono hpp.stored prep_host
  unfold wireM
  dsimp only
  rw [hsame]
  constructor
  · show _ < b.length
    rw [← hy, List.length_append]
    omega
  · unfold wireReq sendOnReq
    dsimp only
    apply get_append
    rw [cl_low, arrived_eq hpp.stored]
    exact lookup_fold_some _ hcl

/-- **C170, violation.** A response of the library that was too large to go uncompressed to a client that accepts gzip, received uncompressed and sent
on to such a client, is compressed but keeps the length it had: it says more than its body has, and the client waits for the rest. -/
theorem c170_response_violated (Zg Zd : Gzip.Zlib) (host a a' : Str) (r : Resp) (ok : OkResp Zg Zd a r) (hn : PlainResp a r)
    (hp : packsResp "gzip".toList a' r) (hz : (Zg.deflate 9 (toB r.body)).data.length < r.body.length) :
    ∃ g, handed Zg Zd host false (.inr (a, r)) = [g] ∧ ∃ n, (wireM Zg Zd host (.inr (a', sendOnResp g))).body.length < n ∧
      getHeader (wireM Zg Zd host (.inr (a', sendOnResp g))).headers "Content-Length".toList = dec n := by
  have hg := plain_gotR (host := host) ok hn
  have hs := ok.headers
  refine ⟨_, by unfold handed; rw [hg]; rfl, r.body.length, ?_⟩
  have hb : beforeSend (zip Zg) (zip Zd) a' (sendOnResp ⟨[], [], r.code.toNat, r.minor, true, arrived r.headers false r.body, r.body⟩) =
      ⟨(r.code.toNat : Nat), r.minor, insertHeader (arrived r.headers false r.body) "Content-Encoding".toList "gzip".toList, true, ofB (Zg.deflate 9 (toB r.body)).data⟩ := by
    unfold beforeSend sendOnResp
    dsimp only
    rw [if_pos ⟨hp.1, by rw [has_ce_arrived hs]; exact hp.2.1⟩, if_pos hp.2.2, zip_eq ok.zips.1]
  have hcl : lookup (arrived r.headers false r.body) cl = some (dec r.body.length) := by
    cases hh : hasHeader r.headers "Content-Length".toList with
    | true =>
      rw [has_iff, cl_low] at hh
      obtain ⟨p, hm, he⟩ := List.mem_map.1 hh
      have := arrived_mem hs false r.body hm
      rw [he, (ok.length p hm he).1] at this
      exact this
    | false =>
      have hm : (cl, dec r.body.length) ∈ arrived r.headers false r.body := by
        rw [arrived_list hs, List.mem_append]
        right
        refine List.mem_map.2 ⟨("Content-Length".toList, dec r.body.length), ?_, by dsimp only; rw [cl_low]⟩
        unfold added
        generalize dec r.body.length = D
        rw [hh]
        simp only [List.mem_append]
        exact Or.inl (Or.inr (List.mem_singleton.2 rfl))
      exact (arrived_stored hs false r.body).lookup_mem hm
  unfold wireM
  dsimp only
  rw [hb]
  constructor
  · show (ofB (Zg.deflate 9 (toB r.body)).data).length < _
    rw [ofB_length]
    exact hz
  · unfold wireResp
    dsimp only
    apply get_append
    rw [cl_low]
    exact lookup_insertHeader_some hcl

/-! ### Cases -/

/-- A request of 3 bytes along two proxies. -/
example : ∃ g, Same (.inl (demoReq 3)) g ∧ handed Gzip.stored Gzip.stored demoHost true (.inl (demoReq 3)) = [g] ∧
    ["p".toList, "q:1".toList].foldl (fun l h => l.flatMap (fun g => handed Gzip.stored Gzip.stored h true (.inl (sendOnReq g))))
      (handed Gzip.stored Gzip.stored demoHost true (.inl (demoReq 3))) = [g] := by
  refine c171_chain Gzip.stored Gzip.stored demoHost ["p".toList, "q:1".toList] (demoReq 3) (demoReq_ok 3 (by decide) (by decide +kernel)) ?_ ?_
  · intro h
    exact absurd h.1 (by show ¬ 8096 < (List.replicate 3 'a').length; decide)
  · intro h hm
    rcases List.mem_cons.1 hm with e | hm
    · rw [e]; exact ⟨⟨by decide +kernel, by decide +kernel⟩, by decide +kernel⟩
    · rw [List.mem_singleton] at hm
      rw [hm]; exact ⟨⟨by decide +kernel, by decide +kernel⟩, by decide +kernel⟩

/-- A format that makes a run of one byte shorter: so the violations of C170 have cases. -/
def runs : Gzip.Zlib where
  levelOk l := decide (-1 ≤ l ∧ l ≤ 9)
  deflate _ x := if x = List.replicate 8100 98 then Gzip.storedStream [2] 1 (by decide) else if x = List.replicate 8100 97 then Gzip.storedStream [3] 1 (by decide) else Gzip.storedStream (1 :: x) 1 (by decide)
  inflate s := if s = [2] then Gzip.storedStream (List.replicate 8100 98) 1 (by decide) else if s = [3] then Gzip.storedStream (List.replicate 8100 97) 1 (by decide) else Gzip.storedStream s.tail 1 (by decide)
  deflate_end l x := by
    split
    · rfl
    · split <;> rfl
  inverse l x := by
    split
    · rename_i h
      exact ⟨h.symm, rfl⟩
    · split
      · rename_i h
        exact ⟨h.symm, rfl⟩
      · constructor
        · show (if 1 :: x = [2] then _ else if 1 :: x = [3] then _ else _ : Gzip.Stream).data = x
          rw [if_neg (by simp), if_neg (by simp)]
          rfl
        · show (if 1 :: x = [2] then _ else if 1 :: x = [3] then _ else _ : Gzip.Stream).final = 1
          rw [if_neg (by simp), if_neg (by simp)]
          rfl

theorem runs_short : (runs.deflate 9 (toB (demoReq 8100).body)).data = [3] ∧ (runs.deflate 9 (toB (demoResp 8100).body)).data = [2] := by
  have e1 : toB (demoReq 8100).body = List.replicate 8100 97 := by
    show (List.replicate 8100 'a').map _ = _
    rw [List.map_replicate]; rfl
  have e2 : toB (demoResp 8100).body = List.replicate 8100 98 := by
    show (List.replicate 8100 'b').map _ = _
    rw [List.map_replicate]; rfl
  have hne : List.replicate 8100 (97 : UInt8) ≠ List.replicate 8100 98 := by
    intro h
    have := congrArg List.head? h
    rw [List.head?_replicate, List.head?_replicate] at this
    exact absurd this (by decide)
  rw [e1, e2]
  unfold runs
  dsimp only
  rw [if_neg hne, if_pos rfl, if_pos rfl]
  exact ⟨rfl, rfl⟩

/-- The hypotheses of the violations are met. -/
theorem w_c170 : OkReq runs demoHost (demoReq 8100) ∧ packsReq (demoReq 8100) ∧ OkResp runs runs [] (demoResp 8100) ∧ PlainResp [] (demoResp 8100) ∧
    packsResp "gzip".toList demoAccept (demoResp 8100) := by
  have hl1 : (demoReq 8100).body.length = 8100 := List.length_replicate
  have hl2 : (demoResp 8100).body.length = 8100 := List.length_replicate
  have z1 : Zips runs (demoReq 8100).body := ⟨by decide, by rw [hl1]; decide, by rw [runs_short.1]; decide⟩
  have z2 : Zips runs (demoResp 8100).body := ⟨by decide, by rw [hl2]; decide, by rw [runs_short.2]; decide⟩
  have hp : packsReq (demoReq 8100) := ⟨by rw [hl1]; decide, by decide +kernel⟩
  have hzip : zip runs (demoReq 8100).body = some (ofB [3]) := by rw [zip_eq z1, runs_short.1]
  have hprep : prepReq (zip runs) demoHost (demoReq 8100) = prepReq (fun _ => some (ofB [3])) demoHost (demoReq 8100) := by
    unfold prepReq packReq
    rw [if_pos ⟨hp.1, hp.2⟩, if_pos ⟨hp.1, hp.2⟩, hzip]
  have h1 := demoReq_ok 8100 (by decide) (by decide +kernel)
  have h2 := demoResp_ok [] 8100 (by decide) (by decide +kernel)
  have hpl : PlainResp [] (demoResp 8100) := by
    have : ∀ k, k = "gzip".toList ∨ k = "deflate".toList → (find [] k 0).isSome = false := by
      intro k hk
      rcases hk with rfl | rfl <;> decide +kernel
    constructor
    · intro h
      have := this _ (Or.inl rfl)
      rw [h.2.2] at this
      exact absurd this (by decide)
    · intro h
      have := this _ (Or.inr rfl)
      rw [h.2.2] at this
      exact absurd this (by decide)
  refine ⟨⟨h1.method, h1.url, h1.minor, h1.keep, h1.headers, h1.coding, h1.length, h1.latin, z1, h1.hostOk, by rw [hprep]; decide +kernel⟩, hp,
    ⟨h2.code, h2.minor, h2.keep, h2.headers, h2.coding, h2.length, h2.latin, ⟨z2, z2⟩, by rw [plain_send hpl]; decide +kernel⟩, hpl, ⟨by rw [hl2]; decide, by decide +kernel, by decide +kernel⟩⟩

end Ltio.Http.Conn
