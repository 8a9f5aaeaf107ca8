import Verif.Http.Send
import Verif.Http.ReceiveTok
import Verif.Net.EndToEndCodecs
/-
Both ends of an HTTP/1 connection: the encoders (Send.lean), the connection (EndToEnd.lean) and the parser (Receive.lean); llhttp and
zlib by their contracts.  `SendRequest` and `SendResponse` (http_codec_service.cc:132-183) write into the output buffer and post a
flush: here the send is a step of the connection without a flush that gets anything written (script `[]`) and the posted flush is a
write event, or the flush is at once.  Connections are kept alive: closing is C40, C45, C78.
-/
namespace Ltio.Http.Conn
open Ltio.Text Ltio.Net Ltio.Net.E2E

/-- Characters and bytes. -/
def toB (s : Str) : List UInt8 := s.map (fun c => UInt8.ofNat c.toNat)
def ofB (b : List UInt8) : Str := b.map (fun x => Char.ofNat x.toNat)

theorem char_byte (x : UInt8) : (Char.ofNat x.toNat).toNat = x.toNat := by
  have h : x.toNat < 256 := x.toNat_lt
  have hv : x.toNat.isValidChar := by left; omega
  rw [Char.ofNat, dif_pos hv]
  rfl

theorem toB_ofB (b : List UInt8) : toB (ofB b) = b := by
  unfold toB ofB
  rw [List.map_map]
  conv => rhs; rw [← List.map_id b]
  apply List.map_congr_left
  intro x _
  simp only [Function.comp_apply, char_byte, id_eq]
  exact UInt8.ofNat_toNat

theorem ofB_toB {s : Str} (h : ∀ c ∈ s, c.toNat < 256) : ofB (toB s) = s := by
  unfold toB ofB
  rw [List.map_map]
  conv => rhs; rw [← List.map_id s]
  apply List.map_congr_left
  intro c hc
  simp only [Function.comp_apply, id_eq]
  rw [UInt8.toNat_ofNat', Nat.mod_eq_of_lt (h c hc), Char.ofNat_toNat]

theorem ofB_append (a b : List UInt8) : ofB (a ++ b) = ofB a ++ ofB b := by simp [ofB]

theorem ofB_latin (b : List UInt8) : ∀ c ∈ ofB b, c.toNat < 256 := by
  intro c hc
  obtain ⟨x, _, rfl⟩ := List.mem_map.1 hc
  rw [char_byte]
  exact x.toNat_lt

/-! ### Compression (base/utils/gzip) -/

/-- `compress_gzip`, `compress_deflate` with the default level; `none`: not 0. -/
def zip (Z : Gzip.Zlib) (s : Str) : Option Str :=
  (Gzip.compress Z 9 (toB s) []).bind (fun x => if x.1 = 0 then some (ofB x.2) else none)

/-- `decompress_gzip`, `decompress_deflate`. -/
def unzip (Zg Zd : Gzip.Zlib) : Unzip where
  gzip s := (Gzip.decompressGzip Zg (toB s) []).bind (fun x => if x.1 = 0 then some (ofB x.2) else none)
  deflate s := (Gzip.decompressDeflate Zd (toB s) []).bind (fun x => if x.1 = 0 then some (ofB x.2) else none)

/-- Sizes zlib and the 32-bit counters can take. -/
structure Zips (Z : Gzip.Zlib) (s : Str) : Prop where
  level : Z.levelOk 9 = true
  plain : s.length < 2 ^ 31
  packed : (Z.deflate 9 (toB s)).data.length < 2 ^ 31

theorem toB_length (s : Str) : (toB s).length = s.length := by simp [toB]
theorem ofB_length (s : List UInt8) : (ofB s).length = s.length := by simp [ofB]

theorem zip_eq {Z : Gzip.Zlib} {s : Str} (h : Zips Z s) : zip Z s = some (ofB (Z.deflate 9 (toB s)).data) := by
  have h1 := h.plain
  have h2 := h.packed
  unfold zip
  rw [(Gzip.c103_compress Z 9 (toB s) [] (by rw [toB_length]; omega) (by omega)).1 h.level]
  rfl

theorem unzip_deflate {Zg Zd : Gzip.Zlib} {s : Str} (h : Zips Zd s) (hl : ∀ c ∈ s, c.toNat < 256) :
    (unzip Zg Zd).deflate (ofB (Zd.deflate 9 (toB s)).data) = some s := by
  have h1 := h.plain
  have h2 := h.packed
  obtain ⟨i1, i2⟩ := Zd.inverse 9 (toB s)
  unfold unzip
  simp only [toB_ofB]
  rw [(Gzip.c103_inflate Zd _ [] (by omega) (by rw [i1, toB_length]; omega)).1 i2, i1]
  simp [ofB_toB hl]

theorem unzip_gzip {Zg Zd : Gzip.Zlib} {s : Str} (h : Zips Zg s) (hl : ∀ c ∈ s, c.toNat < 256) :
    ∃ b, (unzip Zg Zd).gzip (ofB (Zg.deflate 9 (toB s)).data) = some b ∧ s <+: b ∧
      (s.length < 16384 → b = s ++ List.replicate (16384 - s.length) nul) := by
  have h1 := h.plain
  have h2 := h.packed
  obtain ⟨i1, i2⟩ := Zg.inverse 9 (toB s)
  obtain ⟨o, ho, hp⟩ := (Gzip.c102_gunzip_prefix Zg (Zg.deflate 9 (toB s)).data [] (by omega) (by rw [i1, toB_length]; omega)).1 i2
  refine ⟨ofB o, ?_, ?_, ?_⟩
  · unfold unzip
    simp only [toB_ofB, ho]
    simp
  · rw [i1, toB_length] at hp
    refine ⟨ofB (o.drop s.length), ?_⟩
    have e : ofB (o.take s.length) = s := by rw [hp, ofB_toB hl]
    calc s ++ ofB (o.drop s.length) = ofB (o.take s.length) ++ ofB (o.drop s.length) := by rw [e]
      _ = ofB o := by rw [← ofB_append, List.take_append_drop]
  · intro hs
    have := (Gzip.c102_gunzip_padded Zg 9 (toB s) [] [] h.level (by rw [toB_length]; exact hs) (by omega)).1
    rw [(Gzip.c103_compress Zg 9 (toB s) [] (by rw [toB_length]; omega) (by omega)).1 h.level, Option.bind_some, ho] at this
    simp only [Option.some.injEq, Prod.mk.injEq, true_and] at this
    rw [this, ofB_append, ofB_toB hl, toB_length]
    congr 1
    unfold Gzip.resize ofB
    simp only [List.take_nil, List.nil_append, List.length_nil, Nat.sub_zero, List.drop_replicate, List.map_replicate]
    rfl

/-! ### Messages of the applications -/

/-- A request, or a response with the Accept-Encoding of the request it answers. -/
abbrev M := Req ⊕ (Str × Resp)

/-- A content encoding the library does not know. -/
def PlainCoding (h : Headers) : Prop :=
  ∀ p ∈ h, p.1 = "content-encoding".toList → find p.2 "gzip".toList 0 = none ∧ find p.2 "deflate".toList 0 = none

/-- The library compresses the body of this request. -/
def packsReq (r : Req) : Prop := 8096 < r.body.length ∧ hasHeader r.headers "Content-Encoding".toList = false

/-- … of this response, with gzip; with deflate. -/
def packsResp (k accept : Str) (r : Resp) : Prop :=
  8096 < r.body.length ∧ hasHeader r.headers "Content-Encoding".toList = false ∧ (find accept k 0).isSome = true

/-- Requests: any method, URL and headers HTTP allows, and any body. -/
structure OkReq (Zg : Gzip.Zlib) (host : Str) (r : Req) : Prop where
  method : r.method ∈ methods
  url : r.url = [] ∨ (r.url.head? = some '/' ∧ r.url.all urlChar = true)
  minor : r.minor ≤ 1
  keep : r.keepAlive = true
  headers : Stored r.headers
  coding : PlainCoding r.headers
  length : ∀ p ∈ r.headers, p.1 = "content-length".toList → p.2 = dec r.body.length ∧ ¬ packsReq r
  latin : ∀ c ∈ r.body, c.toNat < 256
  zips : Zips Zg r.body
  hostOk : FieldSound ("host".toList, host)
  size : (encodeReq (prepReq (zip Zg) host r)).length < 2 ^ 31

/-- Responses: a code of the table (C31) that may have a body. -/
structure OkResp (Zg Zd : Gzip.Zlib) (accept : Str) (r : Resp) : Prop where
  code : 200 ≤ r.code ∧ known r.code.toNat = true ∧ ((r.code = 204 ∨ r.code = 304) → r.body = [])
  minor : r.minor ≤ 1
  keep : r.keepAlive = true
  headers : Stored r.headers
  coding : PlainCoding r.headers
  length : ∀ p ∈ r.headers, p.1 = "content-length".toList → p.2 = dec r.body.length ∧ ¬ packsResp "gzip".toList accept r ∧ ¬ packsResp "deflate".toList accept r
  latin : ∀ c ∈ r.body, c.toNat < 256
  zips : Zips Zg r.body ∧ Zips Zd r.body
  size : ((encodeResp (beforeSend (zip Zg) (zip Zd) accept r)).getD []).length < 2 ^ 31

/-- The client (`false`) sends requests, the server (`true`) responses. -/
def Ok (Zg Zd : Gzip.Zlib) (host : Str) : Bool → M → Prop
  | false, .inl r => OkReq Zg host r
  | true, .inr (a, r) => OkResp Zg Zd a r
  | _, _ => False

def wireM (Zg Zd : Gzip.Zlib) (host : Str) : M → HMsg
  | .inl r => wireReq (prepReq (zip Zg) host r)
  | .inr (a, r) => wireResp (beforeSend (zip Zg) (zip Zd) a r)

/-- The bytes written. -/
def bytes (Zg Zd : Gzip.Zlib) (host : Str) : M → Str
  | .inl r => encodeReq (prepReq (zip Zg) host r)
  | .inr (a, r) => (encodeResp (beforeSend (zip Zg) (zip Zd) a r)).getD []

def pieces (Zg Zd : Gzip.Zlib) (host : Str) (m : M) : List (List UInt8) := [toB (bytes Zg Zd host m)]

/-- All but the body is as it was sent. -/
def HeadOk : M → Got → Prop
  | .inl r, g => g.method = r.method ∧ g.url = (if r.url = [] then ['/'] else r.url) ∧ g.minor = r.minor ∧ g.keep = true ∧
      ∀ p ∈ r.headers, getHeader g.headers p.1 = p.2
  | .inr (_, r), g => (g.code : Int) = r.code ∧ g.minor = r.minor ∧ g.keep = true ∧ ∀ p ∈ r.headers, getHeader g.headers p.1 = p.2

def bodyM : M → Str
  | .inl r => r.body
  | .inr (_, r) => r.body

/-- Sent with gzip by the library. -/
def Gzipped : M → Prop
  | .inl r => packsReq r
  | .inr (a, r) => packsResp "gzip".toList a r

/-! ### What is sent, and what it is made into -/

theorem host_stored {h : Headers} (hs : Stored h) {host : Str} (hf : FieldSound ("host".toList, host)) : Stored (insertHeader h "Host".toList host) := by
  have e : toLower "Host".toList = "host".toList := by decide +kernel
  refine hs.insert (by rw [e]; exact hf) (by decide) (by decide +kernel) (fun h => ?_) (by decide +kernel)
  rw [e] at h
  exact absurd h (by decide +kernel)

theorem ce_stored {h : Headers} (hs : Stored h) {v : Str} (hf : FieldSound (ce, v)) : Stored (insertHeader h "Content-Encoding".toList v) := by
  have e : toLower "Content-Encoding".toList = ce := by decide +kernel
  refine hs.insert (by rw [e]; exact hf) (by decide) (by decide +kernel) (fun h => ?_) (by decide +kernel)
  rw [e] at h
  exact absurd h (by decide +kernel)

theorem cl_stored {h : Headers} (hs : Stored h) (n : Nat) : Stored (insertHeader h "Content-Length".toList (dec n)) := by
  have e : toLower "Content-Length".toList = cl := by decide +kernel
  refine hs.insert (by rw [e]; exact ⟨⟨show cl ≠ [] by decide +kernel, show cl.all tokenChar = true by decide +kernel⟩, sound_value_dec n⟩) (by decide) (by decide +kernel) (fun h => ?_) (by decide +kernel)
  rw [e] at h
  exact absurd h (by decide +kernel)

theorem insertHeader_mem {h : Headers} {k v : Str} {p : Str × Str} (hp : p ∈ h) : p ∈ insertHeader h k v := by
  unfold insertHeader insertKey
  split
  · exact hp
  · split
    · exact hp
    · exact List.mem_append_left _ hp

theorem insertHeader_mem_inv {h : Headers} {k v : Str} {p : Str × Str} (hp : p ∈ insertHeader h k v) : p ∈ h ∨ p = (toLower k, v) := by
  unfold insertHeader insertKey at hp
  split at hp
  · exact Or.inl hp
  · split at hp
    · exact Or.inl hp
    · simpa using hp

/-- What a prepared message looks like. -/
structure Prepared (h : Headers) (body : Str) (h' : Headers) (body' : Str) : Prop where
  stored : Stored h'
  keeps : ∀ p ∈ h, p ∈ h'
  length : ∀ p ∈ h', p.1 = "content-length".toList → p.2 = dec body'.length
  latin : (∀ c ∈ body', c.toNat < 256) ∧ body'.length < 2 ^ 31

theorem lookup_of_plain {h : Headers} (_hs : Stored h) (hc : PlainCoding h) : lookup h ce = none ∨ ∃ v, lookup h ce = some v ∧
    find v "gzip".toList 0 = none ∧ find v "deflate".toList 0 = none := by
  cases hl : lookup h ce with
  | none => exact Or.inl rfl
  | some v =>
    right
    unfold lookup at hl
    cases hf : h.find? (fun p => p.1 == ce) with
    | none => rw [hf] at hl; simp at hl
    | some p =>
      rw [hf] at hl
      simp only [Option.map_some, Option.some.injEq] at hl
      have := hc p (List.mem_of_find?_eq_some hf) (by have e := List.find?_some hf; exact beq_iff_eq.1 e)
      rw [hl] at this
      exact ⟨v, rfl, this⟩

theorem ce_field (v : Str) (h : v = "gzip".toList ∨ v = "deflate".toList) : FieldSound (ce, v) := by
  rcases h with rfl | rfl
  · exact ⟨by decide +kernel, by decide +kernel⟩
  · exact ⟨by decide +kernel, by decide +kernel⟩

theorem no_ce_lookup {h : Headers} (hh : hasHeader h "Content-Encoding".toList = false) : lookup h ce = none := by
  have := lookup_none_of_has hh
  have e : toLower "Content-Encoding".toList = ce := by decide +kernel
  rwa [e] at this

theorem lookup_insert_ce {h : Headers} {v : Str} (hh : hasHeader h "Content-Encoding".toList = false) :
    lookup (insertHeader h "Content-Encoding".toList v) ce = some v := by
  have e : toLower "Content-Encoding".toList = ce := by decide +kernel
  unfold insertHeader
  rw [if_neg (by decide), lookup_insertKey, e, if_pos rfl, no_ce_lookup hh]

theorem host_step {h : Headers} {body : Str} {host : Str} {h' : Headers} {body' : Str} (hp : Prepared h body h' body')
    (hf : FieldSound ("host".toList, host)) : Prepared h body (insertHeader h' "Host".toList host) body' := by
  refine ⟨host_stored hp.stored hf, fun p hp' => insertHeader_mem (hp.keeps p hp'), ?_, hp.latin⟩
  intro p hp' he
  have hne : toLower "Host".toList ≠ "content-length".toList := by decide +kernel
  rcases insertHeader_mem_inv hp' with hp' | e
  · exact hp.length p hp' he
  · rw [e] at he
    exact absurd he hne

theorem ce_ne_cl : toLower "Content-Encoding".toList ≠ "content-length".toList := by decide +kernel

theorem pack_facts {Zg : Gzip.Zlib} {host : Str} {r : Req} (ok : OkReq Zg host r) :
    Prepared r.headers r.body (packReq (zip Zg) r).headers (packReq (zip Zg) r).body ∧
    (packReq (zip Zg) r).method = r.method ∧ (packReq (zip Zg) r).url = r.url ∧ (packReq (zip Zg) r).minor = r.minor ∧
    (packReq (zip Zg) r).keepAlive = true ∧
    ((¬ packsReq r ∧ (packReq (zip Zg) r).body = r.body ∧ lookup (packReq (zip Zg) r).headers ce = lookup r.headers ce) ∨
     (packsReq r ∧ (packReq (zip Zg) r).body = ofB (Zg.deflate 9 (toB r.body)).data ∧ lookup (packReq (zip Zg) r).headers ce = some "gzip".toList)) := by
  have hcl : toLower "Content-Length".toList ≠ ce := by decide +kernel
  have hz := zip_eq ok.zips
  have h1 := ok.zips.plain
  have h2 := ok.zips.packed
  by_cases hp : packsReq r
  · have e : packReq (zip Zg) r = { r with body := ofB (Zg.deflate 9 (toB r.body)).data, headers := insertHeader (insertHeader r.headers "Content-Encoding".toList "gzip".toList) "Content-Length".toList (dec (ofB (Zg.deflate 9 (toB r.body)).data).length) } := by
      unfold packReq
      rw [if_pos ⟨hp.1, hp.2⟩, hz]
    rw [e]
    dsimp only
    refine ⟨⟨cl_stored (ce_stored ok.headers (ce_field _ (Or.inl rfl))) _, fun p hp => insertHeader_mem (insertHeader_mem hp), ?_, ofB_latin _, by rw [ofB_length]; exact h2⟩,
      rfl, rfl, rfl, ok.keep, Or.inr ⟨hp, rfl, ?_⟩⟩
    · intro p hp' he
      rcases insertHeader_mem_inv hp' with hp' | e
      · rcases insertHeader_mem_inv hp' with hp' | e
        · exact absurd hp (ok.length p hp' he).2
        · rw [e] at he
          exact absurd he ce_ne_cl
      · rw [e]
    · show lookup (insertHeader (insertHeader r.headers _ _) _ _) ce = _
      rw [lookup_insertHeader_ne hcl, lookup_insert_ce hp.2]
  · have e : packReq (zip Zg) r = r := by
      unfold packReq
      rw [if_neg (fun h => hp ⟨h.1, h.2⟩)]
    rw [e]
    exact ⟨⟨ok.headers, fun _ h => h, fun p hp he => (ok.length p hp he).1, ok.latin, h1⟩, rfl, rfl, rfl, ok.keep, Or.inl ⟨hp, rfl, rfl⟩⟩

theorem prep_facts {Zg : Gzip.Zlib} {host : Str} {r : Req} (ok : OkReq Zg host r) :
    Prepared r.headers r.body (prepReq (zip Zg) host r).headers (prepReq (zip Zg) host r).body ∧
    (prepReq (zip Zg) host r).method = r.method ∧ (prepReq (zip Zg) host r).url = r.url ∧ (prepReq (zip Zg) host r).minor = r.minor ∧
    (prepReq (zip Zg) host r).keepAlive = true ∧
    ((¬ packsReq r ∧ (prepReq (zip Zg) host r).body = r.body ∧ lookup (prepReq (zip Zg) host r).headers ce = lookup r.headers ce) ∨
     (packsReq r ∧ (prepReq (zip Zg) host r).body = ofB (Zg.deflate 9 (toB r.body)).data ∧ lookup (prepReq (zip Zg) host r).headers ce = some "gzip".toList)) := by
  have hce : toLower "Host".toList ≠ ce := by decide +kernel
  have hf := pack_facts ok
  unfold prepReq
  generalize packReq (zip Zg) r = q at hf ⊢
  unfold hostReq
  split
  · obtain ⟨a1, a2, a3, a4, a5, a6⟩ := hf
    refine ⟨host_step a1 ok.hostOk, a2, a3, a4, a5, ?_⟩
    dsimp only
    rw [lookup_insertHeader_ne hce]
    exact a6
  · exact hf

theorem resp_facts {Zg Zd : Gzip.Zlib} {a : Str} {r : Resp} (ok : OkResp Zg Zd a r) :
    Prepared r.headers r.body (beforeSend (zip Zg) (zip Zd) a r).headers (beforeSend (zip Zg) (zip Zd) a r).body ∧
    (beforeSend (zip Zg) (zip Zd) a r).code = r.code ∧ (beforeSend (zip Zg) (zip Zd) a r).minor = r.minor ∧
    (beforeSend (zip Zg) (zip Zd) a r).keepAlive = true ∧
    ((¬ packsResp "gzip".toList a r ∧ (beforeSend (zip Zg) (zip Zd) a r).body = r.body ∧ (beforeSend (zip Zg) (zip Zd) a r).headers = r.headers) ∨
     (packsResp "gzip".toList a r ∧ (beforeSend (zip Zg) (zip Zd) a r).body = ofB (Zg.deflate 9 (toB r.body)).data ∧
        hasHeader r.headers "Content-Encoding".toList = false ∧ lookup (beforeSend (zip Zg) (zip Zd) a r).headers ce = some "gzip".toList) ∨
     (¬ packsResp "gzip".toList a r ∧ (beforeSend (zip Zg) (zip Zd) a r).body = ofB (Zd.deflate 9 (toB r.body)).data ∧
        hasHeader r.headers "Content-Encoding".toList = false ∧ lookup (beforeSend (zip Zg) (zip Zd) a r).headers ce = some "deflate".toList)) := by
  have hzg := zip_eq ok.zips.1
  have hzd := zip_eq ok.zips.2
  have h1 := ok.zips.1.plain
  have hpre : ∀ (Z : Gzip.Zlib) (v : Str), (v = "gzip".toList ∨ v = "deflate".toList) → (Z.deflate 9 (toB r.body)).data.length < 2 ^ 31 →
      packsResp v a r → Prepared r.headers r.body (insertHeader r.headers "Content-Encoding".toList v) (ofB (Z.deflate 9 (toB r.body)).data) := by
    intro Z v hv hlen hp
    refine ⟨ce_stored ok.headers (ce_field _ hv), fun p hp => insertHeader_mem hp, ?_, ofB_latin _, by rw [ofB_length]; exact hlen⟩
    intro p hp' he
    rcases insertHeader_mem_inv hp' with hp' | e
    · have := (ok.length p hp' he).2
      rcases hv with rfl | rfl
      · exact absurd hp this.1
      · exact absurd hp this.2
    · rw [e] at he
      exact absurd he ce_ne_cl
  have hz0 : Prepared r.headers r.body r.headers r.body :=
    ⟨ok.headers, fun _ h => h, fun p hp he => (ok.length p hp he).1, ok.latin, h1⟩
  unfold beforeSend
  by_cases hp : r.body.length > 8096 ∧ hasHeader r.headers "Content-Encoding".toList = false
  · rw [if_pos hp]
    by_cases hg : (find a "gzip".toList 0).isSome = true
    · rw [if_pos hg, hzg]
      exact ⟨hpre Zg _ (Or.inl rfl) ok.zips.1.packed ⟨hp.1, hp.2, hg⟩, rfl, rfl, ok.keep, Or.inr (Or.inl ⟨⟨hp.1, hp.2, hg⟩, rfl, hp.2, lookup_insert_ce hp.2⟩)⟩
    · rw [if_neg hg]
      have hng : ¬ packsResp "gzip".toList a r := fun h => hg h.2.2
      by_cases hd : (find a "deflate".toList 0).isSome = true
      · rw [if_pos hd, hzd]
        exact ⟨hpre Zd _ (Or.inr rfl) ok.zips.2.packed ⟨hp.1, hp.2, hd⟩, rfl, rfl, ok.keep, Or.inr (Or.inr ⟨hng, rfl, hp.2, lookup_insert_ce hp.2⟩)⟩
      · rw [if_neg hd]
        exact ⟨hz0, rfl, rfl, ok.keep, Or.inl ⟨hng, rfl, rfl⟩⟩
  · rw [if_neg hp]
    exact ⟨hz0, rfl, rfl, ok.keep, Or.inl ⟨fun h => hp ⟨h.1, h.2.1⟩, rfl, rfl⟩⟩

theorem wireM_sound {Zg Zd : Gzip.Zlib} {host : Str} {i : Bool} {m : M} (h : Ok Zg Zd host i m) : (wireM Zg Zd host m).Sound (!i) := by
  cases i with
  | false =>
    cases m with
    | inr x => exact h.elim
    | inl r =>
      have ok : OkReq Zg host r := h
      obtain ⟨hp, e1, e2, e3, e4, _⟩ := prep_facts ok
      show (wireReq (prepReq (zip Zg) host r)).Sound true
      unfold wireReq
      rw [e4, e1, e2, e3]
      refine sound_of hp.stored ?_ ok.minor hp.length hp.latin
      refine ⟨rfl, ok.method, ?_, ?_⟩
      · rcases ok.url with hu | hu
        · rw [if_pos hu]; rfl
        · split
          · rfl
          · exact hu.1
      · rcases ok.url with hu | hu
        · rw [if_pos hu]; decide
        · split
          · decide
          · exact hu.2
  | true =>
    cases m with
    | inl x => exact h.elim
    | inr x =>
      obtain ⟨a, r⟩ := x
      have ok : OkResp Zg Zd a r := h
      obtain ⟨hp, e1, e2, e3, e4⟩ := resp_facts ok
      show (wireResp (beforeSend (zip Zg) (zip Zd) a r)).Sound false
      unfold wireResp
      rw [e3, e2, e1]
      refine sound_of hp.stored ?_ ok.minor hp.length hp.latin
      obtain ⟨s, hs⟩ := known_mem ok.code.2.1
      obtain ⟨_, h2⟩ := status_text _ hs 0 (by decide)
      have hc := ok.code.1
      simp only [Int.toNat_of_nonneg (show (0 : Int) ≤ r.code by omega)] at h2
      have hr : ∀ e ∈ lineTable, e.1 ≤ 599 := by decide +kernel
      refine ⟨rfl, by omega, hr _ hs, ?_, h2⟩
      intro hc'
      have hb : r.body = [] := ok.code.2.2 (by omega)
      rcases e4 with ⟨_, e, _⟩ | ⟨hpk, _⟩ | ⟨hpk, e, he, hl⟩
      · rw [e]; exact hb
      · exact absurd hpk.1 (by rw [hb]; simp)
      · have : beforeSend (zip Zg) (zip Zd) a r = r := by
          unfold beforeSend
          rw [if_neg (by rw [hb]; simp)]
        rw [this]; exact hb

theorem bytes_eq {Zg Zd : Gzip.Zlib} {host : Str} {i : Bool} {m : M} (h : Ok Zg Zd host i m) : bytes Zg Zd host m = (wireM Zg Zd host m).text := by
  cases i with
  | false =>
    cases m with
    | inr x => exact h.elim
    | inl r => exact encodeReq_text _
  | true =>
    cases m with
    | inl x => exact h.elim
    | inr x =>
      obtain ⟨a, r⟩ := x
      have ok : OkResp Zg Zd a r := h
      obtain ⟨_, e1, e2, _⟩ := resp_facts ok
      have hc := ok.code
      show (encodeResp (beforeSend (zip Zg) (zip Zd) a r)).getD [] = _
      rw [encodeResp_text _ (by rw [e1]; omega) (by rw [e1]; exact hc.2.1) (by rw [e2]; exact ok.minor)]
      rfl

theorem getHeader_ce (h : Headers) : getHeader h "Content-Encoding".toList = (lookup h ce).getD [] := by
  rw [getHeader_lookup]
  have e : toLower "Content-Encoding".toList = ce := by decide +kernel
  rw [e]

theorem decode_plain {z : Unzip} {client : Bool} {h : Headers} {b : Str} (hl : lookup h ce = none ∨ ∃ v, lookup h ce = some v ∧
    find v "gzip".toList 0 = none ∧ find v "deflate".toList 0 = none) : decodeBody z client h b = some (h, b) := by
  unfold decodeBody
  rw [getHeader_ce]
  rcases hl with hl | ⟨v, hl, h1, h2⟩
  · rw [hl, Option.getD_none]
    have e1 : (find [] "gzip".toList 0).isSome = false := by decide +kernel
    have e2 : (find [] "deflate".toList 0).isSome = false := by decide +kernel
    rw [e1, e2]; rfl
  · rw [hl, Option.getD_some, h1, h2]; rfl

theorem decode_gzip {z : Unzip} {client : Bool} {h : Headers} {b : Str} (hl : lookup h ce = some "gzip".toList) :
    decodeBody z client h b = (z.gzip b).map (fun b' => (if client then h else (removeHeader h "Content-Encoding".toList).2, b')) := by
  unfold decodeBody
  rw [getHeader_ce, hl, Option.getD_some]
  have e1 : (find "gzip".toList "gzip".toList 0).isSome = true := by decide +kernel
  rw [e1]; rfl

theorem decode_deflate {z : Unzip} {client : Bool} {h : Headers} {b : Str} (hl : lookup h ce = some "deflate".toList) :
    decodeBody z client h b = (z.deflate b).map (fun b' => (if client then h else (removeHeader h "Content-Encoding".toList).2, b')) := by
  unfold decodeBody
  rw [getHeader_ce, hl, Option.getD_some]
  have e1 : (find "deflate".toList "gzip".toList 0).isSome = false := by decide +kernel
  have e2 : (find "deflate".toList "deflate".toList 0).isSome = true := by decide +kernel
  rw [e1, e2]; rfl

theorem get_arrived {h h' : Headers} {a : Bool} {body body' : Str} (hs : Stored h) (hp : Prepared h body h' body') {p : Str × Str} (hm : p ∈ h) :
    lookup (arrived h' a body') (toLower p.1) = some p.2 := by
  rw [hs.lower p hm]
  exact arrived_mem hp.stored a body' (hp.keeps p hm)

/-- What the other end's application is handed for a message. -/
theorem got_of {Zg Zd : Gzip.Zlib} {host : Str} {i : Bool} {m : M} (h : Ok Zg Zd host i m) :
    ∃ g, (wireM Zg Zd host m).got (unzip Zg Zd) (!i) = some g ∧ HeadOk m g ∧ bodyM m <+: g.body ∧ (¬ Gzipped m → g.body = bodyM m) ∧
      (Gzipped m → (bodyM m).length < 16384 → g.body = bodyM m ++ List.replicate (16384 - (bodyM m).length) nul) := by
  cases i with
  | false =>
    cases m with
    | inr x => exact h.elim
    | inl r =>
      have ok : OkReq Zg host r := h
      obtain ⟨hp, e1, e2, e3, e4, e5⟩ := prep_facts ok
      have hg : ∀ b, decodeBody (unzip Zg Zd) true (arrived (prepReq (zip Zg) host r).headers true (prepReq (zip Zg) host r).body)
            (prepReq (zip Zg) host r).body = some (arrived (prepReq (zip Zg) host r).headers true (prepReq (zip Zg) host r).body, b) →
          ∃ g, (wireM Zg Zd host (.inl r)).got (unzip Zg Zd) true = some g ∧ HeadOk (.inl r) g ∧ g.body = b := by
        intro b hb
        refine ⟨⟨r.method, if r.url = [] then ['/'] else r.url, 0, r.minor, true, arrived (prepReq (zip Zg) host r).headers true (prepReq (zip Zg) host r).body, b⟩, ?_, ?_, rfl⟩
        · show (wireReq (prepReq (zip Zg) host r)).got (unzip Zg Zd) true = _
          unfold HMsg.got commit wireReq HMsg.info
          rw [e4, e1, e2, e3]
          simp only [Start.method, Start.url, Start.code]
          unfold arrived at hb
          rw [hb]
          rfl
        · refine ⟨rfl, rfl, rfl, rfl, ?_⟩
          intro p hm
          rw [getHeader_lookup, get_arrived ok.headers hp hm]
          rfl
      rcases e5 with ⟨n1, n2, n3⟩ | ⟨n1, n2, n3⟩
      · obtain ⟨g, g1, g2, g3⟩ := hg r.body (by
          rw [decode_plain, n2]
          rw [arrived_ce hp.stored, n3]
          exact lookup_of_plain ok.headers ok.coding)
        exact ⟨g, g1, g2, by rw [g3]; exact List.prefix_refl _, fun _ => g3, fun hc => absurd hc n1⟩
      · obtain ⟨b, b1, b2, b3⟩ := unzip_gzip (Zd := Zd) ok.zips ok.latin
        obtain ⟨g, g1, g2, g3⟩ := hg b (by
          rw [decode_gzip (by rw [arrived_ce hp.stored, n3]), n2, b1]
          rfl)
        exact ⟨g, g1, g2, by rw [g3]; exact b2, fun hc => absurd n1 hc, fun _ hs => by rw [g3]; exact b3 hs⟩
  | true =>
    cases m with
    | inl x => exact h.elim
    | inr x =>
      obtain ⟨a, r⟩ := x
      have ok : OkResp Zg Zd a r := h
      obtain ⟨hp, e1, e2, e4, e5⟩ := resp_facts ok
      have hc := ok.code.1
      have hg : ∀ H b, decodeBody (unzip Zg Zd) false (arrived (beforeSend (zip Zg) (zip Zd) a r).headers false (beforeSend (zip Zg) (zip Zd) a r).body)
            (beforeSend (zip Zg) (zip Zd) a r).body = some (H, b) → (∀ p ∈ r.headers, lookup H (toLower p.1) = some p.2) →
          ∃ g, (wireM Zg Zd host (.inr (a, r))).got (unzip Zg Zd) false = some g ∧ HeadOk (.inr (a, r)) g ∧ g.body = b := by
        intro H b hb hH
        refine ⟨⟨[], [], r.code.toNat, r.minor, true, H, b⟩, ?_, ?_, rfl⟩
        · show (wireResp (beforeSend (zip Zg) (zip Zd) a r)).got (unzip Zg Zd) false = _
          unfold HMsg.got commit wireResp HMsg.info
          rw [e4, e1, e2]
          simp only [Start.method, Start.url, Start.code]
          unfold arrived at hb
          rw [hb]
          rfl
        · refine ⟨?_, rfl, rfl, ?_⟩
          · show ((r.code.toNat : Nat) : Int) = r.code
            omega
          · intro p hm
            rw [getHeader_lookup, hH p hm]
            rfl
      have hrm : hasHeader r.headers "Content-Encoding".toList = false → ∀ H, (∀ p ∈ r.headers, lookup H (toLower p.1) = some p.2) →
          ∀ p ∈ r.headers, lookup (removeHeader H "Content-Encoding".toList).2 (toLower p.1) = some p.2 := by
        intro hn H hH p hm
        unfold removeHeader
        simp only
        have hne : toLower "Content-Encoding".toList ≠ toLower p.1 := by
          intro hc
          rw [ok.headers.lower p hm] at hc
          have : hasHeader r.headers "Content-Encoding".toList = true := by
            rw [has_iff]
            exact List.mem_map.2 ⟨p, hm, hc.symm⟩
          rw [hn] at this
          exact absurd this (by decide)
        rw [lookup_remove, if_neg hne]
        exact hH p hm
      rcases e5 with ⟨n1, n2, n3⟩ | ⟨n1, n2, n3, n4⟩ | ⟨n1, n2, n3, n4⟩
      · obtain ⟨g, g1, g2, g3⟩ := hg _ r.body (by
          rw [decode_plain, n2]
          rw [arrived_ce hp.stored, n3]
          exact lookup_of_plain ok.headers ok.coding) (fun p hm => by
            have := get_arrived (a := false) ok.headers hp hm
            rw [n2] at this
            exact this)
        exact ⟨g, g1, g2, by rw [g3]; exact List.prefix_refl _, fun _ => g3, fun hc => absurd hc n1⟩
      · obtain ⟨b, b1, b2, b3⟩ := unzip_gzip (Zd := Zd) ok.zips.1 ok.latin
        obtain ⟨g, g1, g2, g3⟩ := hg _ b (by
          rw [decode_gzip (by rw [arrived_ce hp.stored, n4])]
          conv => lhs; arg 2; rw [n2, b1]
          rw [Option.map_some, if_neg (by decide)]) (hrm n3 _ (fun p hm => get_arrived (a := false) ok.headers hp hm))
        exact ⟨g, g1, g2, by rw [g3]; exact b2, fun hc => absurd n1 hc, fun _ hs => by rw [g3]; exact b3 hs⟩
      · obtain ⟨g, g1, g2, g3⟩ := hg _ r.body (by
          rw [decode_deflate (by rw [arrived_ce hp.stored, n4])]
          conv => lhs; arg 2; rw [n2, unzip_deflate ok.zips.2 ok.latin]
          rw [Option.map_some, if_neg (by decide)]) (hrm n3 _ (fun p hm => get_arrived (a := false) ok.headers hp hm))
        exact ⟨g, g1, g2, by rw [g3]; exact List.prefix_refl _, fun _ => g3, fun hc => absurd hc n1⟩

end Ltio.Http.Conn
