import Verif.Text.Split
import Mathlib.Data.List.Induction
/-
Model of `lookup_token` (net_io/codec/http/h2/nghttp2_util.cc:33-284): the table of HTTP/2 header names.
-/
namespace Ltio.H2
open Ltio.Text

/-- The tokens (nghttp2_util.h:14-53); `p` marks the pseudo headers. -/
inductive Tok where
  | pAuthority
  | pHost
  | pMethod
  | pPath
  | pProtocol
  | pScheme
  | pStatus
  | acceptEncoding
  | acceptLanguage
  | altSvc
  | cacheControl
  | connection
  | contentLength
  | contentType
  | cookie
  | date
  | earlyData
  | expect
  | forwarded
  | host
  | http2Settings
  | ifModifiedSince
  | keepAlive
  | link
  | location
  | proxyConnection
  | secWebsocketAccept
  | secWebsocketKey
  | server
  | te
  | trailer
  | transferEncoding
  | upgrade
  | userAgent
  | via
  | xForwardedFor
  | xForwardedProto
deriving DecidableEq, Repr

/-- `streq_l(lit, name, k)` (nghttp2_util.cc:19-22): the literal against the first `k` bytes. -/
def streq (lit : String) (name : Str) (k : Nat) : Bool := name.take k == lit.toList

/-- `lookup_token` (nghttp2_util.cc:33-284); `none` stands for -1. -/
def lookupToken (name : Str) : Option Tok :=
  match name.length with
  | 2 =>
    if name[1]? = some 'e' then
      if streq "t" name 1 then some .te else none
    else
    none
  | 3 =>
    if name[2]? = some 'a' then
      if streq "vi" name 2 then some .via else none
    else
    none
  | 4 =>
    if name[3]? = some 'e' then
      if streq "dat" name 3 then some .date else none
    else
    if name[3]? = some 'k' then
      if streq "lin" name 3 then some .link else none
    else
    if name[3]? = some 't' then
      if streq "hos" name 3 then some .host else none
    else
    none
  | 5 =>
    if name[4]? = some 'h' then
      if streq ":pat" name 4 then some .pPath else none
    else
    if name[4]? = some 't' then
      if streq ":hos" name 4 then some .pHost else none
    else
    none
  | 6 =>
    if name[5]? = some 'e' then
      if streq "cooki" name 5 then some .cookie else none
    else
    if name[5]? = some 'r' then
      if streq "serve" name 5 then some .server else none
    else
    if name[5]? = some 't' then
      if streq "expec" name 5 then some .expect else none
    else
    none
  | 7 =>
    if name[6]? = some 'c' then
      if streq "alt-sv" name 6 then some .altSvc else none
    else
    if name[6]? = some 'd' then
      if streq ":metho" name 6 then some .pMethod else none
    else
    if name[6]? = some 'e' then
      if streq ":schem" name 6 then some .pScheme else if streq "upgrad" name 6 then some .upgrade else none
    else
    if name[6]? = some 'r' then
      if streq "traile" name 6 then some .trailer else none
    else
    if name[6]? = some 's' then
      if streq ":statu" name 6 then some .pStatus else none
    else
    none
  | 8 =>
    if name[7]? = some 'n' then
      if streq "locatio" name 7 then some .location else none
    else
    none
  | 9 =>
    if name[8]? = some 'd' then
      if streq "forwarde" name 8 then some .forwarded else none
    else
    if name[8]? = some 'l' then
      if streq ":protoco" name 8 then some .pProtocol else none
    else
    none
  | 10 =>
    if name[9]? = some 'a' then
      if streq "early-dat" name 9 then some .earlyData else none
    else
    if name[9]? = some 'e' then
      if streq "keep-aliv" name 9 then some .keepAlive else none
    else
    if name[9]? = some 'n' then
      if streq "connectio" name 9 then some .connection else none
    else
    if name[9]? = some 't' then
      if streq "user-agen" name 9 then some .userAgent else none
    else
    if name[9]? = some 'y' then
      if streq ":authorit" name 9 then some .pAuthority else none
    else
    none
  | 12 =>
    if name[11]? = some 'e' then
      if streq "content-typ" name 11 then some .contentType else none
    else
    none
  | 13 =>
    if name[12]? = some 'l' then
      if streq "cache-contro" name 12 then some .cacheControl else none
    else
    none
  | 14 =>
    if name[13]? = some 'h' then
      if streq "content-lengt" name 13 then some .contentLength else none
    else
    if name[13]? = some 's' then
      if streq "http2-setting" name 13 then some .http2Settings else none
    else
    none
  | 15 =>
    if name[14]? = some 'e' then
      if streq "accept-languag" name 14 then some .acceptLanguage else none
    else
    if name[14]? = some 'g' then
      if streq "accept-encodin" name 14 then some .acceptEncoding else none
    else
    if name[14]? = some 'r' then
      if streq "x-forwarded-fo" name 14 then some .xForwardedFor else none
    else
    none
  | 16 =>
    if name[15]? = some 'n' then
      if streq "proxy-connectio" name 15 then some .proxyConnection else none
    else
    none
  | 17 =>
    if name[16]? = some 'e' then
      if streq "if-modified-sinc" name 16 then some .ifModifiedSince else none
    else
    if name[16]? = some 'g' then
      if streq "transfer-encodin" name 16 then some .transferEncoding else none
    else
    if name[16]? = some 'o' then
      if streq "x-forwarded-prot" name 16 then some .xForwardedProto else none
    else
    if name[16]? = some 'y' then
      if streq "sec-websocket-ke" name 16 then some .secWebsocketKey else none
    else
    none
  | 20 =>
    if name[19]? = some 't' then
      if streq "sec-websocket-accep" name 19 then some .secWebsocketAccept else none
    else
    none
  | _ => none

/-- The header name of a token, as registered. -/
def Tok.text : Tok → String
  | .pAuthority => ":authority"
  | .pHost => ":host"
  | .pMethod => ":method"
  | .pPath => ":path"
  | .pProtocol => ":protocol"
  | .pScheme => ":scheme"
  | .pStatus => ":status"
  | .acceptEncoding => "accept-encoding"
  | .acceptLanguage => "accept-language"
  | .altSvc => "alt-svc"
  | .cacheControl => "cache-control"
  | .connection => "connection"
  | .contentLength => "content-length"
  | .contentType => "content-type"
  | .cookie => "cookie"
  | .date => "date"
  | .earlyData => "early-data"
  | .expect => "expect"
  | .forwarded => "forwarded"
  | .host => "host"
  | .http2Settings => "http2-settings"
  | .ifModifiedSince => "if-modified-since"
  | .keepAlive => "keep-alive"
  | .link => "link"
  | .location => "location"
  | .proxyConnection => "proxy-connection"
  | .secWebsocketAccept => "sec-websocket-accept"
  | .secWebsocketKey => "sec-websocket-key"
  | .server => "server"
  | .te => "te"
  | .trailer => "trailer"
  | .transferEncoding => "transfer-encoding"
  | .upgrade => "upgrade"
  | .userAgent => "user-agent"
  | .via => "via"
  | .xForwardedFor => "x-forwarded-for"
  | .xForwardedProto => "x-forwarded-proto"

theorem of_parts {name lit : Str} {k : Nat} {c : Char} (hl : name.length = k + 1) (hc : name[k]? = some c)
    (ht : name.take k = lit) : name = lit ++ [c] := by
  have h1 := List.take_append_drop k name
  have h2 : name.drop k = [c] := by
    obtain ⟨h, e⟩ := List.getElem?_eq_some_iff.mp hc
    rw [List.drop_eq_getElem_cons h, e, List.drop_of_length_le (by omega)]
  rw [← h1, ht, h2]

/-- **C105.** `lookup_token` recognises exactly the names of its tokens, and gives each its own token. -/
theorem c105_lookup (name : Str) (t : Tok) : lookupToken name = some t ↔ name = t.text.toList := by
  constructor
  · intro h
    unfold lookupToken at h
    split at h

    · rename_i hl
      repeat' split at h
      all_goals first
        | (cases h; done)
        | (rename_i h1 h2; cases h; exact of_parts hl h1 (by simpa [streq] using h2))
    · rename_i hl
      repeat' split at h
      all_goals first
        | (cases h; done)
        | (rename_i h1 h2; cases h; exact of_parts hl h1 (by simpa [streq] using h2))
    · rename_i hl
      repeat' split at h
      all_goals first
        | (cases h; done)
        | (rename_i h1 h2; cases h; exact of_parts hl h1 (by simpa [streq] using h2))
    · rename_i hl
      repeat' split at h
      all_goals first
        | (cases h; done)
        | (rename_i h1 h2; cases h; exact of_parts hl h1 (by simpa [streq] using h2))
    · rename_i hl
      repeat' split at h
      all_goals first
        | (cases h; done)
        | (rename_i h1 h2; cases h; exact of_parts hl h1 (by simpa [streq] using h2))
    · rename_i hl
      repeat' split at h
      all_goals first
        | (cases h; done)
        | (rename_i h1 h2; cases h; exact of_parts hl h1 (by simpa [streq] using h2))
        | (rename_i h1 _ h2; cases h; exact of_parts hl h1 (by simpa [streq] using h2))
    · rename_i hl
      repeat' split at h
      all_goals first
        | (cases h; done)
        | (rename_i h1 h2; cases h; exact of_parts hl h1 (by simpa [streq] using h2))
    · rename_i hl
      repeat' split at h
      all_goals first
        | (cases h; done)
        | (rename_i h1 h2; cases h; exact of_parts hl h1 (by simpa [streq] using h2))
    · rename_i hl
      repeat' split at h
      all_goals first
        | (cases h; done)
        | (rename_i h1 h2; cases h; exact of_parts hl h1 (by simpa [streq] using h2))
    · rename_i hl
      repeat' split at h
      all_goals first
        | (cases h; done)
        | (rename_i h1 h2; cases h; exact of_parts hl h1 (by simpa [streq] using h2))
    · rename_i hl
      repeat' split at h
      all_goals first
        | (cases h; done)
        | (rename_i h1 h2; cases h; exact of_parts hl h1 (by simpa [streq] using h2))
    · rename_i hl
      repeat' split at h
      all_goals first
        | (cases h; done)
        | (rename_i h1 h2; cases h; exact of_parts hl h1 (by simpa [streq] using h2))
    · rename_i hl
      repeat' split at h
      all_goals first
        | (cases h; done)
        | (rename_i h1 h2; cases h; exact of_parts hl h1 (by simpa [streq] using h2))
    · rename_i hl
      repeat' split at h
      all_goals first
        | (cases h; done)
        | (rename_i h1 h2; cases h; exact of_parts hl h1 (by simpa [streq] using h2))
    · rename_i hl
      repeat' split at h
      all_goals first
        | (cases h; done)
        | (rename_i h1 h2; cases h; exact of_parts hl h1 (by simpa [streq] using h2))
    · rename_i hl
      repeat' split at h
      all_goals first
        | (cases h; done)
        | (rename_i h1 h2; cases h; exact of_parts hl h1 (by simpa [streq] using h2))
    · simp at h
  · intro h
    subst h
    cases t <;> decide +kernel

/-- No token for the names that are not in the table, such as the empty one. -/
theorem c105_none (name : Str) : lookupToken name = none ↔ ∀ t : Tok, name ≠ t.text.toList := by
  constructor
  · intro h t e
    rw [(c105_lookup name t).2 e] at h
    cases h
  · intro h
    cases e : lookupToken name with
    | none => rfl
    | some t => exact absurd ((c105_lookup name t).1 e) (h t)

/-- Different tokens have different names. -/
theorem text_inj {a b : Tok} (h : a.text.toList = b.text.toList) : a = b := by
  have h1 := (c105_lookup _ a).2 rfl
  rw [h, (c105_lookup _ b).2 rfl] at h1
  exact (Option.some.inj h1).symm

/-- A use of C105. -/
theorem w_c105 : lookupToken ":method".toList = some .pMethod ∧ lookupToken "host".toList = some .host ∧
    lookupToken "hosT".toList = none ∧ lookupToken [] = none := by decide +kernel

end Ltio.H2
