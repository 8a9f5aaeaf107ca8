import Verif.Text.Split

/-
Model of `ParseURI`, `ParseRemote` and `HostResolve` (net_io/url_utils.cc) with the stream
extraction `StrUtil::Parse<uint16_t>` / `ParseTo` (base/utils/string/str_utils.h:114-126).
Strings are lists of characters (bytes); the resolver is a parameter.
-/
namespace Ltio.Url
open Ltio.Text

/-- The white space `operator>>` skips (C locale `isspace`). -/
def isSpace (c : Char) : Bool := c.toNat == 32 || (9 ≤ c.toNat && c.toNat ≤ 13)

/-- ASCII digits. -/
def isDigit (c : Char) : Bool := 48 ≤ c.toNat && c.toNat ≤ 57

/-- Value of a digit string. -/
def digitsVal (ds : Str) : Nat := ds.foldl (fun n c => n * 10 + (c.toNat - 48)) 0

/-- The numeric part of `std::istream >> uint16_t` (libstdc++ `num_get`, decimal): optional sign,
digits; no digit gives 0, a magnitude above 65535 gives 65535, a minus sign negates modulo
65536. -/
def extractNum (s : Str) : Nat :=
  match s with
  | [] => 0
  | c :: t =>
    if c.toNat = 45 then
      if digitsVal (t.takeWhile isDigit) > 65535 then 65535
      else (65536 - digitsVal (t.takeWhile isDigit)) % 65536
    else if c.toNat = 43 then min 65535 (digitsVal (t.takeWhile isDigit))
    else min 65535 (digitsVal (s.takeWhile isDigit))

/-- `istringstream(s) >> value` for a `uint16_t`: when only white space is left the sentry fails
and `value` is not written.  `old` is the previous content, `none` being an indeterminate value
(`T result;` in `Parse`, str_utils.h:121-126). -/
def extractU16 (old : Option Nat) (s : Str) : Option Nat :=
  match s.dropWhile isSpace with
  | [] => old
  | c :: t => some (extractNum (c :: t))

/-- `std::string::npos`. -/
def npos : Nat := 2 ^ 64 - 1

/-- `uint32_t len = pos - find_start;` with 64-bit positions. -/
def len32 (pos : Option Nat) (start : Nat) : Nat :=
  ((pos.getD npos + 2 ^ 64 - start) % 2 ^ 64) % 2 ^ 32

/-- `in.substr(start, n)` for `start ≤ size`. -/
def substr (s : Str) (start n : Nat) : Str := (s.drop start).take n

/-! ### HostResolve -/

/-- What `getaddrinfo` produces: a status and, on success, a list of addresses given by their
`inet_ntop` text (`false`: IPv4, `true`: IPv6). -/
structure Gai where
  status : Int
  addrs : List (Bool × Str)

/-- `std::vector<char> ip_str(N)` filled by `inet_ntop` and assigned with its full size
(url_utils.cc:101-117): the text followed by NULs up to 16 or 46 characters. -/
def ipStr (a : Bool × Str) : Str :=
  a.2 ++ List.replicate ((if a.1 then 46 else 16) - a.2.length) (Char.ofNat 0)

/-- `HostResolve(host, host_ip)` (url_utils.cc:81-123): only status -1 is an error; later
addresses overwrite earlier ones.  Returns the answer and the new `host_ip`. -/
def hostResolve (g : Gai) (hostIp : Str) : Bool × Str :=
  if g.status = -1 then (false, hostIp)
  else
    let ip := g.addrs.foldl (fun _ a => ipStr a) hostIp
    (!ip.isEmpty, ip)

/-! ### ParseURI -/

/-- `SchemeIpPort` (url_utils.h:29-34). -/
structure UriOut where
  port : Nat
  host : Str
  hostIp : Str
  protocol : Str

/-- The text `"://"`. -/
def schemeSep : Str := [':', '/', '/']

/-- `find_start` after the scheme (url_utils.cc:57-62). -/
def schemeEnd : Option Nat → Nat
  | some p => p + 3
  | none => 0

/-- `out.protocol` (url_utils.cc:53,60). -/
def schemeOf (uri : Str) : Option Nat → Str
  | some p => uri.take p
  | none => ['h', 't', 't', 'p']

/-- `ParseURI` (url_utils.cc:51-79).  `resolve` stands for `getaddrinfo`. -/
def parseURI (resolve : Str → Gai) (uri : Str) (out : UriOut) : Bool × UriOut :=
  let scheme := find uri schemeSep 0
  let protocol := schemeOf uri scheme
  let start := schemeEnd scheme
  let colon := find uri [':'] start
  let host := match colon with
    | some p => substr uri start (len32 (some p) start)
    | none => uri.drop start
  let port := match colon with
    | some p => (extractU16 (some 0) (uri.drop (p + 1))).getD 0
    | none => 0
  if host.isEmpty then (true, ⟨port, host, out.hostIp, protocol⟩)
  else
    let r := hostResolve (resolve host) out.hostIp
    (r.1, ⟨port, host, r.2, protocol⟩)

/-! ### ParseRemote -/

/-- `RemoteInfo` (url_utils.h:45-63).  `port = none`: indeterminate value.  The query map is an
association list in insertion order. -/
structure Remote where
  port : Option Nat
  user : Str
  passwd : Str
  host : Str
  hostIp : Str
  scheme : Str
  queries : List (Str × Str)

/-- A fresh or `reset()` `RemoteInfo` (url_utils.h:46-61). -/
def Remote.fresh : Remote := ⟨some 0, [], [], [], [], [], []⟩

/-- `unordered_map::insert`: an existing key keeps its value. -/
def insertQ (q : List (Str × Str)) (k v : Str) : List (Str × Str) :=
  if (q.lookup k).isSome then q else q ++ [(k, v)]

/-- One iteration of the query loop (url_utils.cc:167-174); `Split(query, "=", false)` never
throws, `none` is kept for completeness. -/
def addQuery (q : List (Str × Str)) (piece : Str) : List (Str × Str) :=
  match split piece ['='] false with
  | some [k, v] => insertQ q k v
  | _ => q

/-- The scheme part (url_utils.cc:130-135): new record and `find_start`. -/
def remScheme (s : Str) (out : Remote) : Remote × Nat :=
  match find s schemeSep 0 with
  | some p => ({ out with scheme := s.take p }, p + 3)
  | none => (out, 0)

/-- Storing `user_psd` (url_utils.cc:140-145). -/
def applyCred (out : Remote) : Option (List Str) → Remote
  | some (u :: pw :: _) => { out with user := u, passwd := pw }
  | some [u] => { out with user := u }
  | _ => out

/-- The credential part (url_utils.cc:137-147). -/
def remUser (s : Str) (out : Remote) (start : Nat) : Remote × Nat :=
  match find s ['@'] start with
  | some p => (applyCred out (split (substr s start (len32 (some p) start)) [':'] false), p + 1)
  | none => (out, start)

/-- Storing `host_port` (url_utils.cc:152-157). -/
def applyHost (out : Remote) : Option (List Str) → Remote
  | some (h :: p :: _) => { out with host := h, port := extractU16 none p }
  | some [h] => { out with host := h }
  | _ => out

/-- The host part (url_utils.cc:149-157) without resolution. -/
def remHost (s : Str) (out : Remote) (start : Nat) : Remote :=
  applyHost out (split (substr s start (len32 (find s ['?'] start) start)) [':'] false)

/-- `ParseRemote(str, out, resolve)` (url_utils.cc:127-177); always returns true.
`res = none`: `resolve` is false. -/
def parseRemote (res : Option (Str → Gai)) (s : Str) (out : Remote) : Remote :=
  let a := remScheme s out
  let b := remUser s a.1 a.2
  let c := remHost s b.1 b.2
  let d := match res with
    | some g => { c with hostIp := (hostResolve (g c.host) c.hostIp).2 }
    | none => c
  match find s ['?'] b.2 with
  | none => d
  | some p => { d with queries := (splitChar '&' (s.drop (p + 1))).foldl addQuery d.queries }

end Ltio.Url
