import Verif.Url.Model

/-
Model of net_io/common/ip_address.{h,cc} and ip_endpoint.cc.  An address is the list of its
`size_` bytes (network order); `inet_pton` / `inet_ntop` are parameters.
-/
namespace Ltio.Ip
open Ltio.Text

abbrev Addr := List UInt8

/-- `IsIPv4` (ip_address.cc:227-229). -/
def isV4 (a : Addr) : Bool := a.length == 4

/-- `IsIPv6` (ip_address.cc:231-233). -/
def isV6 (a : Addr) : Bool := a.length == 16

/-- The whole-byte loop of `IPAddressPrefixCheck` (ip_address.cc:46-51) from index `i`, `k` bytes
to go; `none`: an access beyond one of the two arrays. -/
def checkBytes (a p : List UInt8) : Nat → Nat → Option Bool
  | _, 0 => some true
  | i, k + 1 =>
    match a[i]?, p[i]? with
    | some x, some y => if x ≠ y then some false else checkBytes a p (i + 1) k
    | _, _ => none

/-- `uint8_t mask = 0xFF << (8 - remaining_bits)` (ip_address.cc:57). -/
def maskOf (r : Nat) : UInt8 := UInt8.ofNat (255 <<< (8 - r))

/-- `IPAddressPrefixCheck` (ip_address.cc:41-62). -/
def prefixCheck (a p : List UInt8) (n : Nat) : Option Bool :=
  match checkBytes a p 0 (n / 8) with
  | some true =>
    if n % 8 ≠ 0 then
      match a[n / 8]?, p[n / 8]? with
      | some x, some y => some (x &&& maskOf (n % 8) == y &&& maskOf (n % 8))
      | _, _ => none
    else some true
  | r => r

/-- `kIPv4MappedPrefix` (ip_address.cc:35-36). -/
def mappedPrefix : List UInt8 := [0, 0, 0, 0, 0, 0, 0, 0, 0, 0, 255, 255]

/-- `ConvertIPv4ToIPv4MappedIPv6` (ip_address.cc:383-400); `none`: the DCHECK. -/
def toMapped (a : Addr) : Option Addr := if isV4 a then some (mappedPrefix ++ a) else none

/-- `IPAddressStartsWith(address, kIPv4MappedPrefix)` and `IsIPv4MappedIPv6`
(ip_address.h:288-292, ip_address.cc:257-259). -/
def isMapped (a : Addr) : Bool := isV6 a && a.take 12 == mappedPrefix

/-- Where the two arrays of `ConvertIPv4MappedIPv6ToIPv4` live: the 17-byte `IPAddressBytes` object
at `obj`, the 12-byte constant at `const`; different objects do not overlap. -/
structure Layout where
  obj : Int
  const : Int
  disjoint : obj + 17 ≤ const ∨ const + 12 ≤ obj

/-- `ConvertIPv4MappedIPv6ToIPv4` (ip_address.cc:402-418): the vector is filled from
`address.bytes().begin() + 12` up to `std::end(kIPv4MappedPrefix)`, the end of *another* array.
A negative distance makes the vector throw; otherwise that many bytes (some of them outside the
address, `none` when beyond it) are copied and `IPAddressBytes::Assign` CHECKs that there are at
most 16. -/
def fromMapped (l : Layout) (a : Addr) : Option Addr :=
  let dist := l.const - l.obj
  if dist < 0 then none
  else if dist > 16 then none
  else if 12 + dist.toNat ≤ a.length then some ((a.drop 12).take dist.toNat) else none

/-- `IPAddressMatchesPrefix` (ip_address.cc:420-444); the outer `none` is a DCHECK. -/
def matchesPrefix (a p : Addr) (n : Nat) : Option Bool :=
  if a.length = p.length then prefixCheck a p n
  else if isV4 a then (toMapped a).bind (fun a' => if a'.length = p.length then prefixCheck a' p n else none)
  else (toMapped p).bind (fun p' => if a.length = p'.length then prefixCheck a p' (96 + n) else none)

/-- The inner loop of `CommonPrefixLength` (ip_address.cc:494-498) from bit `j`, `k` bits to go. -/
def firstBit (diff j : Nat) : Nat → Option Nat
  | 0 => none
  | k + 1 => if diff &&& 128 ≠ 0 then some j else firstBit (diff * 2 % 2 ^ 32) (j + 1) k

/-- `CommonPrefixLength` (ip_address.cc:488-502) from byte `i`; the sizes are those of `a`. -/
def commonFrom (i : Nat) : Addr → Addr → Option Nat
  | [], _ => some (i * 8)
  | _ :: _, [] => none
  | x :: a, y :: b =>
    if (x ^^^ y) = 0 then commonFrom (i + 1) a b
    else match firstBit (x ^^^ y).toNat 0 8 with
      | some j => some (i * 8 + j)
      | none => commonFrom (i + 1) a b

/-- `CommonPrefixLength(a1, a2)`. -/
def commonPrefixLength (a b : Addr) : Option Nat := commonFrom 0 a b

/-- `MaskPrefixLength` (ip_address.cc:504-507), in a build without DCHECK. -/
def maskPrefixLength (m : Addr) : Option Nat := commonPrefixLength m (List.replicate 16 255)

/-- `std::lexicographical_compare`. -/
def lexLess : List UInt8 → List UInt8 → Bool
  | _, [] => false
  | [], _ :: _ => true
  | x :: a, y :: b => if x < y then true else if y < x then false else lexLess a b

/-- `IPAddress::operator<` (ip_address.cc:346-353 with 160-165). -/
def less (a b : Addr) : Bool :=
  if a.length ≠ b.length then a.length < b.length
  else if a.length = b.length then lexLess a b else a.length < b.length

/-- `IPAddress::operator==` (ip_address.cc:338-340, 167-169). -/
def eq (a b : Addr) : Bool := a.length == b.length && a == b

/-- An `IPEndPoint`. -/
structure EndPoint where
  addr : Addr
  port : UInt16
deriving DecidableEq

/-- `IPEndPoint::operator<` (ip_endpoint.cc:176-182): `std::tie` compares lexicographically. -/
def epLess (a b : EndPoint) : Bool :=
  if a.addr.length ≠ b.addr.length then a.addr.length < b.addr.length
  else if less a.addr b.addr then true
  else if less b.addr a.addr then false
  else a.port < b.port

/-! ### Classification -/

/-- `kReservedIPv4Ranges` (ip_address.cc:74-83). -/
def reservedV4 : List (List UInt8 × Nat) :=
  [([0, 0, 0, 0], 8), ([10, 0, 0, 0], 8), ([100, 64, 0, 0], 10), ([127, 0, 0, 0], 8),
   ([169, 254, 0, 0], 16), ([172, 16, 0, 0], 12), ([192, 0, 2, 0], 24), ([192, 88, 99, 0], 24),
   ([192, 168, 0, 0], 16), ([198, 18, 0, 0], 15), ([198, 51, 100, 0], 24), ([203, 0, 113, 0], 24),
   ([224, 0, 0, 0], 3)]

/-- A loop over ranges: the first match decides. -/
def anyMatch (a : Addr) : List (List UInt8 × Nat) → Option Bool
  | [] => some false
  | (p, n) :: rs =>
    match prefixCheck a p n with
    | none => none
    | some true => some true
    | some false => anyMatch a rs

/-- `IsPubliclyRoutableIPv4` (ip_address.cc:71-92). -/
def routableV4 (a : Addr) : Option Bool := (anyMatch a reservedV4).map (!·)

/-- `IsPubliclyRoutableIPv6` (ip_address.cc:99-123). -/
def routableV6 (l : Layout) (a : Addr) : Option Bool :=
  match anyMatch a [([0x20, 0], 3), ([0xff, 0], 8)] with
  | none => none
  | some true => some true
  | some false => if isMapped a then (fromMapped l a).bind routableV4 else some false

/-- `IPAddress::IsPubliclyRoutable` (ip_address.cc:239-246). -/
def routable (l : Layout) (a : Addr) : Option Bool :=
  if isV4 a then routableV4 a else if isV6 a then routableV6 l a else some true

/-- `IsLoopback` (ip_address.cc:261-276). -/
def isLoopback (a : Addr) : Bool :=
  if isV4 a then a[0]? == some 127
  else if isV6 a then (a.take 15).all (· == 0) && a[15]? == some 1
  else false

/-- `IsLinkLocal` (ip_address.cc:278-292). -/
def isLinkLocal (a : Addr) : Bool :=
  if isV4 a then a[0]? == some 169 && a[1]? == some 254
  else if isMapped a then a[12]? == some 169 && a[13]? == some 254
  else if isV6 a then a[0]? == some 0xFE && (a.getD 1 0) &&& 0xC0 == 0x80
  else false

/-- `IsZero` (ip_address.cc:248-255). -/
def isZero (a : Addr) : Bool := a.all (· == 0) && !a.isEmpty

/-! ### Text -/

/-- `inet_pton`: `true` for AF_INET6; the argument is a C string. -/
abbrev Pton := Bool → Str → Option Addr

/-- `AssignFromIPLiteral` with `ParseIPLiteralToBytes` (ip_address.cc:126-141, 294-300).  `view` is
the text of the string piece, `tail` what follows it in memory before the next NUL: `inet_pton`
reads `data()` as a C string.  On failure the address is emptied. -/
def assignLiteral (pton : Pton) (view tail : Str) : Bool × Addr :=
  let c := (view ++ tail).takeWhile (fun c => c.toNat != 0)
  match pton (decide (':' ∈ view)) c with
  | some a => (true, a)
  | none => (false, [])

/-- `StrUtil::ParseTo(s, uint32_t&)` (str_utils.h:114-119): `istream >> unsigned` and `good()`,
which is false once the end of the text has been reached.  `none` for the value: not written. -/
def parseToU32 (s : Str) : Bool × Option Nat :=
  let t := s.dropWhile Url.isSpace
  let ds := t.takeWhile Url.isDigit
  let rest := t.dropWhile Url.isDigit
  if t = [] then (false, none)
  else if ds = [] then (false, some 0)
  else if Url.digitsVal ds ≥ 2 ^ 32 then (false, some (2 ^ 32 - 1))
  else (!rest.isEmpty, some (Url.digitsVal ds))

/-- `ParseCIDRBlock` (ip_address.cc:446-473).  Signs are not modelled in the number. -/
def parseCIDR (pton : Pton) (s : Str) : Option (Addr × Nat) :=
  match split s ['/'] false with
  | some [ip, bits] =>
    match assignLiteral pton ip [] with
    | (false, _) => none
    | (true, a) =>
      match parseToU32 bits with
      | (true, some n) => if n > a.length * 8 then none else some (a, n)
      | _ => none
  | _ => none

/-- `ParseURLHostnameToAddress` (ip_address.cc:475-486): the piece inside the brackets is followed
in memory by the closing bracket. -/
def parseHostname (pton : Pton) (s : Str) : Option Addr :=
  if 2 ≤ s.length ∧ s.head? = some '[' ∧ s.getLast? = some ']' then
    match assignLiteral pton ((s.drop 1).take (s.length - 2)) [']'] with
    | (true, a) => if isV6 a then some a else none
    | _ => none
  else
    match assignLiteral pton s [] with
    | (true, a) => if isV4 a then some a else none
    | _ => none

/-- `IPAddress::ToString` (ip_address.cc:355-364) with `AsWriteInto` (str_utils.cc:161-172): the
string has 15 or 45 characters, the text that `inet_ntop` writes and then NULs.  `ntop` gets the
16-byte storage (an address that is not IPv4 is printed as IPv6). -/
def toStr (ntop : Bool → List UInt8 → Str) (a : Addr) (storage : List UInt8) : Str :=
  if isV4 a then ntop false a ++ List.replicate (15 - (ntop false a).length) (Char.ofNat 0)
  else ntop true storage ++ List.replicate (45 - (ntop true storage).length) (Char.ofNat 0)

/-! ### Socket addresses -/

/-- `IPEndPoint::ToSockAddr` (ip_endpoint.cc:113-150): the bytes written (little-endian family,
big-endian port, for IPv6 a zero flow label and scope), `none` for the return value 0.
AF_INET = 2, AF_INET6 = 10. -/
def toSockAddr (e : EndPoint) (room : Nat) : Option (List UInt8) :=
  let hi := UInt8.ofNat (e.port.toNat / 256)
  let lo := UInt8.ofNat (e.port.toNat % 256)
  if e.addr.length = 4 then
    if room < 16 then none else some ([2, 0, hi, lo] ++ e.addr ++ List.replicate 8 0)
  else if e.addr.length = 16 then
    if room < 28 then none
    else some ([10, 0, hi, lo] ++ List.replicate 4 0 ++ e.addr ++ List.replicate 4 0)
  else none

/-- `IPEndPoint::FromSockAddr` with `GetIPAddressFromSockAddr` (ip_endpoint.cc:28-58,152-171) on
the bytes of the structure. -/
def fromSockAddr (s : List UInt8) : Option EndPoint :=
  match s with
  | f0 :: f1 :: hi :: lo :: rest =>
    let port := UInt16.ofNat (hi.toNat * 256 + lo.toNat)
    if f0.toNat + 256 * f1.toNat = 2 then
      if s.length < 16 then none else some ⟨rest.take 4, port⟩
    else if f0.toNat + 256 * f1.toNat = 10 then
      if s.length < 28 then none else some ⟨(rest.drop 4).take 16, port⟩
    else none
  | _ => none

end Ltio.Ip
