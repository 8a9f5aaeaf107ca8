/- Specification of base64 (RFC 4648 section 4), independent of the implementation. -/
namespace Ltio.Base64.Spec

/-- Character for a 6-bit value. -/
def digit (v : Nat) : UInt8 :=
  if v < 26 then UInt8.ofNat (65 + v)            -- A-Z
  else if v < 52 then UInt8.ofNat (97 + (v - 26)) -- a-z
  else if v < 62 then UInt8.ofNat (48 + (v - 52)) -- 0-9
  else if v = 62 then 43 else 47                  -- + /

/-- RFC 4648: 24-bit groups read as four 6-bit values, missing octets are zero and their
characters are replaced by `=`. -/
def encode : List UInt8 → List UInt8
  | a :: b :: c :: rest =>
    let n := a.toNat * 65536 + b.toNat * 256 + c.toNat
    digit (n / 262144) :: digit (n / 4096 % 64) :: digit (n / 64 % 64) :: digit (n % 64) :: encode rest
  | [a, b] =>
    let n := a.toNat * 65536 + b.toNat * 256
    [digit (n / 262144), digit (n / 4096 % 64), digit (n / 64 % 64), 61]
  | [a] =>
    let n := a.toNat * 65536
    [digit (n / 262144), digit (n / 4096 % 64), 61, 61]
  | [] => []

end Ltio.Base64.Spec
