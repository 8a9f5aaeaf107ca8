/-
Model of `lt::net::lb::MaglevV2` (net_io/common/load_balance/maglev2.{h,cc}) and
of `MaglevRouter` (net_io/clients/router/maglev_router.cc).

`uint32_t` / `uint64_t` arithmetic is natural-number arithmetic followed by an
explicit reduction modulo 2^32 / 2^64.  The unbounded `for(;;)` and the inner
`while` take fuel; `none` means "has not returned within this much fuel", so a
C++ call that never returns is one that gives `none` for every amount of fuel.
-/
namespace Ltio.Maglev

/-- `struct Endpoint { uint32_t num; uint32_t weight; uint64_t hash; }`
(maglev2.h:47-51). -/
structure Endpoint where
  num : Nat
  weight : Nat
  hash : Nat
deriving Repr, DecidableEq

def u64 (x : Nat) : Nat := x % 2 ^ 64
def u32 (x : Nat) : Nat := x % 2 ^ 32

/-- `rotl64` (thirdparty/hash/murmurhash3.cpp:39-42). -/
def rotl64 (x r : Nat) : Nat := u64 (x <<< r) ||| (x >>> (64 - r))

/-- `k ^= k >> 33` in `fmix64` (murmurhash3.cpp:83). -/
def xsh33 (k : Nat) : Nat := k ^^^ (k >>> 33)

/-- `fmix64` (murmurhash3.cpp:81-90). -/
def fmix64 (k : Nat) : Nat :=
  xsh33 (u64 (xsh33 (u64 (xsh33 k * 0xff51afd7ed558ccd)) * 0xc4ceb9fe1a85ec53))

/-- The tail of `MurmurHash3_x64_128` for an 8 byte key (murmurhash3.cpp:305-313):
the eight tail bytes are the little-endian value itself. -/
def tail8 (k : Nat) : Nat :=
  u64 (rotl64 (u64 (k * 0x87c37b91114253d5)) 31 * 0x4cf5ad432745937f)

/-- `h1 += h2; h2 += h1` (murmurhash3.cpp:321-322 and 327-328). -/
def mixAdd (p : Nat × Nat) : Nat × Nat := (u64 (p.1 + p.2), u64 (p.2 + u64 (p.1 + p.2)))

/-- `MurmurHash3_x64_128(&hash, 8, seed, out)` (murmurhash3.cpp:255-332), specialised
to the only length used by Maglev, `sizeof(uint64_t)`: there is no 16-byte block. -/
def murmur128 (key seed : Nat) : Nat × Nat :=
  let p := mixAdd ((seed ^^^ tail8 key) ^^^ 8, seed ^^^ 8)
  mixAdd (fmix64 p.1, fmix64 p.2)

/-- `kHashSeed3` (maglev2.cc:28). -/
def kHashSeed3 : Nat := 2718281828

/-- The offset stored by `GenMaglevPermutation` (maglev2.cc:41,53); the stored value
is `uint32_t`, and a residue modulo `ring` fits. -/
def offsetOf (hash ring : Nat) : Nat := (murmur128 hash kHashSeed3).1 % ring

/-- The skip stored by `GenMaglevPermutation` (maglev2.cc:42,54). -/
def skipOf (hash ring : Nat) : Nat := (murmur128 hash kHashSeed3).2 % (ring - 1) + 1

/-- Loop state of one endpoint: `permutation[2i]`, `permutation[2i+1]`, `next[i]`,
`cum_weight[i]` (maglev2.cc:81-84) next to the endpoint. -/
structure St where
  num : Nat
  weight : Nat
  offset : Nat
  skip : Nat
  next : Nat
  cum : Nat
deriving Repr

/-- `(offset + next[i] * skip) % ring_size` in `uint32_t` (maglev2.cc:97,100). -/
def probe (offset skip ring n : Nat) : Nat := u32 (offset + u32 (n * skip)) % ring

/-- The lookup table, `std::vector<int>`; `-1` marks a free slot (maglev2.cc:78). -/
abbrev Table := List Int

/-- `(int)num` for a `uint32_t num` (maglev2.cc:68,102). -/
def toInt32 (n : Nat) : Int := if n < 2 ^ 31 then (n : Int) else (n : Int) - 2 ^ 32

/-- The `while (result[cur] >= 0)` loop (maglev2.cc:97-101); returns the value of
`next[i]` at exit. -/
def findFree (offset skip ring : Nat) (res : Table) : Nat → Nat → Option Nat
  | 0, _ => none
  | fuel + 1, n =>
    if res.getD (probe offset skip ring n) 0 ≥ 0 then
      findFree offset skip ring res fuel (u32 (n + 1))
    else some n

/-- What one endpoint's turn, or one round over the endpoints, does. -/
inductive Out (σ : Type) where
  /-- `return result` -/
  | done (res : Table)
  /-- carry on -/
  | cont (st : σ) (res : Table) (runs : Nat)
  /-- still inside the `while` loop when the fuel ran out -/
  | stuck
deriving Repr

/-- `result[cur] = num; next[i] += 1; runs++; if (runs == ring_size) return result;`
(maglev2.cc:102-107). -/
def place (ring : Nat) (e : St) (res : Table) (runs n : Nat) : Out St :=
  if u32 (runs + 1) = ring then
    .done (res.set (probe e.offset e.skip ring n) (toInt32 e.num))
  else
    .cont { e with next := u32 (n + 1) }
      (res.set (probe e.offset e.skip ring n) (toInt32 e.num)) (u32 (runs + 1))

/-- `cum_weight[i] += endpoints[i].weight` (maglev2.cc:92). -/
def bumped (e : St) : Nat := u32 (e.cum + e.weight)

/-- The body of the `for i` loop (maglev2.cc:92-108). -/
def turn (fuel ring max : Nat) (e : St) (res : Table) (runs : Nat) : Out St :=
  if bumped e ≥ max then
    match findFree e.offset e.skip ring res fuel e.next with
    | none => .stuck
    | some n => place ring { e with cum := bumped e - max } res runs n
  else .cont { e with cum := bumped e } res runs

/-- The `for i` loop (maglev2.cc:91-109). -/
def round (fuel ring max : Nat) : List St → Table → Nat → Out (List St)
  | [], res, runs => .cont [] res runs
  | e :: es, res, runs =>
    match turn fuel ring max e res runs with
    | .stuck => .stuck
    | .done r => .done r
    | .cont e' res' runs' =>
      match round fuel ring max es res' runs' with
      | .stuck => .stuck
      | .done r => .done r
      | .cont es' res'' runs'' => .cont (e' :: es') res'' runs''

/-- The `for (;;)` loop (maglev2.cc:90-110): at most `rounds` rounds. -/
def loop (fuel ring max : Nat) : Nat → List St → Table → Nat → Option Table
  | 0, _, _, _ => none
  | rounds + 1, es, res, runs =>
    match round fuel ring max es res runs with
    | .stuck => none
    | .done r => some r
    | .cont es' res' runs' => loop fuel ring max rounds es' res' runs'

/-- The maximum weight (maglev2.cc:71-76).  `max_weight` is an `int`, converted back to
unsigned in every comparison, so it acts as a `uint32_t`. -/
def maxWeight (eps : List Endpoint) : Nat :=
  eps.foldl (fun m e => if e.weight > m then e.weight else m) 0

/-- Initial per-endpoint state (maglev2.cc:81-88). -/
def initSt (ring : Nat) (e : Endpoint) : St :=
  { num := e.num, weight := e.weight, offset := offsetOf e.hash ring,
    skip := skipOf e.hash ring, next := 0, cum := 0 }

/-- `MaglevV2::GenerateHashRing` (maglev2.cc:63-114). -/
def generate (fuel : Nat) (eps : List Endpoint) (ring : Nat) : Option Table :=
  match eps with
  | [] => some (List.replicate ring (-1))
  | [e] => some (List.replicate ring (toInt32 e.num))
  | eps => loop fuel ring (maxWeight eps) fuel (eps.map (initSt ring))
      (List.replicate ring (-1)) 0

/-- `MAGLEVE_CH_RINGSIZE` (maglev2.h:34). -/
def defaultRing : Nat := 65537

/-! ### The router -/

/-- `MaglevRouter` (maglev_router.h:44-46); a client is represented by its index in
`clients_` and by the 32-bit hash of its `RemoteIpPort()`. -/
structure Router where
  hashes : List Nat
  table : Option Table

/-- `MaglevRouter::StartRouter` (maglev_router.cc:30-41). -/
def endpointsOf (hashes : List Nat) : List Endpoint :=
  hashes.zipIdx.map (fun p => { num := p.2, weight := u32 hashes.length, hash := p.1 })

/-- `MaglevRouter::GetNextClient` (maglev_router.cc:43-53): the index of the chosen
client, `none` for `nullptr`.  `keyHash` is `MurmurHash3_x86_32` of the key. -/
def getNextClient (nclients : Nat) (table : Table) (keyHash : Nat) : Option Nat :=
  if nclients = 0 then none
  else
    if (u32 (table.getD (keyHash % table.length) 0 % 2 ^ 32).toNat) < nclients then
      some (u32 (table.getD (keyHash % table.length) 0 % 2 ^ 32).toNat)
    else none

end Ltio.Maglev
