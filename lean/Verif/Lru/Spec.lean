import Verif.Lru.Model
/-
Specification of an LRU cache with capacity `cap`, independent of lists/maps/iterators:
remember *every* key ever added with its latest value, most recently used first. The cache contains
exactly the first `cap` of them. `Add` and a successful `Get` make a key the most recently used one;
a failed `Get` and `Exists` change nothing.
-/
namespace Ltio.Lru.Spec

variable {K V : Type} [DecidableEq K]

/-- value of `k` among the entries of a recency list -/
def lookup (l : List (K × V)) (k : K) : Option V := (l.find? (fun p => p.1 = k)).map (·.2)

/-- make `k` most recent with value `v` -/
def touch (u : List (K × V)) (k : K) (v : V) : List (K × V) := (k, v) :: u.filter (fun p => p.1 ≠ k)

def step (cap : Nat) (u : List (K × V)) : Op K V → List (K × V) × Res V
  | .add k v => (touch u k v, .done)
  | .get k => match lookup (u.take cap) k with
    | some v => (touch u k v, .value (some v))
    | none => (u, .value none)
  | .exists_ k => (u, .bool (lookup (u.take cap) k).isSome)

def run (cap : Nat) (u : List (K × V)) : List (Op K V) → List (K × V) × List (Res V)
  | [] => (u, [])
  | op :: ops =>
    ((run cap (step cap u op).1 ops).1, (step cap u op).2 :: (run cap (step cap u op).1 ops).2)

end Ltio.Lru.Spec
