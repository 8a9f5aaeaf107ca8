/-
Model of components/lru_cache/lru_cache.h.

`std::list` = list of nodes with an identity (the iterator), `std::unordered_map` = finite map with
its size. `none` = undefined behaviour (dereferencing `end()` etc.).
-/
namespace Ltio.Lru

variable {K V : Type} [DecidableEq K]

/-- std::unordered_map<K, iterator>: lookup function and `size()`. -/
structure UMap (K : Type) where
  f : K → Option Nat
  size : Nat

/-- `erase(key)`. -/
def UMap.erase (m : UMap K) (k : K) : UMap K :=
  ⟨fun x => if x = k then none else m.f x, if (m.f k).isSome then m.size - 1 else m.size⟩

/-- `operator[](key) = id`. -/
def UMap.assign (m : UMap K) (k : K) (id : Nat) : UMap K :=
  ⟨fun x => if x = k then some id else m.f x, if (m.f k).isSome then m.size else m.size + 1⟩

/-- `insert(node)`: keeps an existing element. -/
def UMap.insert (m : UMap K) (k : K) (id : Nat) : UMap K :=
  if (m.f k).isSome then m else m.assign k id

/-- A list node: identity, key, value. -/
structure Node (K V : Type) where
  id : Nat
  key : K
  val : V

/-- lru_cache.h:16-22: `campacity_`, `cache_items_list_`, `cache_items_map_`; `fresh` is the next
unused node identity. -/
structure Cache (K V : Type) where
  cap : Nat
  list : List (Node K V)
  map : UMap K
  fresh : Nat

/-- constructor (lru_cache.h:14-15). -/
def Cache.new (cap : Nat) : Cache K V := ⟨cap, [], ⟨fun _ => none, 0⟩, 0⟩

/-- `list.splice(begin, list, it)`: `none` if `it` is not a node of the list. -/
def spliceFront (l : List (Node K V)) (id : Nat) : Option (List (Node K V)) :=
  match l.find? (fun n => n.id = id) with
  | none => none
  | some n => some (n :: l.filter (fun m => m.id ≠ id))

/-- store through an iterator. -/
def setNode (l : List (Node K V)) (id : Nat) (g : Node K V → Node K V) : List (Node K V) :=
  l.map (fun n => if n.id = id then g n else n)

/-- lru_cache.h:46-47: new front node. -/
def Cache.pushNew (c : Cache K V) (k : K) (v : V) : Cache K V :=
  { c with list := ⟨c.fresh, k, v⟩ :: c.list, map := c.map.assign k c.fresh, fresh := c.fresh + 1 }

/-- lru_cache.h:31-40 (C++17 branch, `__cpp_lib_node_extract`): recycle the last node. -/
def Cache.recycle (c : Cache K V) (k : K) (v : V) : Option (Cache K V) :=
  match c.list.getLast? with
  | none => none
  | some last =>
    match c.map.f last.key with
    | none => none     -- empty node handle, `nh.key()` is undefined
    | some id =>
      let map := (c.map.erase last.key).insert k id
      match spliceFront (setNode c.list last.id (fun n => { n with key := k, val := v })) last.id with
      | none => none
      | some l => some { c with list := l, map := map }

/-- lru_cache.h:41-44 (pre-C++17 branch): drop the last node. -/
def Cache.dropLast (c : Cache K V) : Option (Cache K V) :=
  match c.list.getLast? with
  | none => none
  | some last => some { c with map := c.map.erase last.key, list := c.list.dropLast }

/-- lru_cache.h:25-53 `Add`; `cxx17` selects the preprocessor branch. -/
def Cache.add (cxx17 : Bool) (c : Cache K V) (k : K) (v : V) : Option (Cache K V) :=
  match c.map.f k with
  | none =>
    if c.map.size ≥ c.cap then
      if cxx17 then c.recycle k v
      else match c.dropLast with
        | none => none
        | some c => some (c.pushNew k v)
    else some (c.pushNew k v)
  | some id =>
    match spliceFront (setNode c.list id (fun n => { n with val := v })) id with
    | none => none
    | some l => some { c with list := l }

/-- lru_cache.h:55-67 `Get`. -/
def Cache.get (c : Cache K V) (k : K) : Option (Cache K V × Option V) :=
  match c.map.f k with
  | none => some (c, none)
  | some id =>
    match spliceFront c.list id with
    | none => none
    | some l =>
      match l.find? (fun n => n.id = id) with
      | none => none
      | some n => some ({ c with list := l }, some n.val)

/-- lru_cache.h:69-71 `Exists`. -/
def Cache.exists_ (c : Cache K V) (k : K) : Bool := (c.map.f k).isSome

inductive Op (K V : Type) where
  | add (k : K) (v : V)
  | get (k : K)
  | exists_ (k : K)

inductive Res (V : Type) where
  | done
  | value (v : Option V)
  | bool (b : Bool)
deriving DecidableEq

def step (cxx17 : Bool) (c : Cache K V) : Op K V → Option (Cache K V × Res V)
  | .add k v => (c.add cxx17 k v).map (·, .done)
  | .get k => (c.get k).map (fun r => (r.1, .value r.2))
  | .exists_ k => some (c, .bool (c.exists_ k))

/-- A history of calls and their results. -/
def run (cxx17 : Bool) (c : Cache K V) : List (Op K V) → Option (Cache K V × List (Res V))
  | [] => some (c, [])
  | op :: ops =>
    match step cxx17 c op with
    | none => none
    | some (c', r) =>
      match run cxx17 c' ops with
      | none => none
      | some (c'', rs) => some (c'', r :: rs)

end Ltio.Lru
