import Verif.Redis.Resp
/-
Storage of decoded values: `resp::unique_array` (thirdparty/resp/resp/unique_array.hpp) and
`RedisResponse::DebugDump` (net_io/codec/redis/redis_response.cc:37-100), C48.

A node is the list of the elements in its chunk of 8; `index_` is the list of nodes.  An access to
`index_` out of range or to a full chunk is undefined behaviour: `none`.
-/
namespace Ltio.Redis.Storage
open Ltio.Redis

/-- `unique_array` (unique_array.hpp:104-252): `index_`, `node_size_`, `size_`. -/
structure UArr (α : Type) where
  index : List (List α)
  nodeSize : Nat
  size : Nat
deriving DecidableEq, Repr

variable {α : Type}

def UArr.new : UArr α := ⟨[], 0, 0⟩

/-- `reserve` (lines 174-185) with `grow` (lines 230-245): appends empty nodes and, as written, does
not change `node_size_`. -/
def UArr.reserve (a : UArr α) (capacity : Nat) : UArr α :=
  if capacity > a.nodeSize * 8 then
    { a with index := a.index ++
        List.replicate (if (capacity - a.nodeSize * 8) % 8 = 0 then (capacity - a.nodeSize * 8) / 8
          else (capacity - a.nodeSize * 8) / 8 + 1) [] }
  else a

/-- `push_back` through `emplace_back` (lines 187-203). -/
def UArr.push (a : UArr α) (x : α) : Option (UArr α) :=
  match (a.reserve (a.size + 1)).index[if a.nodeSize = 0 then 0 else a.nodeSize - 1]? with
  | none => none
  | some nd =>
    if nd.length < 8 then
      some ⟨(a.reserve (a.size + 1)).index.set (if a.nodeSize = 0 then 0 else a.nodeSize - 1)
        (nd ++ [x]), (a.size + 1) / 8 + 1, a.size + 1⟩
    else none

def UArr.pushes (a : UArr α) : List α → Option (UArr α)
  | [] => some a
  | x :: xs => match a.push x with
    | none => none
    | some a' => a'.pushes xs

/-- `operator[]` (lines 154-161). -/
def UArr.get (a : UArr α) (i : Nat) : Option α :=
  if i < a.size ∧ i / 8 < a.nodeSize then (a.index[i / 8]?).bind (fun nd => nd[i % 8]?) else none

/-- The array holds `xs`: node `j` holds the elements `8j … 8j+7`. -/
structure Holds (a : UArr α) (xs : List α) : Prop where
  size : a.size = xs.length
  node : a.nodeSize = if xs = [] then 0 else xs.length / 8 + 1
  nodes : ∀ j, j < a.index.length → a.index[j]? = some ((xs.drop (8 * j)).take 8)
  all : xs.length ≤ 8 * a.index.length

theorem holds_get {a : UArr α} {xs : List α} (h : Holds a xs) (i : Nat) :
    a.get i = xs[i]? := by
  unfold UArr.get
  by_cases hi : i < a.size
  · have hne : xs ≠ [] := by
      intro h0; rw [h.size, h0] at hi; simp at hi
    have hn : i / 8 < a.nodeSize := by
      rw [h.node, if_neg hne]
      rw [h.size] at hi
      omega
    have hall := h.all
    rw [h.size] at hi
    have hj : i / 8 < a.index.length := by omega
    have hi' : i < a.size := by rw [h.size]; exact hi
    simp only [hi', hn, and_self, if_true]
    rw [h.nodes _ hj]
    simp only [Option.bind_some]
    rw [List.getElem?_take, if_pos (Nat.mod_lt _ (by omega)), List.getElem?_drop]
    congr 1
    omega
  · have : ¬ (i < a.size ∧ i / 8 < a.nodeSize) := by omega
    rw [if_neg this]
    rw [h.size] at hi
    exact (List.getElem?_eq_none (by omega)).symm

theorem take8_push (xs : List α) (x : α) (j : Nat) :
    ((xs ++ [x]).drop (8 * j)).take 8 =
      if j = xs.length / 8 then (xs.drop (8 * j)).take 8 ++ [x] else (xs.drop (8 * j)).take 8 := by
  split
  · rename_i h
    have : 8 * j ≤ xs.length := by omega
    rw [List.drop_append_of_le_length this, List.take_of_length_le, List.take_of_length_le]
    · simp only [List.length_drop]; omega
    · simp only [List.length_append, List.length_drop, List.length_singleton]; omega
  · rename_i h
    by_cases h1 : 8 * j ≤ xs.length
    · rw [List.drop_append_of_le_length h1, List.take_append_of_le_length]
      simp only [List.length_drop]
      omega
    · rw [List.drop_of_length_le (by simp only [List.length_append, List.length_singleton]; omega),
        List.drop_of_length_le (by omega)]

/-- One more element fits as long as the node for it exists. -/
theorem holds_push {a : UArr α} {xs : List α} (h : Holds a xs) (x : α)
    (hroom : xs.length < 8 * a.index.length) :
    ∃ a', a.push x = some a' ∧ Holds a' (xs ++ [x]) ∧ a.index.length ≤ a'.index.length := by
  -- the node used
  have hcur : (if a.nodeSize = 0 then 0 else a.nodeSize - 1) = xs.length / 8 := by
    rw [h.node]
    by_cases h0 : xs = []
    · subst h0; simp
    · simp [h0]
  have hlt : xs.length / 8 < a.index.length := by omega
  -- the nodes after `reserve` still hold `xs`
  have hres : ∃ m, a.reserve (a.size + 1) = { a with index := a.index ++ List.replicate m [] } := by
    unfold UArr.reserve
    split
    · exact ⟨_, rfl⟩
    · exact ⟨0, by simp⟩
  obtain ⟨m, hm⟩ := hres
  have hidx : (a.reserve (a.size + 1)).index = a.index ++ List.replicate m [] := by rw [hm]
  have hlen : (a.index ++ List.replicate m ([] : List α)).length = a.index.length + m := by simp
  have hnodes : ∀ j, j < a.index.length + m →
      (a.index ++ List.replicate m ([] : List α))[j]? = some ((xs.drop (8 * j)).take 8) := by
    intro j hj
    by_cases hj' : j < a.index.length
    · rw [List.getElem?_append_left hj']
      exact h.nodes j hj'
    · rw [List.getElem?_append_right (by omega), List.getElem?_replicate, if_pos (by omega)]
      have := h.all
      rw [List.drop_of_length_le (by omega)]
      rfl
  unfold UArr.push
  rw [hcur, hidx, hnodes _ (by omega)]
  have hshort : ((xs.drop (8 * (xs.length / 8))).take 8).length < 8 := by
    simp only [List.length_take, List.length_drop]; omega
  simp only [hshort, if_true]
  refine ⟨_, rfl, ⟨?_, ?_, ?_, ?_⟩, ?_⟩
  · simp only [h.size, List.length_append, List.length_singleton]
  · simp only [h.size, List.append_eq_nil_iff, List.cons_ne_nil, and_false, if_false,
      List.length_append, List.length_singleton]
  · intro j hj
    simp only [List.length_set, hlen] at hj
    simp only
    rw [take8_push]
    by_cases hj' : j = xs.length / 8
    · subst hj'
      rw [List.getElem?_set_self (by rw [hlen]; omega), if_pos rfl]
    · rw [List.getElem?_set_ne (by omega), if_neg hj']
      exact hnodes j hj
  · simp only [List.length_set, hlen, List.length_append, List.length_singleton]
    omega
  · simp only [List.length_set, hlen]
    omega

theorem holds_reserve (n : Nat) : Holds ((UArr.new : UArr α).reserve n) [] ∧
    n ≤ 8 * ((UArr.new : UArr α).reserve n).index.length := by
  unfold UArr.reserve UArr.new
  split
  · constructor
    · refine ⟨rfl, rfl, ?_, by simp⟩
      intro j hj
      simp only [List.nil_append, List.length_replicate] at hj ⊢
      rw [List.getElem?_replicate, if_pos hj]
      simp
    · simp only [List.nil_append, List.length_replicate]
      split <;> omega
  · constructor
    · refine ⟨rfl, rfl, ?_, by simp⟩
      intro j hj
      simp at hj
    · rename_i h0
      simp only [Nat.zero_mul] at h0
      omega

/-- **C48, memory.**  Reserving room for `n` elements in an empty array takes the fewest chunks of eight
that hold them. -/
theorem c48_reserve_chunks (n : Nat) : ((UArr.new : UArr α).reserve n).index.length = (n + 7) / 8 := by
  unfold UArr.reserve UArr.new
  split
  · simp only [List.nil_append, List.length_replicate]
    split <;> omega
  · rename_i h0
    simp only [Nat.zero_mul] at h0
    simp only [List.length_nil]
    omega

/-- **C48, storage.**  An array for which `n` elements were reserved (the decoder reserves the
announced number first, decoder.hpp:486) takes up to `n` elements without touching memory out of
range and gives them back by position. -/
theorem c48_array_storage (n : Nat) (xs : List α) (h : xs.length ≤ n) :
    ∃ a, ((UArr.new : UArr α).reserve n).pushes xs = some a ∧ a.size = xs.length ∧
      ∀ i, a.get i = xs[i]? := by
  have key : ∀ (ys : List α) (a : UArr α) (xs : List α), Holds a xs →
      xs.length + ys.length ≤ 8 * a.index.length →
      ∃ a', a.pushes ys = some a' ∧ Holds a' (xs ++ ys) := by
    intro ys
    induction ys with
    | nil => intro a xs h _; exact ⟨a, rfl, by simpa using h⟩
    | cons y ys ih =>
      intro a xs h hl
      simp only [List.length_cons] at hl
      obtain ⟨a1, e1, h1, l1⟩ := holds_push h y (by omega)
      obtain ⟨a2, e2, h2⟩ := ih a1 (xs ++ [y]) h1
        (by simp only [List.length_append, List.length_singleton]; omega)
      refine ⟨a2, ?_, by simpa using h2⟩
      simp only [UArr.pushes, e1, e2]
  obtain ⟨h0, hl⟩ := holds_reserve (α := α) n
  obtain ⟨a, e, ha⟩ := key xs _ [] h0 (by simp only [List.length_nil]; omega)
  rw [List.nil_append] at ha
  exact ⟨a, e, ha.size, holds_get ha⟩

/-- **C48 violated: without the reservation** the ninth element is written through a pointer read
beyond the end of the node table (`unique_value::copy` does exactly this, unique_value.hpp:113-124). -/
theorem c48_violation_no_reserve (xs : List α) (h : xs.length = 9) :
    (UArr.new : UArr α).pushes xs = none := by
  match xs, h with
  | [a, b, c, d, e, f, g, i, j], _ => simp [UArr.pushes, UArr.push, UArr.reserve, UArr.new]

/-! ### Printing a response -/

/-- `unique_array<unique_value> arr = value.array();` (redis_response.cc:66): the copy constructor
of `unique_array` (unique_array.hpp:121-131) empties its source, even a const one. -/
def dumpValue : Val → Val
  | .arr _ => .arr []
  | v => v

/-- `DebugDump`: what is left of the results after printing them. -/
def afterDump (results : List Val) : List Val := results.map dumpValue

/-- **C48 (partial).**  Printing a response leaves its non-array results as they were. -/
theorem c48_dump_partial (results : List Val) (h : ∀ vs, Val.arr vs ∉ results) :
    afterDump results = results := by
  unfold afterDump
  have : ∀ v ∈ results, dumpValue v = v := by
    intro v hv
    cases v with
    | arr vs => exact absurd hv (h vs)
    | _ => rfl
  rw [List.map_congr_left this, List.map_id']

/-- **C48 violated.**  Printing a response (which the client does itself at verbose log levels
before handing the response to the user, queued_channel.cc:119) empties every array in it. -/
theorem c48_violation_dump (results : List Val) (i : Nat) (vs : List Val)
    (h : results[i]? = some (.arr vs)) : (afterDump results)[i]? = some (.arr []) := by
  simp [afterDump, h, dumpValue]

example : ∃ results : List Val, results[1]? = some (.arr [.null]) ∧
    (afterDump results)[1]? = some (.arr []) :=
  ⟨[.null, .arr [.null]], rfl, rfl⟩

end Ltio.Redis.Storage
