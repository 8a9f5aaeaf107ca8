/-
Model of `lb::ConsistentHashMap` (net_io/common/load_balance/consistent_hash_map.h) and of
`RingHashRouter` (net_io/clients/router/ringhash_router.{h,cc}), with property C19.

`std::map<uint32_t, T>` is a list sorted strictly by key.  A client is identified by its
`RemoteIpPort()` string.  `MurmurHash3_x86_32` is an arbitrary function `H` from byte
strings to numbers: nothing below depends on which hash it is.
-/
namespace Ltio.Router

/-- `std::map<size_type, T>` contents in iteration order. -/
abbrev Ring (α : Type) := List (Nat × α)

/-- `std::map::insert` through `ConsistentHashMap::insert` (consistent_hash_map.h:54-57):
an existing key is left alone. -/
def Ring.insert {α : Type} (h : Nat) (x : α) : Ring α → Ring α
  | [] => [(h, x)]
  | p :: r =>
    if h < p.1 then (h, x) :: p :: r
    else if h = p.1 then p :: r
    else p :: Ring.insert h x r

/-- `erase(const T&)` (consistent_hash_map.h:61-64): erases by hash. -/
def Ring.erase {α : Type} (h : Nat) (r : Ring α) : Ring α := r.filter (fun p => p.1 ≠ h)

/-- `find` (consistent_hash_map.h:66-76): `lower_bound`, wrapping to `begin()`;
`none` is `end()`. -/
def Ring.find {α : Type} (h : Nat) (r : Ring α) : Option (Nat × α) :=
  match List.find? (fun p => decide (h ≤ p.1)) r with
  | some p => some p
  | none => r.head?

/-- `hash_key(client->RemoteIpPort() + std::to_string(id))` (ringhash_router.cc:23-26). -/
def vnodeKey (client : String) (id : Nat) : String := client ++ toString id

/-- `NodeHasher::operator()` (ringhash_router.cc:28-33): a `uint32_t`. -/
def vnodeHash (H : String → Nat) (client : String) (id : Nat) : Nat :=
  H (vnodeKey client id) % 2 ^ 32

/-- `RingHashRouter::AddClient` (ringhash_router.cc:38-42). -/
def addClient (H : String → Nat) (vnodes : Nat) (r : Ring String) (c : String) : Ring String :=
  (List.range vnodes).foldl (fun r i => r.insert (vnodeHash H c i) c) r

/-- A router after a sequence of `AddClient` calls. -/
def router (H : String → Nat) (vnodes : Nat) (cs : List String) : Ring String :=
  cs.foldl (addClient H vnodes) []

/-- `RingHashRouter::GetNextClient` (ringhash_router.cc:44-54); `none` is `NULL`. -/
def getNext (H : String → Nat) (r : Ring String) (key : String) : Option String :=
  (r.find (H key % 2 ^ 32)).map Prod.snd

/-! ### Specification: the clockwise nearest virtual node -/

/-- Clockwise distance on the ring of 2^32 positions. -/
def dist (k v : Nat) : Nat := (v + 2 ^ 32 - k) % 2 ^ 32

/-- `p` is the clockwise nearest entry from position `k`. -/
def Nearest {α : Type} (k : Nat) (r : List (Nat × α)) (p : Nat × α) : Prop :=
  p ∈ r ∧ ∀ q ∈ r, dist k p.1 ≤ dist k q.1

/-! ### Lemmas -/

def Sorted {α : Type} (r : Ring α) : Prop := r.Pairwise (fun p q => p.1 < q.1)
def Small {α : Type} (r : Ring α) : Prop := ∀ p ∈ r, p.1 < 2 ^ 32

theorem mem_insert {α : Type} {h : Nat} {x : α} {r : Ring α} (hs : Sorted r) (p : Nat × α) :
    p ∈ r.insert h x ↔ p ∈ r ∨ (p = (h, x) ∧ ∀ q ∈ r, q.1 ≠ h) := by
  induction r with
  | nil => simp [Ring.insert]
  | cons a r ih =>
    obtain ⟨h1, h2⟩ := List.pairwise_cons.1 hs
    unfold Ring.insert
    split
    · rename_i hlt
      have : ∀ q ∈ a :: r, q.1 ≠ h := by
        intro q hq
        rcases List.mem_cons.1 hq with rfl | hq
        · omega
        · have := h1 q hq; omega
      constructor
      · intro hp
        rcases List.mem_cons.1 hp with rfl | hp
        · exact Or.inr ⟨rfl, this⟩
        · exact Or.inl hp
      · rintro (hp | ⟨rfl, -⟩)
        · exact List.mem_cons_of_mem _ hp
        · exact List.mem_cons_self
    · split
      · rename_i heq
        constructor
        · exact fun hp => Or.inl hp
        · rintro (hp | ⟨-, hq⟩)
          · exact hp
          · exact absurd heq.symm (hq a (by simp))
      · rename_i hne1 hne2
        rw [List.mem_cons, ih h2, List.mem_cons]
        constructor
        · rintro (rfl | hp | ⟨rfl, hq⟩)
          · exact Or.inl (Or.inl rfl)
          · exact Or.inl (Or.inr hp)
          · refine Or.inr ⟨rfl, ?_⟩
            intro q hq'
            rcases List.mem_cons.1 hq' with rfl | hq'
            · omega
            · exact hq q hq'
        · rintro ((rfl | hp) | ⟨rfl, hq⟩)
          · exact Or.inl rfl
          · exact Or.inr (Or.inl hp)
          · exact Or.inr (Or.inr ⟨rfl, fun q hq' => hq q (by simp [hq'])⟩)

theorem insert_sorted {α : Type} {h : Nat} {x : α} {r : Ring α} (hs : Sorted r) :
    Sorted (r.insert h x) := by
  induction r with
  | nil => simp [Ring.insert, Sorted]
  | cons a r ih =>
    obtain ⟨h1, h2⟩ := List.pairwise_cons.1 hs
    unfold Ring.insert
    split
    · rename_i hlt
      refine List.pairwise_cons.2 ⟨?_, hs⟩
      intro q hq
      rcases List.mem_cons.1 hq with rfl | hq
      · exact hlt
      · have := h1 q hq
        simp only; omega
    · split
      · exact hs
      · rename_i hne1 hne2
        refine List.pairwise_cons.2 ⟨?_, ih h2⟩
        intro q hq
        rcases (mem_insert h2 q).1 hq with hq | ⟨rfl, -⟩
        · exact h1 q hq
        · simp only; omega

theorem erase_sorted {α : Type} {h : Nat} {r : Ring α} (hs : Sorted r) : Sorted (r.erase h) :=
  List.Pairwise.filter _ hs

theorem mem_erase {α : Type} {h : Nat} {r : Ring α} (p : Nat × α) :
    p ∈ r.erase h ↔ p ∈ r ∧ p.1 ≠ h := by
  unfold Ring.erase
  rw [List.mem_filter]
  simp

theorem sorted_inj {α : Type} {r : Ring α} (hs : Sorted r) {p q : Nat × α}
    (hp : p ∈ r) (hq : q ∈ r) (h : p.1 = q.1) : p = q := by
  induction r with
  | nil => simp at hp
  | cons a r ih =>
    obtain ⟨h1, h2⟩ := List.pairwise_cons.1 hs
    rcases List.mem_cons.1 hp with rfl | hp' <;> rcases List.mem_cons.1 hq with rfl | hq'
    · rfl
    · have := h1 q hq'; omega
    · have := h1 p hp'; omega
    · exact ih h2 hp' hq'

theorem dist_inj {k v w : Nat} (hk : k < 2 ^ 32) (hv : v < 2 ^ 32) (hw : w < 2 ^ 32)
    (h : dist k v = dist k w) : v = w := by
  unfold dist at h
  omega

theorem dist_ge {k v : Nat} (hv : v < 2 ^ 32) (h : k ≤ v) : dist k v = v - k := by
  unfold dist; omega

theorem dist_lt {k v : Nat} (hk : k < 2 ^ 32) (h : v < k) : dist k v = v + 2 ^ 32 - k := by
  unfold dist; omega

/-- `find?` on a sorted ring returns the first key at or after `k`. -/
theorem find?_first {α : Type} {k : Nat} {r : Ring α} (hs : Sorted r) {p : Nat × α}
    (h : List.find? (fun p => decide (k ≤ p.1)) r = some p) :
    p ∈ r ∧ k ≤ p.1 ∧ ∀ q ∈ r, k ≤ q.1 → p.1 ≤ q.1 := by
  induction r with
  | nil => simp at h
  | cons a r ih =>
    obtain ⟨h1, h2⟩ := List.pairwise_cons.1 hs
    rw [List.find?_cons] at h
    split at h
    · rename_i hk
      injection h with h
      subst h
      simp at hk
      refine ⟨by simp, hk, ?_⟩
      intro q hq _
      rcases List.mem_cons.1 hq with rfl | hq
      · exact Nat.le_refl _
      · exact Nat.le_of_lt (h1 q hq)
    · rename_i hk
      simp at hk
      obtain ⟨g1, g2, g3⟩ := ih h2 h
      refine ⟨by simp [g1], g2, ?_⟩
      intro q hq hkq
      rcases List.mem_cons.1 hq with rfl | hq
      · omega
      · exact g3 q hq hkq

/-- Lookup returns exactly the clockwise nearest entry. -/
theorem find_nearest {α : Type} {k : Nat} {r : Ring α} (hs : Sorted r) (hr : Small r)
    (hk : k < 2 ^ 32) {p : Nat × α} (h : r.find k = some p) : Nearest k r p := by
  unfold Ring.find at h
  split at h
  · rename_i p' hp'
    injection h with h
    subst h
    obtain ⟨g1, g2, g3⟩ := find?_first hs hp'
    refine ⟨g1, ?_⟩
    intro q hq
    rw [dist_ge (hr _ g1) g2]
    by_cases hkq : k ≤ q.1
    · rw [dist_ge (hr q hq) hkq]
      have := g3 q hq hkq
      omega
    · rw [dist_lt hk (by omega)]
      have := hr _ g1
      omega
  · rename_i hnone
    have hall : ∀ q ∈ r, q.1 < k := by
      intro q hq
      have := List.find?_eq_none.1 hnone q hq
      simpa using this
    match r, h, hs, hall with
    | a :: r, h, hs, hall =>
      simp at h
      subst h
      refine ⟨by simp, ?_⟩
      intro q hq
      rw [dist_lt hk (hall a (by simp)), dist_lt hk (hall q hq)]
      rcases List.mem_cons.1 hq with rfl | hq'
      · exact Nat.le_refl _
      · have := (List.pairwise_cons.1 hs).1 q hq'
        omega

theorem find_isSome {α : Type} {k : Nat} {r : Ring α} (h : r ≠ []) : ∃ p, r.find k = some p := by
  unfold Ring.find
  split
  · exact ⟨_, rfl⟩
  · match r, h with
    | a :: r, _ => exact ⟨a, rfl⟩

theorem nearest_unique {α : Type} {k : Nat} {r : Ring α} (hs : Sorted r) (hr : Small r)
    (hk : k < 2 ^ 32) {p q : Nat × α} (hp : Nearest k r p) (hq : Nearest k r q) : p = q := by
  have h1 := hp.2 q hq.1
  have h2 := hq.2 p hp.1
  exact sorted_inj hs hp.1 hq.1 (dist_inj hk (hr _ hp.1) (hr _ hq.1) (by omega))

theorem find_iff {α : Type} {k : Nat} {r : Ring α} (hs : Sorted r) (hr : Small r)
    (hk : k < 2 ^ 32) (p : Nat × α) : r.find k = some p ↔ Nearest k r p := by
  constructor
  · exact find_nearest hs hr hk
  · intro h
    obtain ⟨q, hq⟩ := find_isSome (k := k) (List.ne_nil_of_mem h.1)
    rw [hq, nearest_unique hs hr hk (find_nearest hs hr hk hq) h]

/-! ### Router invariants -/

structure RInv (r : Ring String) : Prop where
  sorted : Sorted r
  small : Small r

theorem RInv.insert {r : Ring String} (hr : RInv r) {h : Nat} (hh : h < 2 ^ 32) (c : String) :
    RInv (r.insert h c) := by
  refine ⟨insert_sorted hr.sorted, ?_⟩
  intro p hp
  rcases (mem_insert hr.sorted p).1 hp with hp | ⟨rfl, -⟩
  · exact hr.small p hp
  · exact hh

theorem vnodeHash_lt (H : String → Nat) (c : String) (i : Nat) : vnodeHash H c i < 2 ^ 32 :=
  Nat.mod_lt _ (by decide)

/-- Adding one client's virtual nodes one after the other (any id list). -/
def addIds (H : String → Nat) (c : String) (ids : List Nat) (r : Ring String) : Ring String :=
  ids.foldl (fun r i => r.insert (vnodeHash H c i) c) r

theorem addIds_spec (H : String → Nat) (c : String) : ∀ (ids : List Nat) (r : Ring String),
    RInv r → RInv (addIds H c ids r) ∧
      (∀ p ∈ r, p ∈ addIds H c ids r) ∧
      (∀ p ∈ addIds H c ids r, p ∈ r ∨ (p.2 = c ∧ ∃ i ∈ ids, p.1 = vnodeHash H c i)) ∧
      (∀ i ∈ ids, ∃ p ∈ addIds H c ids r, p.1 = vnodeHash H c i) := by
  intro ids
  induction ids with
  | nil => intro r hr; exact ⟨hr, fun _ h => h, fun _ h => Or.inl h, by simp⟩
  | cons i ids ih =>
    intro r hr
    obtain ⟨h1, h2, h3, h4⟩ := ih (r.insert (vnodeHash H c i) c) (hr.insert (vnodeHash_lt H c i) c)
    have hstep : addIds H c (i :: ids) r = addIds H c ids (r.insert (vnodeHash H c i) c) := rfl
    rw [hstep]
    refine ⟨h1, ?_, ?_, ?_⟩
    · intro p hp
      exact h2 p ((mem_insert hr.sorted p).2 (Or.inl hp))
    · intro p hp
      rcases h3 p hp with h | ⟨h, j, hj, he⟩
      · rcases (mem_insert hr.sorted p).1 h with h | ⟨rfl, -⟩
        · exact Or.inl h
        · exact Or.inr ⟨rfl, i, by simp, rfl⟩
      · exact Or.inr ⟨h, j, by simp [hj], he⟩
    · intro j hj
      rcases List.mem_cons.1 hj with rfl | hj
      · by_cases hex : ∀ q ∈ r, q.1 ≠ vnodeHash H c j
        · exact ⟨(vnodeHash H c j, c), h2 _ ((mem_insert hr.sorted _).2 (Or.inr ⟨rfl, hex⟩)), rfl⟩
        · obtain ⟨q, hq⟩ := Classical.not_forall.1 hex
          obtain ⟨hq1, hq2⟩ := Classical.not_imp.1 hq
          exact ⟨q, h2 q ((mem_insert hr.sorted q).2 (Or.inl hq1)), Classical.not_not.1 hq2⟩
      · exact h4 j hj

/-- Facts about a router built by any list of `AddClient` calls. -/
theorem router_spec (H : String → Nat) (n : Nat) : ∀ (cs : List String) (r : Ring String),
    RInv r → RInv (cs.foldl (addClient H n) r) ∧
      (∀ p ∈ r, p ∈ cs.foldl (addClient H n) r) ∧
      (∀ p ∈ cs.foldl (addClient H n) r, p ∈ r ∨
        (p.2 ∈ cs ∧ ∃ i, i < n ∧ p.1 = vnodeHash H p.2 i)) ∧
      (∀ c ∈ cs, ∀ i, i < n → ∃ p ∈ cs.foldl (addClient H n) r, p.1 = vnodeHash H c i) := by
  intro cs
  induction cs with
  | nil => intro r hr; exact ⟨hr, fun _ h => h, fun _ h => Or.inl h, by simp⟩
  | cons c cs ih =>
    intro r hr
    obtain ⟨a1, a2, a3, a4⟩ := addIds_spec H c (List.range n) r hr
    obtain ⟨b1, b2, b3, b4⟩ := ih (addClient H n r c) a1
    simp only [List.foldl_cons]
    refine ⟨b1, fun p hp => b2 p (a2 p hp), ?_, ?_⟩
    · intro p hp
      rcases b3 p hp with h | ⟨h, hi⟩
      · rcases a3 p h with h | ⟨h, i, hi, he⟩
        · exact Or.inl h
        · exact Or.inr ⟨by simp [h], i, List.mem_range.1 hi, by rw [h]; exact he⟩
      · exact Or.inr ⟨by simp [h], hi⟩
    · intro d hd i hi
      rcases List.mem_cons.1 hd with rfl | hd
      · obtain ⟨p, hp, he⟩ := a4 i (List.mem_range.2 hi)
        exact ⟨p, b2 p hp, he⟩
      · exact b4 d hd i hi

theorem rinv_nil : RInv ([] : Ring String) := ⟨List.Pairwise.nil, by intro p hp; simp at hp⟩

/-! ### C19 -/

/-- **C19 (total).**  With at least one client and one virtual node per client, every key
is routed, and to a client that was added. -/
theorem c19_total (H : String → Nat) (n : Nat) (hn : 0 < n) (cs : List String) (hcs : cs ≠ [])
    (key : String) : ∃ c ∈ cs, getNext H (router H n cs) key = some c := by
  obtain ⟨h1, -, h3, h4⟩ := router_spec H n cs [] rinv_nil
  obtain ⟨c, hc⟩ := List.exists_mem_of_ne_nil _ hcs
  obtain ⟨p, hp, -⟩ := h4 c hc 0 hn
  obtain ⟨q, hq⟩ := find_isSome (k := H key % 2 ^ 32) (List.ne_nil_of_mem hp)
  have hq' : (router H n cs).find (H key % 2 ^ 32) = some q := hq
  refine ⟨q.2, ?_, by unfold getNext; rw [hq']; rfl⟩
  have hnear := find_nearest h1.sorted h1.small (Nat.mod_lt _ (by decide)) hq
  rcases h3 q hnear.1 with h | h
  · simp at h
  · exact h.1

/-- **C19 (nearest).**  A key is routed to `c` exactly when the clockwise nearest virtual node
belongs to `c`, and every client's virtual node positions are on the ring. -/
theorem c19_nearest (H : String → Nat) (n : Nat) (cs : List String) (key c : String) :
    getNext H (router H n cs) key = some c ↔
      ∃ v, Nearest (H key % 2 ^ 32) (router H n cs) (v, c) := by
  obtain ⟨h1, -, -, -⟩ := router_spec H n cs [] rinv_nil
  have hk : H key % 2 ^ 32 < 2 ^ 32 := Nat.mod_lt _ (by decide)
  change RInv (router H n cs) at h1
  unfold getNext
  constructor
  · intro h
    rw [Option.map_eq_some_iff] at h
    obtain ⟨p, hp, rfl⟩ := h
    exact ⟨p.1, find_nearest h1.sorted h1.small hk hp⟩
  · rintro ⟨v, hv⟩
    rw [(find_iff h1.sorted h1.small hk (v, c)).2 hv]; rfl

/-- **C19 (adding a client).**  Adding a client changes a key's route only to the new client,
even when virtual nodes collide. -/
theorem c19_add_moves_only_to_new (H : String → Nat) (n : Nat) (cs : List String)
    (c key : String) :
    getNext H (router H n (cs ++ [c])) key = getNext H (router H n cs) key ∨
    getNext H (router H n (cs ++ [c])) key = some c := by
  obtain ⟨h1, -, -, -⟩ := router_spec H n cs [] rinv_nil
  have hk : H key % 2 ^ 32 < 2 ^ 32 := Nat.mod_lt _ (by decide)
  change RInv (router H n cs) at h1
  have hstep : router H n (cs ++ [c]) = addIds H c (List.range n) (router H n cs) := by
    unfold router; rw [List.foldl_append]; rfl
  obtain ⟨a1, a2, a3, -⟩ := addIds_spec H c (List.range n) (router H n cs) h1
  rw [hstep]
  cases hf : (addIds H c (List.range n) (router H n cs)).find (H key % 2 ^ 32) with
  | none =>
    left
    unfold getNext
    rw [hf]
    cases hg : (router H n cs).find (H key % 2 ^ 32) with
    | none => rfl
    | some q =>
      have := find_nearest h1.sorted h1.small hk hg
      obtain ⟨p, hp⟩ := find_isSome (k := H key % 2 ^ 32) (List.ne_nil_of_mem (a2 q this.1))
      rw [hp] at hf; cases hf
  | some p =>
    have hnear := find_nearest a1.sorted a1.small hk hf
    rcases a3 p hnear.1 with h | h
    · left
      unfold getNext
      rw [hf, (find_iff h1.sorted h1.small hk p).2 ⟨h, fun q hq => hnear.2 q (a2 q hq)⟩]
    · right
      unfold getNext
      rw [hf]
      simp [h.1]

/-- **C19 (removing a node).**  `ConsistentHashMap::erase` moves only the keys the erased node
served. -/
theorem c19_erase_moves_only_served {α : Type} (r : Ring α) (hs : Sorted r) (hr : Small r)
    (h k : Nat) (hk : k < 2 ^ 32) (p : Nat × α) (hf : r.find k = some p) (hne : p.1 ≠ h) :
    (r.erase h).find k = some p := by
  have hn := find_nearest hs hr hk hf
  refine (find_iff (erase_sorted hs) ?_ hk p).2 ⟨(mem_erase p).2 ⟨hn.1, hne⟩, ?_⟩
  · intro q hq; exact hr q ((mem_erase q).1 hq).1
  · intro q hq; exact hn.2 q ((mem_erase q).1 hq).1

/-- No two virtual nodes of (different or equal) configured clients share a position. -/
def NoCollision (H : String → Nat) (n : Nat) (cs : List String) : Prop :=
  ∀ c ∈ cs, ∀ d ∈ cs, ∀ i < n, ∀ j < n, vnodeHash H c i = vnodeHash H d j → c = d

/-- **C19 (order independence, partial).**  Without virtual-node collisions between different
clients, routing depends only on the set of clients, not on the order in which they were
added. -/
theorem c19_order_independent_partial (H : String → Nat) (n : Nat) (cs ds : List String)
    (hset : ∀ c, c ∈ cs ↔ c ∈ ds) (hnc : NoCollision H n cs) (key : String) :
    getNext H (router H n cs) key = getNext H (router H n ds) key := by
  obtain ⟨h1, -, h3, h4⟩ := router_spec H n cs [] rinv_nil
  obtain ⟨g1, -, g3, g4⟩ := router_spec H n ds [] rinv_nil
  have hk : H key % 2 ^ 32 < 2 ^ 32 := Nat.mod_lt _ (by decide)
  have hmem : ∀ p, p ∈ router H n cs ↔ p ∈ router H n ds := by
    intro p
    constructor
    · intro hp
      rcases h3 p hp with h | ⟨hc, i, hi, he⟩
      · simp at h
      · obtain ⟨q, hq, hqe⟩ := g4 p.2 ((hset _).1 hc) i hi
        rcases g3 q hq with h | ⟨hc', j, hj, he'⟩
        · simp at h
        · have hcd := hnc q.2 ((hset _).2 hc') p.2 hc j hj i hi (by rw [← he', hqe])
          have : q = p := Prod.ext (by rw [hqe, he]) hcd
          rw [← this]; exact hq
    · intro hp
      rcases g3 p hp with h | ⟨hc, i, hi, he⟩
      · simp at h
      · obtain ⟨q, hq, hqe⟩ := h4 p.2 ((hset _).2 hc) i hi
        rcases h3 q hq with h | ⟨hc', j, hj, he'⟩
        · simp at h
        · have hcd := hnc q.2 hc' p.2 ((hset _).2 hc) j hj i hi (by rw [← he', hqe])
          have : q = p := Prod.ext (by rw [hqe, he]) hcd
          rw [← this]; exact hq
  unfold getNext
  congr 1
  cases hf : (router H n cs).find (H key % 2 ^ 32) with
  | none =>
    cases hg : (router H n ds).find (H key % 2 ^ 32) with
    | none => rfl
    | some q =>
      have := find_nearest g1.sorted g1.small hk hg
      obtain ⟨p, hp⟩ := find_isSome (k := H key % 2 ^ 32) (List.ne_nil_of_mem ((hmem q).2 this.1))
      rw [hp] at hf; cases hf
  | some p =>
    have hn := find_nearest h1.sorted h1.small hk hf
    exact ((find_iff g1.sorted g1.small hk p).2
      ⟨(hmem p).1 hn.1, fun q hq => hn.2 q ((hmem q).2 hq)⟩).symm

/-- The collisions excluded above are not only hash accidents: the virtual-node label is the
address followed by the id with no separator, so `10.0.0.1:80` node 11 and `10.0.0.1:801` node 1
get the same position whatever the hash function. -/
theorem vnode_label_collision (H : String → Nat) :
    vnodeHash H "10.0.0.1:80" 11 = vnodeHash H "10.0.0.1:801" 1 := by
  unfold vnodeHash vnodeKey
  rw [show "10.0.0.1:80" ++ toString 11 = "10.0.0.1:801" ++ toString 1 from by decide]

/-- The first client added owns all of its own positions. -/
theorem first_owner (H : String → Nat) (n : Nat) (c : String) (cs : List String) (i : Nat)
    (hi : i < n) : getNext H (router H n (c :: cs)) (vnodeKey c i) = some c := by
  obtain ⟨a1, -, a3, a4⟩ := addIds_spec H c (List.range n) [] rinv_nil
  obtain ⟨b1, b2, -, -⟩ := router_spec H n cs (addIds H c (List.range n) []) a1
  have hr : router H n (c :: cs) = cs.foldl (addClient H n) (addIds H c (List.range n) []) := rfl
  obtain ⟨p, hp, he⟩ := a4 i (List.mem_range.2 hi)
  have hc : p.2 = c := by
    rcases a3 p hp with h | h
    · simp at h
    · exact h.1
  have hk : H (vnodeKey c i) % 2 ^ 32 < 2 ^ 32 := Nat.mod_lt _ (by decide)
  have hd : dist (H (vnodeKey c i) % 2 ^ 32) p.1 = 0 := by
    rw [he]; unfold vnodeHash dist; omega
  unfold getNext
  rw [hr, (find_iff b1.sorted b1.small hk p).2 ⟨b2 p hp, fun q _ => by omega⟩]
  simp [hc]

/-- **C19 violated (order independence).**  For every hash function and the default 50 virtual
nodes, two routers with the same set of clients `10.0.0.1:80` and `10.0.0.1:801`, added in
different orders, route the key `10.0.0.1:8011` to different clients. -/
theorem c19_order_violated (H : String → Nat) :
    getNext H (router H 50 ["10.0.0.1:80", "10.0.0.1:801"]) "10.0.0.1:8011" ≠
      getNext H (router H 50 ["10.0.0.1:801", "10.0.0.1:80"]) "10.0.0.1:8011" := by
  have h1 := first_owner H 50 "10.0.0.1:80" ["10.0.0.1:801"] 11 (by decide)
  have h2 := first_owner H 50 "10.0.0.1:801" ["10.0.0.1:80"] 1 (by decide)
  rw [show vnodeKey "10.0.0.1:80" 11 = "10.0.0.1:8011" from by decide] at h1
  rw [show vnodeKey "10.0.0.1:801" 1 = "10.0.0.1:8011" from by decide] at h2
  rw [h1, h2]
  decide

/-! Non-vacuity: a collision-free configuration exists (three clients, two virtual nodes each,
positions taken from the length of the label). -/

example : NoCollision String.length 2 ["a", "bb", "ccc"] ∧
    getNext String.length (router String.length 2 ["a", "bb", "ccc"]) "xyz" = some "bb" ∧
    getNext String.length (router String.length 2 ["ccc", "a", "bb"]) "xyzxyz" = some "a" := by
  refine ⟨?_, by decide, by decide⟩
  unfold NoCollision
  decide

end Ltio.Router
