import Verif.Maglev.Rounds
import Mathlib.Tactic.NormNum.Prime

/-!
# C18: the Maglev table is complete, only names configured endpoints, and honours weights

Specification vocabulary used in the statements: `Nat.Prime` (Mathlib), the documented
preconditions of maglev2.h:44-46 (`Valid`), and list `count`.
-/
namespace Ltio.Maglev

/-- The documented preconditions (maglev2.h:39-46): unique numbers below 2^31, positive
weights below 2^31. -/
structure Valid (eps : List Endpoint) : Prop where
  nonempty : eps ≠ []
  unique : (eps.map Endpoint.num).Nodup
  num : ∀ e ∈ eps, e.num < 2 ^ 31
  weight : ∀ e ∈ eps, 0 < e.weight ∧ e.weight < 2 ^ 31

/-- The slots endpoint `e` looks at, in the order it looks at them. -/
def probesOf (ring : Nat) (e : Endpoint) (n : Nat) : Nat :=
  probe (offsetOf e.hash ring) (skipOf e.hash ring) ring n

/-- The first `ring` probes of the endpoint are computed without `uint32_t` overflow. -/
def NoOverflow (ring : Nat) (e : Endpoint) : Prop :=
  NoWrap ring (offsetOf e.hash ring) (skipOf e.hash ring)

theorem offsetOf_lt {h ring : Nat} (hr : 0 < ring) : offsetOf h ring < ring := Nat.mod_lt _ hr

theorem skipOf_pos {h ring : Nat} : 0 < skipOf h ring := Nat.succ_pos _

theorem skipOf_lt {h ring : Nat} (hr : 2 ≤ ring) : skipOf h ring < ring := by
  have : (murmur128 h kHashSeed3).2 % (ring - 1) < ring - 1 := Nat.mod_lt _ (by omega)
  unfold skipOf
  omega

/-- For every ring size up to 65536 no probe overflows, whatever the endpoint. -/
theorem noOverflow_of_small {ring : Nat} (h2 : 2 ≤ ring) (h : ring ≤ 65536) (e : Endpoint) :
    NoOverflow ring e := by
  unfold NoOverflow NoWrap
  have h1 := offsetOf_lt (h := e.hash) (ring := ring) (by omega)
  have h3 := skipOf_lt (h := e.hash) h2
  have h4 : (ring - 1) * skipOf e.hash ring ≤ 65535 * 65535 :=
    Nat.mul_le_mul (by omega) (by omega)
  omega

/-- For the default ring size 65537 the overflow happens only for skip 65535 or 65536. -/
theorem noOverflow_default {e : Endpoint} (h : skipOf e.hash defaultRing < 65535) :
    NoOverflow defaultRing e := by
  unfold NoOverflow NoWrap
  have h1 := offsetOf_lt (h := e.hash) (ring := defaultRing) (by decide)
  have hd : defaultRing = 65537 := rfl
  have h4 : (defaultRing - 1) * skipOf e.hash defaultRing ≤ 65536 * 65534 :=
    Nat.mul_le_mul (by omega) (by omega)
  omega

/-- **C18 (probe sequence).**  For a prime ring size, the first `ring` probes of an
endpoint visit every slot exactly once. -/
theorem c18_probe_permutation_partial {ring : Nat} (hp : ring.Prime) (e : Endpoint)
    (hw : NoOverflow ring e) (slot : Nat) (hs : slot < ring) :
    ∃ n, (n < ring ∧ probesOf ring e n = slot) ∧
      ∀ m, m < ring ∧ probesOf ring e m = slot → m = n := by
  have h2 := skipOf_lt (h := e.hash) hp.two_le
  obtain ⟨n, hn, hns⟩ := ap_covers (o := offsetOf e.hash ring) hp (skipOf_pos (h := e.hash)) h2 hs
  refine ⟨n, ⟨hn, ?_⟩, ?_⟩
  · unfold probesOf; rw [probe_nowrap hw hn, hns]
  · rintro m ⟨hm, hms⟩
    unfold probesOf at hms
    rw [probe_nowrap hw hm] at hms
    exact ap_injective hp skipOf_pos h2 hm hn (by rw [hms, hns])

theorem foldl_max_ge : ∀ (l : List Endpoint) (m : Nat),
    m ≤ l.foldl (fun m e => if e.weight > m then e.weight else m) m ∧
    (∀ e ∈ l, e.weight ≤ l.foldl (fun m e => if e.weight > m then e.weight else m) m) ∧
    (l.foldl (fun m e => if e.weight > m then e.weight else m) m = m ∨
      ∃ e ∈ l, e.weight = l.foldl (fun m e => if e.weight > m then e.weight else m) m) := by
  intro l
  induction l with
  | nil => intro m; simp
  | cons a l ih =>
    intro m
    simp only [List.foldl_cons]
    obtain ⟨h1, h2, h3⟩ := ih (if a.weight > m then a.weight else m)
    refine ⟨?_, ?_, ?_⟩
    · refine Nat.le_trans ?_ h1
      split <;> omega
    · intro e he
      rcases List.mem_cons.1 he with h | h
      · subst h
        refine Nat.le_trans ?_ h1
        split <;> omega
      · exact h2 e h
    · rcases h3 with h3 | ⟨e, he, h3⟩
      · by_cases ha : a.weight > m
        · right
          refine ⟨a, by simp, ?_⟩
          rw [h3, if_pos ha]
        · left; rw [h3, if_neg ha]
      · exact Or.inr ⟨e, by simp [he], h3⟩

theorem maxWeight_ge {eps : List Endpoint} {e : Endpoint} (h : e ∈ eps) :
    e.weight ≤ maxWeight eps := (foldl_max_ge eps 0).2.1 e h

theorem maxWeight_attained {eps : List Endpoint} (h : Valid eps) :
    ∃ e ∈ eps, e.weight = maxWeight eps := by
  rcases (foldl_max_ge eps 0).2.2 with h0 | h1
  · obtain ⟨e, he⟩ := List.exists_mem_of_ne_nil _ h.nonempty
    have := maxWeight_ge he
    have := (h.weight e he).1
    unfold maxWeight at *
    omega
  · exact h1

theorem replicate_getD_neg (n i : Nat) : i < n → (List.replicate n (-1 : Int)).getD i 0 = -1 := by
  intro h
  rw [List.getD_eq_getElem?_getD, List.getElem?_replicate, if_pos h]; rfl

/-- **C18 (completeness, partial).**  For every valid endpoint set and every prime ring
size for which no endpoint overflows, table generation returns (with any fuel of at least
`ring`), the table has `ring` slots, and every slot holds the number of a configured
endpoint.  Moreover the slots are shared by weight: for some number `k` of full rounds
every endpoint of weight `w` owns between `⌊k·w/max⌋` and `⌊(k+1)·w/max⌋` slots.
Missing with respect to C18: the overflow side condition, which is really needed, see
`c18_termination_violated`. -/
theorem c18_complete_partial {eps : List Endpoint} {ring fuel : Nat} (hv : Valid eps)
    (hp : ring.Prime) (hr : ring < 2 ^ 32) (hw : ∀ e ∈ eps, NoOverflow ring e)
    (hf : ring ≤ fuel) :
    ∃ t k, generate fuel eps ring = some t ∧ t.length = ring ∧
      (∀ x ∈ t, ∃ e ∈ eps, x = (e.num : Int)) ∧
      (2 ≤ eps.length → ∀ e ∈ eps,
        k * e.weight / maxWeight eps ≤ t.count (e.num : Int) ∧
        t.count (e.num : Int) ≤ (k + 1) * e.weight / maxWeight eps) := by
  match eps, hv, hw with
  | [], hv, _ => exact absurd rfl hv.nonempty
  | [e], hv, _ =>
    refine ⟨List.replicate ring (toInt32 e.num), 0, rfl, by simp, ?_, by simp⟩
    intro x hx
    refine ⟨e, by simp, ?_⟩
    rw [List.eq_of_mem_replicate hx, toInt32_small (hv.num e (by simp))]
  | a :: b :: l, hv, hw =>
    obtain ⟨em, hem, hemw⟩ := maxWeight_attained hv
    have hmax : maxWeight (a :: b :: l) < 2 ^ 31 := hemw ▸ (hv.weight em hem).2
    have hmax0 : 0 < maxWeight (a :: b :: l) := hemw ▸ (hv.weight em hem).1
    have hT : TInv ring ((a :: b :: l).map Endpoint.num) (List.replicate ring (-1)) 0 := by
      refine ⟨by simp, ?_, ?_, hp.pos⟩
      · intro x hx; exact Or.inl (List.eq_of_mem_replicate hx)
      · unfold taken
        rw [List.countP_replicate]; simp
    obtain ⟨t, k, h1, h2, h3, h4⟩ := loop_post (nums := (a :: b :: l).map Endpoint.num)
      (nw := (a :: b :: l).map (fun e => (e.num, e.weight))) hp hr hf hmax
      (by rw [List.map_map]; exact hv.unique)
      ⟨(em.num, em.weight), List.mem_map_of_mem hem, hemw⟩ fuel 0
      ((a :: b :: l).map (initSt ring)) (List.replicate ring (-1)) 0
      (by rw [List.map_map]; rfl) hT
      (by
        intro e he
        obtain ⟨e0, he0, rfl⟩ := List.mem_map.1 he
        refine ⟨⟨hw e0 he0, skipOf_pos, skipOf_lt hp.two_le, ?_, hv.num e0 he0⟩,
          List.mem_map_of_mem he0, maxWeight_ge he0, ?_, ?_⟩
        · intro k hk; simp [initSt] at hk
        · have : (List.replicate ring (-1 : Int)).count (e0.num : Int) = 0 := by
            rw [List.count_replicate, if_neg (by simp)]
          show (List.replicate ring (-1 : Int)).count (e0.num : Int) * _ + 0 = 0 * _
          rw [this]; simp
        · exact hmax0)
      (by omega)
    refine ⟨t, k, h1, h2, ?_, ?_⟩
    · intro x hx
      obtain ⟨n, hn, hxn⟩ := h3 x hx
      obtain ⟨e, he, rfl⟩ := List.mem_map.1 hn
      exact ⟨e, he, hxn⟩
    · intro _ e he
      exact h4 (e.num, e.weight) (List.mem_map_of_mem he)

/-- Equal weights (what `MaglevRouter` uses): slot counts of any two endpoints differ by at
most one. -/
theorem c18_even_partial {eps : List Endpoint} {ring fuel : Nat} (hv : Valid eps)
    (hp : ring.Prime) (hr : ring < 2 ^ 32) (hw : ∀ e ∈ eps, NoOverflow ring e)
    (hf : ring ≤ fuel) (heq : ∀ e ∈ eps, ∀ e' ∈ eps, e.weight = e'.weight) :
    ∃ t, generate fuel eps ring = some t ∧ ∀ e ∈ eps, ∀ e' ∈ eps,
      t.count (e.num : Int) ≤ t.count (e'.num : Int) + 1 := by
  obtain ⟨t, k, h1, -, -, h4⟩ := c18_complete_partial hv hp hr hw hf
  refine ⟨t, h1, ?_⟩
  intro e he e' he'
  by_cases h2 : 2 ≤ eps.length
  · obtain ⟨em, hem, hemw⟩ := maxWeight_attained hv
    have a := (h4 h2 e he).2
    have b := (h4 h2 e' he').1
    have hm := (hv.weight em hem).1
    rw [← hemw, heq e he em hem, Nat.mul_div_cancel _ hm] at a
    rw [← hemw, heq e' he' em hem, Nat.mul_div_cancel _ hm] at b
    omega
  · match eps, hv, h2, he, he' with
    | [a], _, _, he, he' =>
      simp at he he'
      subst he he'
      omega
    | a :: b :: l, _, h2, _, _ => simp at h2
    | [], hv, _, _, _ => exact absurd rfl hv.nonempty

/-! ## The side condition is needed: with the default ring size generation may never return -/

/-- Invariant of a run in which slot `t` is never probed. -/
structure Missed (ring t : Nat) (res : Table) (runs : Nat) : Prop where
  len : res.length = ring
  free : res.getD t 0 < 0
  cnt : runs = taken res

def MissEp (ring t : Nat) (e : St) : Prop :=
  e.num < 2 ^ 31 ∧ ∀ n, probe e.offset e.skip ring n ≠ t

theorem taken_lt_of_free {res : Table} {t : Nat} (ht : t < res.length)
    (h : res.getD t 0 < 0) : taken res < res.length := by
  apply Nat.lt_of_le_of_ne List.countP_le_length
  intro hc
  have hall := List.countP_eq_length.1 hc
  simp [List.getD_eq_getElem?_getD, ht] at h
  have := hall _ (List.getElem_mem ht)
  simp at this
  omega

theorem getD_set_ne {res : Table} {i t : Nat} {v : Int} (h : i ≠ t) :
    (res.set i v).getD t 0 = res.getD t 0 := by
  simp [List.getD_eq_getElem?_getD, h]

theorem turn_missed {fuel ring max t runs : Nat} {e : St} {res : Table}
    (hr0 : 0 < ring) (hr : ring < 2 ^ 32) (ht : t < ring)
    (hm : Missed ring t res runs) (he : MissEp ring t e) :
    turn fuel ring max e res runs = .stuck ∨
    ∃ e' res' runs', turn fuel ring max e res runs = .cont e' res' runs' ∧
      Missed ring t res' runs' ∧ MissEp ring t e' := by
  unfold turn
  split
  · cases hff : findFree e.offset e.skip ring res fuel e.next with
    | none => left; rfl
    | some n =>
      right
      have hfree := findFree_free _ _ _ hff
      have hlt := taken_lt_of_free (by rw [hm.len]; exact ht) hm.free
      have hset : Missed ring t (res.set (probe e.offset e.skip ring n) (toInt32 e.num))
          (runs + 1) := by
        refine ⟨by simp [hm.len], ?_, ?_⟩
        · rw [getD_set_ne (he.2 n)]; exact hm.free
        · rw [toInt32_small he.1, taken_set (by rw [hm.len]; exact probe_lt hr0) hfree (by omega),
            hm.cnt]
      have hlt2 := taken_lt_of_free (by rw [hset.len]; exact ht) hset.free
      rw [← hset.cnt, hset.len] at hlt2
      have hu : u32 (runs + 1) = runs + 1 := Nat.mod_eq_of_lt (by omega)
      simp only [place]
      rw [hu, if_neg (by omega)]
      exact ⟨_, _, _, rfl, hset, he.1, he.2⟩
  · right
    exact ⟨_, _, _, rfl, hm, he.1, he.2⟩

theorem round_missed {fuel ring max t : Nat} (hr0 : 0 < ring) (hr : ring < 2 ^ 32)
    (ht : t < ring) : ∀ (es : List St) (res : Table) (runs : Nat),
    Missed ring t res runs → (∀ e ∈ es, MissEp ring t e) →
    round fuel ring max es res runs = .stuck ∨
    ∃ es' res' runs', round fuel ring max es res runs = .cont es' res' runs' ∧
      Missed ring t res' runs' ∧ ∀ e ∈ es', MissEp ring t e := by
  intro es
  induction es with
  | nil => intro res runs hm _; exact Or.inr ⟨[], res, runs, rfl, hm, by simp⟩
  | cons e es ih =>
    intro res runs hm hes
    unfold round
    rcases turn_missed (fuel := fuel) (max := max) hr0 hr ht hm (hes e (by simp)) with h | ⟨e', res', runs', h, h1, h2⟩
    · left; rw [h]
    · rw [h]
      simp only
      rcases ih res' runs' h1 (fun f hf => hes f (by simp [hf])) with g | ⟨es', r'', n'', g, g1, g2⟩
      · left; rw [g]
      · right
        rw [g]
        refine ⟨_, _, _, rfl, g1, ?_⟩
        intro f hf
        rcases List.mem_cons.1 hf with hh | hh
        · subst hh; exact h2
        · exact g2 f hh

theorem loop_missed {fuel ring max t : Nat} (hr0 : 0 < ring) (hr : ring < 2 ^ 32)
    (ht : t < ring) : ∀ (rounds : Nat) (es : List St) (res : Table) (runs : Nat),
    Missed ring t res runs → (∀ e ∈ es, MissEp ring t e) →
    loop fuel ring max rounds es res runs = none := by
  intro rounds
  induction rounds with
  | zero => intros; rfl
  | succ rounds ih =>
    intro es res runs hm hes
    unfold loop
    rcases round_missed (fuel := fuel) (max := max) hr0 hr ht es res runs hm hes with h | ⟨es', r', n', h, h1, h2⟩
    · rw [h]
    · rw [h]; exact ih _ _ _ h1 h2

/-- If some slot is probed by no endpoint, generation never returns. -/
theorem generate_diverges {eps : List Endpoint} {ring t : Nat} (h2 : 2 ≤ eps.length)
    (hr : ring < 2 ^ 32) (ht : t < ring) (hn : ∀ e ∈ eps, e.num < 2 ^ 31)
    (hmiss : ∀ e ∈ eps, ∀ n, probesOf ring e n ≠ t) (fuel : Nat) :
    generate fuel eps ring = none := by
  match eps, h2, hn, hmiss with
  | a :: b :: l, _, hn, hmiss =>
    apply loop_missed (t := t) (by omega) hr ht
    · refine ⟨by simp, by rw [replicate_getD_neg _ _ ht]; decide, ?_⟩
      unfold taken
      rw [List.countP_replicate]; simp
    · intro e he
      obtain ⟨e0, he0, rfl⟩ := List.mem_map.1 he
      exact ⟨hn e0 he0, hmiss e0 he0⟩

/-- With the default ring size an endpoint whose skip is 65536 never looks at the slot after
its offset: `n * 65536` wraps to 0 at `n = 65536`. -/
theorem skip_max_misses {o : Nat} (ho : o < 65536) (n : Nat) :
    probe o 65536 65537 n ≠ o + 1 := by
  unfold probe u32
  have h1 : n * 65536 % 2 ^ 32 = 65536 * (n % 65536) := by
    rw [Nat.mul_comm, show (2 : Nat) ^ 32 = 65536 * 65536 from rfl, Nat.mul_mod_mul_left]
  rw [h1]
  have h2 : n % 65536 < 65536 := Nat.mod_lt _ (by decide)
  generalize n % 65536 = m at h2
  omega

/-- Two endpoints with different hashes, found by search. -/
def badEndpoints : List Endpoint :=
  [{ num := 1, weight := 1, hash := 4408672 }, { num := 2, weight := 1, hash := 7431010 }]

/-- **C18 violated.**  For the default ring size (65537, prime) there are two perfectly valid
endpoints with distinct hashes for which table generation never returns. -/
theorem c18_termination_violated :
    ∃ eps : List Endpoint, Valid eps ∧ (eps.map Endpoint.hash).Nodup ∧ defaultRing.Prime ∧
      ∀ fuel, generate fuel eps defaultRing = none := by
  refine ⟨badEndpoints, ⟨by decide, by decide, by decide, by decide⟩, by decide, ?_, ?_⟩
  · unfold defaultRing; norm_num
  · intro fuel
    apply generate_diverges (t := 19356) (by decide) (by decide) (by decide) (by decide)
    have h1 : offsetOf 4408672 65537 = 19355 := by decide +kernel
    have h2 : skipOf 4408672 65537 = 65536 := by decide +kernel
    have h3 : offsetOf 7431010 65537 = 19355 := by decide +kernel
    have h4 : skipOf 7431010 65537 = 65536 := by decide +kernel
    intro e he n
    simp only [badEndpoints, List.mem_cons, List.not_mem_nil, or_false] at he
    rcases he with rfl | rfl
    · show probe (offsetOf 4408672 65537) (skipOf 4408672 65537) 65537 n ≠ 19356
      rw [h1, h2]; exact skip_max_misses (by decide) n
    · show probe (offsetOf 7431010 65537) (skipOf 7431010 65537) 65537 n ≠ 19356
      rw [h3, h4]; exact skip_max_misses (by decide) n

/-! ## The router -/

theorem endpointsOf_valid {hashes : List Nat} (h0 : hashes ≠ []) (h : hashes.length < 2 ^ 31) :
    Valid (endpointsOf hashes) := by
  have hlen : 0 < hashes.length := List.length_pos_iff.2 h0
  have hu : u32 hashes.length = hashes.length := Nat.mod_eq_of_lt (by omega)
  refine ⟨?_, ?_, ?_, ?_⟩
  · intro hc
    have := congrArg List.length hc
    simp [endpointsOf] at this
    exact h0 this
  · unfold endpointsOf
    rw [List.map_map]
    show (hashes.zipIdx.map Prod.snd).Nodup
    rw [List.zipIdx_map_snd]
    exact List.nodup_range'
  · intro e he
    obtain ⟨p, hp, rfl⟩ := List.mem_map.1 he
    have := List.snd_lt_of_mem_zipIdx hp
    simp only at *
    omega
  · intro e he
    obtain ⟨p, hp, rfl⟩ := List.mem_map.1 he
    simp only [hu]
    omega

/-- **C18 (router).**  Once the router is started, every key is routed to a configured
client. -/
theorem c18_router_total_partial {hashes : List Nat} {fuel : Nat} (h0 : hashes ≠ [])
    (h : hashes.length < 2 ^ 31)
    (hw : ∀ x ∈ hashes, skipOf x defaultRing < 65535) (hf : defaultRing ≤ fuel) :
    ∃ t, generate fuel (endpointsOf hashes) defaultRing = some t ∧
      ∀ keyHash, ∃ i, i < hashes.length ∧ getNextClient hashes.length t keyHash = some i := by
  have hlen : 0 < hashes.length := List.length_pos_iff.2 h0
  obtain ⟨t, k, h1, h2, h3, -⟩ := c18_complete_partial (endpointsOf_valid h0 h)
    (ring := defaultRing) (fuel := fuel) (by unfold defaultRing; norm_num) (by decide)
    (by
      intro e he
      obtain ⟨p, hp, rfl⟩ := List.mem_map.1 he
      exact noOverflow_default (hw p.1 (List.fst_mem_of_mem_zipIdx hp))) hf
  refine ⟨t, h1, ?_⟩
  intro keyHash
  have hpos : 0 < t.length := by rw [h2]; decide
  have hi : keyHash % t.length < t.length := Nat.mod_lt _ hpos
  have hg : t.getD (keyHash % t.length) 0 = t[keyHash % t.length] := by
    simp [List.getD_eq_getElem?_getD, hi]
  obtain ⟨e, he, hx⟩ := h3 _ (List.getElem_mem hi)
  obtain ⟨p, hp, rfl⟩ := List.mem_map.1 he
  have hp2 := List.snd_lt_of_mem_zipIdx hp
  simp only at hx
  have hv : u32 (t.getD (keyHash % t.length) 0 % 2 ^ 32).toNat = p.2 := by
    rw [hg, hx]
    unfold u32
    omega
  refine ⟨p.2, by omega, ?_⟩
  unfold getNextClient
  rw [hv, if_neg (by omega), if_pos (by omega)]

/-- Before `StartRouter` (no endpoint yet) the generated table names nobody: all slots -1. -/
theorem empty_table (fuel ring : Nat) :
    generate fuel [] ring = some (List.replicate ring (-1)) := rfl

/-! Non-vacuity: a concrete weighted instance meets all hypotheses. -/

example : Valid [⟨3, 1, 77⟩, ⟨5, 2, 78⟩] ∧ (7 : Nat).Prime ∧
    (∀ e ∈ [(⟨3, 1, 77⟩ : Endpoint), ⟨5, 2, 78⟩], NoOverflow 7 e) ∧
    (generate 7 [⟨3, 1, 77⟩, ⟨5, 2, 78⟩] 7).map (fun t => (t.count 3, t.count 5)) = some (2, 5) := by
  refine ⟨⟨by decide, by decide, by decide, by decide⟩, by norm_num, ?_, by decide +kernel⟩
  intro e _
  exact noOverflow_of_small (by decide) (by decide) e

example : skipOf 12345 defaultRing < 65535 := by decide +kernel

end Ltio.Maglev
