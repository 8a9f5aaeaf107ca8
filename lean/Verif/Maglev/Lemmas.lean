import Verif.Maglev.Model
import Mathlib.Data.Nat.Prime.Basic
import Mathlib.Data.Nat.ModEq
import Mathlib.Data.Int.GCD

namespace Ltio.Maglev

/-- Probe arithmetic of one endpoint does not overflow `uint32_t` on the first `ring`
probes. -/
def NoWrap (ring offset skip : Nat) : Prop := offset + (ring - 1) * skip < 2 ^ 32

theorem probe_nowrap {ring o s n : Nat} (h : NoWrap ring o s) (hn : n < ring) :
    probe o s ring n = (o + n * s) % ring := by
  unfold NoWrap at h
  have h1 : n * s ≤ (ring - 1) * s := Nat.mul_le_mul_right _ (by omega)
  unfold probe u32
  rw [Nat.mod_eq_of_lt (a := n * s) (by omega), Nat.mod_eq_of_lt (a := o + n * s) (by omega)]

theorem probe_lt {ring o s n : Nat} (h : 0 < ring) : probe o s ring n < ring :=
  Nat.mod_lt _ h

/-- A full cycle of an arithmetic progression with prime modulus reaches every slot. -/
theorem ap_covers {p o s t : Nat} (hp : p.Prime) (hs : 0 < s) (hsp : s < p) (ht : t < p) :
    ∃ n, n < p ∧ (o + n * s) % p = t := by
  have hcop : Nat.Coprime s p := by
    rw [Nat.coprime_comm]
    exact (Nat.Prime.coprime_iff_not_dvd hp).2 (fun h => by
      have := Nat.le_of_dvd hs h; omega)
  obtain ⟨m, -, hm⟩ := Nat.exists_mul_mod_eq_one_of_coprime hcop hp.one_lt
  refine ⟨((t + (p - o % p)) * m) % p, Nat.mod_lt _ hp.pos, ?_⟩
  have h1 : (((t + (p - o % p)) * m) % p * s) % p = (t + (p - o % p)) % p := by
    have e : (t + (p - o % p)) * m * s = (t + (p - o % p)) * (s * m) := by
      rw [Nat.mul_assoc, Nat.mul_comm m s]
    rw [Nat.mod_mul_mod, e, Nat.mul_mod, hm]
    simp
  rw [Nat.add_mod, h1, ← Nat.add_mod]
  have h2 := Nat.div_add_mod o p
  have h3 : o % p < p := Nat.mod_lt _ hp.pos
  have h4 : o + (t + (p - o % p)) = t + p * (o / p + 1) := by
    rw [Nat.mul_add, Nat.mul_one]; omega
  rw [h4, Nat.add_mul_mod_self_left, Nat.mod_eq_of_lt ht]

/-- ... and no slot twice. -/
theorem ap_injective {p o s n m : Nat} (hp : p.Prime) (hs : 0 < s) (hsp : s < p)
    (hn : n < p) (hm : m < p) (h : (o + n * s) % p = (o + m * s) % p) : n = m := by
  have hcop : Nat.Coprime p s :=
    (Nat.Prime.coprime_iff_not_dvd hp).2 (fun h => by
      have := Nat.le_of_dvd hs h; omega)
  have h1 : o + n * s ≡ o + m * s [MOD p] := h
  have h2 := Nat.ModEq.add_left_cancel' o h1
  have h3 := Nat.ModEq.cancel_right_of_coprime hcop h2
  exact Nat.ModEq.eq_of_lt_of_lt h3 hn hm

/-- Number of slots already taken. -/
def taken (res : Table) : Nat := res.countP (fun x => decide (0 ≤ x))

theorem exists_free {res : Table} (h : taken res < res.length) :
    ∃ t, t < res.length ∧ res.getD t 0 < 0 := by
  induction res with
  | nil => simp at h
  | cons x xs ih =>
    by_cases hx : 0 ≤ x
    · have : taken xs < xs.length := by
        simp [taken, hx] at h; simpa [taken] using h
      obtain ⟨t, ht, hf⟩ := ih this
      exact ⟨t + 1, by simpa using ht, by simpa using hf⟩
    · exact ⟨0, by simp, by simpa using hx⟩

theorem findFree_spec {o s ring : Nat} {res : Table} (hring : ring < 2 ^ 32) :
    ∀ (fuel n m : Nat), n ≤ m → m < ring → m - n < fuel →
      res.getD (probe o s ring m) 0 < 0 →
      ∃ n', findFree o s ring res fuel n = some n' ∧ n ≤ n' ∧ n' ≤ m ∧
        res.getD (probe o s ring n') 0 < 0 ∧
        ∀ k, n ≤ k → k < n' → 0 ≤ res.getD (probe o s ring k) 0 := by
  intro fuel
  induction fuel with
  | zero => intro n m _ _ h; omega
  | succ fuel ih =>
    intro n m hnm hm hf hfree
    rw [findFree]
    split
    · rename_i hge
      have hne : n ≠ m := by
        rintro rfl
        omega
      have hu : u32 (n + 1) = n + 1 := Nat.mod_eq_of_lt (by omega)
      rw [hu]
      obtain ⟨n', h1, h2, h3, h4, h5⟩ := ih (n + 1) m (by omega) hm (by omega) hfree
      refine ⟨n', h1, by omega, h3, h4, ?_⟩
      intro k hk hk'
      by_cases hkn : k = n
      · subst hkn; exact hge
      · exact h5 k (by omega) hk'
    · rename_i hlt
      exact ⟨n, rfl, Nat.le_refl _, hnm, by omega, fun k hk hk' => by omega⟩

/-- Every successful `while` loop stops on a free slot. -/
theorem findFree_free {o s ring : Nat} {res : Table} :
    ∀ (fuel n n' : Nat), findFree o s ring res fuel n = some n' →
      res.getD (probe o s ring n') 0 < 0 := by
  intro fuel
  induction fuel with
  | zero => intro n n' h; simp [findFree] at h
  | succ fuel ih =>
    intro n n' h
    rw [findFree] at h
    split at h
    · exact ih _ _ h
    · rename_i hlt
      injection h with h
      subst h
      omega

theorem taken_set {res : Table} {i : Nat} {v : Int} (hi : i < res.length)
    (hfree : res.getD i 0 < 0) (hv : 0 ≤ v) : taken (res.set i v) = taken res + 1 := by
  have hg : ¬ (0 ≤ res[i]) := by
    simp [List.getD_eq_getElem?_getD, hi] at hfree; omega
  unfold taken
  rw [List.countP_set hi]
  simp [hg, hv]

theorem count_set_self {res : Table} {i : Nat} {v : Int} (hi : i < res.length)
    (hfree : res.getD i 0 < 0) (hv : 0 ≤ v) : (res.set i v).count v = res.count v + 1 := by
  have hg : res[i] ≠ v := by
    simp [List.getD_eq_getElem?_getD, hi] at hfree; omega
  rw [List.count_set hi]
  simp [hg]

theorem count_set_other {res : Table} {i : Nat} {v w : Int} (hi : i < res.length)
    (hfree : res.getD i 0 < 0) (hw : 0 ≤ w) (hvw : v ≠ w) :
    (res.set i v).count w = res.count w := by
  have hg : res[i] ≠ w := by
    simp [List.getD_eq_getElem?_getD, hi] at hfree; omega
  rw [List.count_set hi]
  simp [hg, hvw]

theorem getD_set_mono {res : Table} {i j : Nat} {v : Int} (hv : 0 ≤ v)
    (h : 0 ≤ res.getD j 0) : 0 ≤ (res.set i v).getD j 0 := by
  rw [List.getD_eq_getElem?_getD, List.getElem?_set]
  split
  · split
    · exact hv
    · simp
  · rw [← List.getD_eq_getElem?_getD]; exact h

/-- Table invariant. -/
structure TInv (ring : Nat) (nums : List Nat) (res : Table) (runs : Nat) : Prop where
  len : res.length = ring
  mem : ∀ x ∈ res, x = -1 ∨ ∃ n ∈ nums, x = (n : Int)
  cnt : runs = taken res
  lt : runs < ring

/-- Per-endpoint invariant: probes before `next` all hit taken slots. -/
structure EInv (ring : Nat) (res : Table) (e : St) : Prop where
  nowrap : NoWrap ring e.offset e.skip
  skip_pos : 0 < e.skip
  skip_lt : e.skip < ring
  seen : ∀ k, k < e.next → 0 ≤ res.getD (probe e.offset e.skip ring k) 0
  num : e.num < 2 ^ 31

/-- Weight accounting: after `k` rounds. -/
def Wt (max k : Nat) (res : Table) (e : St) : Prop :=
  res.count (e.num : Int) * max + e.cum = k * e.weight ∧ e.cum < max

/-- What a turn guarantees when it continues with table `res'`. -/
theorem find_ok {ring runs fuel : Nat} {nums : List Nat} {res : Table} {e : St}
    (hp : ring.Prime) (hr : ring < 2 ^ 32) (hf : ring ≤ fuel)
    (ht : TInv ring nums res runs) (he : EInv ring res e) :
    ∃ n, findFree e.offset e.skip ring res fuel e.next = some n ∧ n < ring ∧
      probe e.offset e.skip ring n < res.length ∧
      res.getD (probe e.offset e.skip ring n) 0 < 0 ∧
      ∀ k, k < n → 0 ≤ res.getD (probe e.offset e.skip ring k) 0 := by
  obtain ⟨t, htl, htf⟩ := exists_free (res := res) (by rw [ht.len, ← ht.cnt]; exact ht.lt)
  obtain ⟨m, hm, hmt⟩ := ap_covers (o := e.offset) hp he.skip_pos he.skip_lt
    (ht.len ▸ htl : t < ring)
  have hpm : probe e.offset e.skip ring m = t := by rw [probe_nowrap he.nowrap hm, hmt]
  have hmn : e.next ≤ m := by
    apply Nat.le_of_not_lt
    intro hlt
    have := he.seen m hlt
    rw [hpm] at this
    omega
  obtain ⟨n', h1, h2, h3, h4, h5⟩ := findFree_spec (o := e.offset) (s := e.skip) (res := res) hr
    fuel e.next m hmn hm (by omega) (by rw [hpm]; exact htf)
  refine ⟨n', h1, by omega, by rw [ht.len]; exact probe_lt hp.pos, h4, ?_⟩
  intro k hk
  by_cases hkn : k < e.next
  · exact he.seen k hkn
  · exact h5 k (by omega) hk

/-- The result of placing one more endpoint in a free slot. -/
theorem place_tinv {ring runs i n : Nat} {nums : List Nat} {res : Table}
    (ht : TInv ring nums res runs) (hi : i < res.length) (hfree : res.getD i 0 < 0)
    (hn : n ∈ nums) (hlt : runs + 1 ≠ ring) :
    TInv ring nums (res.set i (n : Int)) (runs + 1) := by
  refine ⟨by simp [ht.len], ?_, ?_, ?_⟩
  · intro x hx
    rcases List.mem_or_eq_of_mem_set hx with h | h
    · exact ht.mem x h
    · exact Or.inr ⟨n, hn, h⟩
  · rw [taken_set hi hfree (by omega), ht.cnt]
  · have := ht.lt; omega

theorem EInv.mono {ring i n : Nat} {res : Table} {e : St} (he : EInv ring res e) :
    EInv ring (res.set i (n : Int)) e :=
  { nowrap := he.nowrap, skip_pos := he.skip_pos, skip_lt := he.skip_lt, num := he.num
    seen := fun k hk => getD_set_mono (by omega) (he.seen k hk) }

theorem full_of_done {ring runs i n : Nat} {nums : List Nat} {res : Table}
    (ht : TInv ring nums res runs) (hi : i < res.length) (hfree : res.getD i 0 < 0)
    (hn : n ∈ nums) (heq : runs + 1 = ring) :
    (res.set i (n : Int)).length = ring ∧
      ∀ x ∈ res.set i (n : Int), ∃ n ∈ nums, x = (n : Int) := by
  refine ⟨by simp [ht.len], ?_⟩
  have hc : taken (res.set i (n : Int)) = (res.set i (n : Int)).length := by
    rw [taken_set hi hfree (by omega), ← ht.cnt, List.length_set, ht.len, heq]
  have hall := List.countP_eq_length.1 hc
  intro x hx
  have hx0 : 0 ≤ x := by simpa using hall x hx
  rcases List.mem_or_eq_of_mem_set hx with h | h
  · rcases ht.mem x h with h | h
    · omega
    · exact h
  · exact ⟨n, hn, h⟩

end Ltio.Maglev
