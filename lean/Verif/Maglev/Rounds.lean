import Verif.Maglev.Lemmas

namespace Ltio.Maglev

/-- `c` slots is the share of an endpoint of weight `w` after between `k` and `k+1` rounds. -/
def Share (max k w c : Nat) : Prop := k * w / max ≤ c ∧ c ≤ (k + 1) * w / max

/-- The documented preconditions on an endpoint state inside the loop. -/
structure Good (ring max : Nat) (nums : List Nat) (res : Table) (k : Nat) (e : St) : Prop where
  inv : EInv ring res e
  num : e.num ∈ nums
  le : e.weight ≤ max
  wt : Wt max k res e

theorem Wt.count_eq {max k : Nat} {res : Table} {e : St} (h : Wt max k res e) :
    res.count (e.num : Int) = k * e.weight / max := by
  obtain ⟨h1, h2⟩ := h
  rw [← h1, Nat.mul_comm, Nat.mul_add_div (by omega), Nat.div_eq_of_lt h2, Nat.add_zero]

theorem share_lo {max k w : Nat} : Share max k w (k * w / max) :=
  ⟨Nat.le_refl _, Nat.div_le_div_right (Nat.mul_le_mul_right _ (by omega))⟩

theorem share_hi {max k w : Nat} : Share max k w ((k + 1) * w / max) :=
  ⟨Nat.div_le_div_right (Nat.mul_le_mul_right _ (by omega)), Nat.le_refl _⟩

/-- Outcome of one endpoint's turn. -/
def TurnPost (ring max : Nat) (nums : List Nat) (k : Nat) (e : St) (res : Table) (runs : Nat) :
    Out St → Prop
  | .stuck => False
  | .done r => r.length = ring ∧ (∀ x ∈ r, ∃ n ∈ nums, x = (n : Int)) ∧
      r.count (e.num : Int) = (k + 1) * e.weight / max ∧
      ∀ m : Nat, m ≠ e.num → r.count (m : Int) = res.count (m : Int)
  | .cont e' res' runs' => TInv ring nums res' runs' ∧ e'.num = e.num ∧ e'.weight = e.weight ∧
      Good ring max nums res' (k + 1) e' ∧
      (∀ m : Nat, m ≠ e.num → res'.count (m : Int) = res.count (m : Int)) ∧
      (∀ f, EInv ring res f → EInv ring res' f) ∧ runs ≤ runs' ∧
      (e.weight = max → runs < runs')

theorem toInt32_small {n : Nat} (h : n < 2 ^ 31) : toInt32 n = (n : Int) := by
  unfold toInt32; rw [if_pos h]

/-- The conversion keeps the number modulo 2^32 and gives an `int`. -/
theorem toInt32_spec {n : Nat} (h : n < 2 ^ 32) :
    toInt32 n % 2 ^ 32 = n ∧ -2 ^ 31 ≤ toInt32 n ∧ toInt32 n < 2 ^ 31 := by
  unfold toInt32; split <;> omega

theorem turn_post {ring runs fuel max k : Nat} {nums : List Nat} {res : Table} {e : St}
    (hp : ring.Prime) (hr : ring < 2 ^ 32) (hf : ring ≤ fuel) (hmax : max < 2 ^ 31)
    (ht : TInv ring nums res runs) (he : Good ring max nums res k e) :
    TurnPost ring max nums k e res runs (turn fuel ring max e res runs) := by
  have hw := he.le
  obtain ⟨hw1, hw2⟩ := he.wt
  have hb : bumped e = e.cum + e.weight := Nat.mod_eq_of_lt (by omega)
  unfold turn
  rw [hb]
  split
  · rename_i hge
    obtain ⟨n, hn, hnr, hpl, hfree, hseen⟩ := find_ok hp hr hf ht he.inv
    rw [hn]
    simp only
    unfold place
    rw [toInt32_small he.inv.num]
    have hu : u32 (runs + 1) = runs + 1 := Nat.mod_eq_of_lt (by have := ht.lt; omega)
    have hun : u32 (n + 1) = n + 1 := Nat.mod_eq_of_lt (by omega)
    rw [hu]
    simp only
    rw [hun]
    have hcnt := count_set_self (v := (e.num : Int)) hpl hfree (by omega)
    have hoth : ∀ m : Nat, m ≠ e.num →
        (res.set (probe e.offset e.skip ring n) (e.num : Int)).count (m : Int) =
          res.count (m : Int) := fun m hm =>
      count_set_other hpl hfree (by omega) (by omega)
    have hwt : Wt max (k + 1) (res.set (probe e.offset e.skip ring n) (e.num : Int))
        { e with next := n + 1, cum := e.cum + e.weight - max } := by
      refine ⟨?_, ?_⟩
      · simp only
        rw [hcnt, Nat.add_mul, Nat.add_mul]
        omega
      · simp only; omega
    split
    · rename_i heq
      obtain ⟨h1, h2⟩ := full_of_done ht hpl hfree he.num heq
      exact ⟨h1, h2, hwt.count_eq, hoth⟩
    · rename_i hne
      refine ⟨place_tinv ht hpl hfree he.num hne, rfl, rfl, ⟨?_, he.num, he.le, hwt⟩, hoth,
        fun f hf => hf.mono, by omega, fun _ => by omega⟩
      refine ⟨he.inv.nowrap, he.inv.skip_pos, he.inv.skip_lt, ?_, he.inv.num⟩
      intro j hj
      simp only at hj
      by_cases hjn : j < n
      · exact getD_set_mono (by omega) (hseen j hjn)
      · have : j = n := by omega
        subst this
        simp [List.getD_eq_getElem?_getD, hpl]
  · rename_i hlt
    refine ⟨ht, rfl, rfl, ⟨?_, he.num, he.le, ?_⟩, fun _ _ => rfl, fun _ h => h, Nat.le_refl _, ?_⟩
    · exact ⟨he.inv.nowrap, he.inv.skip_pos, he.inv.skip_lt, he.inv.seen, he.inv.num⟩
    · refine ⟨?_, by simp only; omega⟩
      simp only
      rw [Nat.add_mul]
      omega
    · intro h; omega

/-- Outcome of one round over the endpoints. -/
def RoundPost (ring max : Nat) (nums : List Nat) (k : Nat) (es : List St) (res : Table)
    (runs : Nat) : Out (List St) → Prop
  | .stuck => False
  | .done r => r.length = ring ∧ (∀ x ∈ r, ∃ n ∈ nums, x = (n : Int)) ∧
      (∀ e ∈ es, Share max k e.weight (r.count (e.num : Int))) ∧
      ∀ m : Nat, m ∉ es.map St.num → r.count (m : Int) = res.count (m : Int)
  | .cont es' res' runs' => TInv ring nums res' runs' ∧
      es'.map (fun e => (e.num, e.weight)) = es.map (fun e => (e.num, e.weight)) ∧
      (∀ e ∈ es', Good ring max nums res' (k + 1) e) ∧
      (∀ m : Nat, m ∉ es.map St.num → res'.count (m : Int) = res.count (m : Int)) ∧
      (∀ f, EInv ring res f → EInv ring res' f) ∧ runs ≤ runs' ∧
      (∀ e ∈ es, e.weight = max → runs < runs')

theorem Good.transfer {ring max k : Nat} {nums : List Nat} {res res' : Table} {e : St}
    (h : Good ring max nums res k e) (hi : EInv ring res' e)
    (hc : res'.count (e.num : Int) = res.count (e.num : Int)) :
    Good ring max nums res' k e :=
  ⟨hi, h.num, h.le, by unfold Wt; rw [hc]; exact h.wt⟩

theorem round_post {ring fuel max k : Nat} {nums : List Nat}
    (hp : ring.Prime) (hr : ring < 2 ^ 32) (hf : ring ≤ fuel) (hmax : max < 2 ^ 31) :
    ∀ (es : List St) (res : Table) (runs : Nat), (es.map St.num).Nodup →
      TInv ring nums res runs → (∀ e ∈ es, Good ring max nums res k e) →
      RoundPost ring max nums k es res runs (round fuel ring max es res runs) := by
  intro es
  induction es with
  | nil =>
    intro res runs _ ht _
    exact ⟨ht, rfl, by simp, fun _ _ => rfl, fun _ h => h, Nat.le_refl _, by simp⟩
  | cons e es ih =>
    intro res runs hnd ht hes
    have hnd' := hnd
    simp only [List.map_cons, List.nodup_cons] at hnd'
    obtain ⟨hne, hnd2⟩ := hnd'
    have hnum : ∀ f ∈ es, f.num ≠ e.num := fun f hf h =>
      hne (h ▸ List.mem_map_of_mem hf)
    have hT := turn_post hp hr hf hmax ht (hes e (by simp))
    unfold round
    cases htu : turn fuel ring max e res runs with
    | stuck => rw [htu] at hT; exact hT.elim
    | done r =>
      rw [htu] at hT
      obtain ⟨h1, h2, h3, h4⟩ := hT
      refine ⟨h1, h2, ?_, ?_⟩
      · intro f hf
        rcases List.mem_cons.1 hf with h | h
        · subst h; rw [h3]; exact share_hi
        · rw [h4 _ (hnum f h), (hes f (by simp [h])).wt.count_eq]; exact share_lo
      · intro m hm
        exact h4 m (fun h => hm (by simp [h]))
    | cont e' res' runs' =>
      rw [htu] at hT
      obtain ⟨h1, h2, h3, h4, h5, h6, h7, h8⟩ := hT
      have hes' : ∀ f ∈ es, Good ring max nums res' k f := fun f hf =>
        (hes f (by simp [hf])).transfer (h6 f (hes f (by simp [hf])).inv) (h5 _ (hnum f hf))
      have hR := ih res' runs' hnd2 h1 hes'
      simp only
      cases hro : round fuel ring max es res' runs' with
      | stuck => rw [hro] at hR; exact hR.elim
      | done r =>
        rw [hro] at hR
        obtain ⟨g1, g2, g3, g4⟩ := hR
        refine ⟨g1, g2, ?_, ?_⟩
        · intro f hf
          rcases List.mem_cons.1 hf with h | h
          · subst h
            rw [g4 _ hne, ← h2, h4.wt.count_eq, h3]
            exact share_hi
          · exact g3 f h
        · intro m hm
          have hm1 : m ≠ e.num := fun h => hm (by simp [h])
          have hm2 : m ∉ es.map St.num := fun h => hm (by
            rw [List.map_cons]; exact List.mem_cons_of_mem _ h)
          rw [g4 m hm2, h5 m hm1]
      | cont es' res'' runs'' =>
        rw [hro] at hR
        obtain ⟨g1, g2, g3, g4, g5, g6, g7⟩ := hR
        refine ⟨g1, ?_, ?_, ?_, fun f hf => g5 f (h6 f hf), by omega, ?_⟩
        · simp only [List.map_cons, g2, h2, h3]
        · intro f hf
          rcases List.mem_cons.1 hf with h | h
          · subst h
            exact h4.transfer (g5 _ h4.inv) (g4 _ (by rw [h2]; exact hne))
          · exact g3 f h
        · intro m hm
          have hm1 : m ≠ e.num := fun h => hm (by simp [h])
          have hm2 : m ∉ es.map St.num := fun h => hm (by
            rw [List.map_cons]; exact List.mem_cons_of_mem _ h)
          rw [g4 m hm2, h5 m hm1]
        · intro f hf hfm
          rcases List.mem_cons.1 hf with h | h
          · subst h; have := h8 hfm; omega
          · have := g7 f h hfm; omega

/-- The whole loop returns, fills every slot, and gives every endpoint its share. -/
theorem loop_post {ring fuel max : Nat} {nums : List Nat} {nw : List (Nat × Nat)}
    (hp : ring.Prime) (hr : ring < 2 ^ 32) (hf : ring ≤ fuel) (hmax : max < 2 ^ 31)
    (hnd : (nw.map Prod.fst).Nodup) (hm : ∃ p ∈ nw, p.2 = max) :
    ∀ (rounds k : Nat) (es : List St) (res : Table) (runs : Nat),
      es.map (fun e => (e.num, e.weight)) = nw →
      TInv ring nums res runs → (∀ e ∈ es, Good ring max nums res k e) → ring - runs ≤ rounds →
      ∃ t k', loop fuel ring max rounds es res runs = some t ∧ t.length = ring ∧
        (∀ x ∈ t, ∃ n ∈ nums, x = (n : Int)) ∧
        ∀ p ∈ nw, Share max k' p.2 (t.count (p.1 : Int)) := by
  intro rounds
  induction rounds with
  | zero => intro k es res runs _ ht _ h; have := ht.lt; omega
  | succ rounds ih =>
    intro k es res runs hnw ht hes hle
    have hnum : es.map St.num = nw.map Prod.fst := by rw [← hnw]; simp
    have hR := round_post (k := k) hp hr hf hmax es res runs (by rw [hnum]; exact hnd) ht hes
    unfold loop
    cases hro : round fuel ring max es res runs with
    | stuck => rw [hro] at hR; exact hR.elim
    | done r =>
      rw [hro] at hR
      obtain ⟨g1, g2, g3, -⟩ := hR
      refine ⟨r, k, rfl, g1, g2, ?_⟩
      intro p hpn
      rw [← hnw] at hpn
      obtain ⟨e, he, rfl⟩ := List.mem_map.1 hpn
      exact g3 e he
    | cont es' res' runs' =>
      rw [hro] at hR
      obtain ⟨g1, g2, g3, -, -, -, g7⟩ := hR
      simp only
      have hlt : runs < runs' := by
        obtain ⟨p, hpm, hpw⟩ := hm
        rw [← hnw] at hpm
        obtain ⟨e, he, rfl⟩ := List.mem_map.1 hpm
        exact g7 e he hpw
      have := ht.lt
      exact ih (k + 1) es' res' runs' (by rw [g2, hnw]) g1 g3 (by omega)

end Ltio.Maglev
