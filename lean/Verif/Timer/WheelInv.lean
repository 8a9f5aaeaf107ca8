import Verif.Timer.Wheel

/-
Every operation of the timing wheel keeps lists, places, slot sets and time in agreement (C26).
-/
namespace Ltio.Wheel

attribute [local irreducible] passed elapsed timeoutWheel timeoutSlot

theorem shape_tm {t : T} {X : List Nat} (h : Shape t X) {id : Nat} (hid : id ∈ X) (v : Tm) :
    Shape { t with tm := setTm t.tm id v } X where
  memSlot := by
    intro w s i
    show i ∈ t.slots w s ↔ _
    by_cases hi : i = id
    · subst hi
      constructor
      · intro hm; exact absurd hid ((h.memSlot _ _ _).1 hm).1
      · rintro ⟨e, _⟩; exact absurd hid e
    · simp only [setTm_ne _ _ hi]; exact h.memSlot _ _ _
  memExp := by
    intro i
    show i ∈ t.expired ↔ _
    by_cases hi : i = id
    · subst hi
      constructor
      · intro hm; exact absurd hid ((h.memExp _).1 hm).1
      · rintro ⟨e, _⟩; exact absurd hid e
    · simp only [setTm_ne _ _ hi]; exact h.memExp _
  ndSlot := h.ndSlot
  ndExp := h.ndExp
  ndX := h.ndX
  maskOk := h.maskOk
  range := h.range

theorem timed_tm {t : T} {X : List Nat} (h : Shape t X) {id : Nat} (hid : id ∈ X) {c : Nat} (hT : Timed t c)
    (v : Tm) : Timed { t with tm := setTm t.tm id v } c := by
  intro w s i hm
  have hi : i ≠ id := fun e => by subst e; exact ((h.memSlot _ _ _).1 hm).1 hid
  simp only [setTm_ne _ _ hi]
  exact hT _ _ _ hm

/-- A timer that is nowhere can be held. -/
theorem shape_hold {t : T} {X : List Nat} (h : Shape t X) {id : Nat} (hid : id ∉ X)
    (hp : (t.tm id).place = none) : Shape t (id :: X) where
  memSlot := by
    intro w s i
    rw [h.memSlot]
    constructor
    · rintro ⟨h1, h2⟩
      refine ⟨fun e => ?_, h2⟩
      rcases List.mem_cons.1 e with rfl | e
      · rw [hp] at h2; simp at h2
      · exact h1 e
    · rintro ⟨h1, h2⟩; exact ⟨fun e => h1 (List.mem_cons_of_mem _ e), h2⟩
  memExp := by
    intro i
    rw [h.memExp]
    constructor
    · rintro ⟨h1, h2⟩
      refine ⟨fun e => ?_, h2⟩
      rcases List.mem_cons.1 e with rfl | e
      · rw [hp] at h2; simp at h2
      · exact h1 e
    · rintro ⟨h1, h2⟩; exact ⟨fun e => h1 (List.mem_cons_of_mem _ e), h2⟩
  ndSlot := h.ndSlot
  ndExp := h.ndExp
  ndX := List.nodup_cons.2 ⟨hid, h.ndX⟩
  maskOk := h.maskOk
  range := h.range

/-- What happens to one timer; the others keep everything. -/
structure Only (t t' : T) (id : Nat) (v : Tm) : Prop where
  self : t'.tm id = v
  others : ∀ i, i ≠ id → t'.tm i = t.tm i
  cur : t'.cur = t.cur

/-- `timeouts_del`. -/
theorem del_spec {t : T} (h : Shape t []) {c : Nat} (hT : Timed t c) (id : Nat) :
    Shape (del t id) [] ∧ Timed (del t id) c ∧ Only t (del t id) id { t.tm id with place := none } := by
  unfold del
  split
  · rename_i hp
    exact ⟨h, hT, by rw [← hp], fun _ _ => rfl, rfl⟩
  · rename_i hp
    have hns : ∀ w s, id ∉ t.slots w s := fun w s hm => by
      have := ((h.memSlot _ _ _).1 hm).2; rw [hp] at this; simp at this
    refine ⟨⟨?_, ?_, h.ndSlot, h.ndExp.erase _, List.nodup_nil, h.maskOk, h.range⟩, ?_,
      by simp [setTm], fun i hi => setTm_ne _ _ hi, rfl⟩
    · intro w s i
      show i ∈ t.slots w s ↔ _
      by_cases hi : i = id
      · subst hi; simp [setTm, hns]
      · simp only [setTm_ne _ _ hi]; exact h.memSlot _ _ _
    · intro i
      rw [h.ndExp.mem_erase_iff]
      by_cases hi : i = id
      · subst hi; simp [setTm]
      · simp only [setTm_ne _ _ hi, ne_eq, hi, not_false_eq_true, true_and]; exact h.memExp _
    · intro w s i hm
      have hi : i ≠ id := fun e => hns w s (e ▸ hm)
      simp only [setTm_ne _ _ hi]; exact hT _ _ _ hm
  · rename_i w s hp
    have hin : id ∈ t.slots w s := (h.memSlot _ _ _).2 ⟨by simp, hp⟩
    have hne : id ∉ t.expired := fun hm => by
      have := ((h.memExp _).1 hm).2; rw [hp] at this; simp at this
    have hrg := h.range w s (List.ne_nil_of_mem hin)
    have hmem : ∀ w' s' i, i ∈ setSlot t.slots w s ((t.slots w s).erase id) w' s' ↔
        i ≠ id ∧ i ∈ t.slots w' s' := by
      intro w' s' i
      by_cases hc : w' = w ∧ s' = s
      · obtain ⟨rfl, rfl⟩ := hc; rw [setSlot_same, (h.ndSlot _ _).mem_erase_iff]
      · rw [setSlot_ne _ _ hc]
        constructor
        · intro hm
          refine ⟨fun e => ?_, hm⟩
          subst e
          have := ((h.memSlot _ _ _).1 hm).2
          rw [hp] at this
          simp only [Option.some.injEq, Place.slot.injEq] at this
          exact hc ⟨this.1.symm, this.2.symm⟩
        · exact fun hm => hm.2
    refine ⟨⟨?_, ?_, ?_, h.ndExp, List.nodup_nil, ?_, ?_⟩, ?_,
      by simp [setTm], fun i hi => setTm_ne _ _ hi, rfl⟩
    · intro w' s' i
      show i ∈ setSlot t.slots w s ((t.slots w s).erase id) w' s' ↔ _
      rw [hmem]
      by_cases hi : i = id
      · subst hi; simp [setTm]
      · simp only [setTm_ne _ _ hi, ne_eq, hi, not_false_eq_true, true_and]; exact h.memSlot _ _ _
    · intro i
      show i ∈ t.expired ↔ _
      by_cases hi : i = id
      · subst hi; simp [setTm, hne]
      · simp only [setTm_ne _ _ hi]; exact h.memExp _
    · intro w' s'
      show (setSlot t.slots w s ((t.slots w s).erase id) w' s').Nodup
      by_cases hc : w' = w ∧ s' = s
      · obtain ⟨rfl, rfl⟩ := hc; rw [setSlot_same]; exact (h.ndSlot _ _).erase _
      · rw [setSlot_ne _ _ hc]; exact h.ndSlot _ _
    · intro w' s' hs'
      show (BitVec.getLsbD ((if (t.slots w s).erase id = [] then
        setMask t.mask w (t.mask w &&& ~~~(1#64 <<< s)) else t.mask) w') s' = true ↔
        setSlot t.slots w s ((t.slots w s).erase id) w' s' ≠ [])
      by_cases hc : w' = w ∧ s' = s
      · obtain ⟨rfl, rfl⟩ := hc
        rw [setSlot_same]
        by_cases he : (t.slots w' s').erase id = []
        · rw [if_pos he]
          simp only [setMask, if_true]
          rw [getLsbD_clear _ _ _ hs']; simp [he]
        · rw [if_neg he, h.maskOk _ _ hs']
          simp [he, List.ne_nil_of_mem hin]
      · rw [setSlot_ne _ _ hc]
        split
        · by_cases hw : w' = w
          · subst hw
            simp only [setMask, if_true]
            rw [getLsbD_clear _ _ _ hs', Bool.and_eq_true, decide_eq_true_eq, h.maskOk _ _ hs']
            have : s' ≠ s := fun e => hc ⟨rfl, e⟩
            simp [this]
          · simp only [setMask, hw, if_false]; exact h.maskOk _ _ hs'
        · exact h.maskOk _ _ hs'
    · intro w' s' hne'
      have hne' : setSlot t.slots w s ((t.slots w s).erase id) w' s' ≠ [] := hne'
      by_cases hc : w' = w ∧ s' = s
      · obtain ⟨rfl, rfl⟩ := hc; exact hrg
      · rw [setSlot_ne _ _ hc] at hne'; exact h.range _ _ hne'
    · intro w' s' i hm
      have hm : i ∈ setSlot t.slots w s ((t.slots w s).erase id) w' s' := hm
      rw [hmem] at hm
      simp only [setTm_ne _ _ hm.1]
      exact hT _ _ _ hm.2

/-- The place the wheel gives to a timer. -/
def placeFor (cur e : Nat) : Place :=
  if cur < e then .slot (timeoutWheel cur e) (timeoutSlot (timeoutWheel cur e) e) else .expired

theorem schedNoPending_spec {t : T} {id : Nat} {X : List Nat} (h : Shape t (id :: X)) (hT : Timed t t.cur) :
    Shape (schedNoPending t id) X ∧ Timed (schedNoPending t id) t.cur ∧
    Only t (schedNoPending t id) id { t.tm id with place := some (placeFor t.cur (t.tm id).expires) } := by
  unfold schedNoPending placeFor
  split
  · rename_i hc
    obtain ⟨a, b⟩ := shape_future h hc hT rfl
    exact ⟨a, b, by simp [schedFuture, setTm], fun i hi => by simp [schedFuture, setTm, hi], rfl⟩
  · obtain ⟨a, b⟩ := shape_expired h hT
    exact ⟨a, b, by simp [setTm], fun i hi => setTm_ne _ _ hi, rfl⟩

theorem sched_spec {t : T} (h : Shape t []) (hT : Timed t t.cur) (id e : Nat) :
    Shape (sched t id e) [] ∧ Timed (sched t id e) t.cur ∧
    Only t (sched t id e) id { t.tm id with expires := e, place := some (placeFor t.cur e) } := by
  obtain ⟨a, b, c⟩ := del_spec h hT id
  have hold := shape_hold a (by simp) (by rw [c.self])
  have a' : Shape (setExpires (del t id) id e) [id] := shape_tm hold (id := id) (by simp) _
  have b' : Timed (setExpires (del t id) id e) t.cur := timed_tm hold (id := id) (by simp) b _
  have hcur : (setExpires (del t id) id e).cur = t.cur := c.cur
  obtain ⟨p, q, r⟩ := schedNoPending_spec a' (by rw [hcur]; exact b')
  rw [hcur] at q r
  have hself : (setExpires (del t id) id e).tm id = { t.tm id with expires := e, place := none } := by
    simp only [setExpires, setTm_same, c.self]
  refine ⟨p, q, ?_, ?_, ?_⟩
  · show (schedNoPending _ id).tm id = _
    rw [r.self, hself]
  · intro i hi
    show (schedNoPending _ id).tm i = _
    rw [r.others i hi]
    simp only [setExpires, setTm_ne _ _ hi]
    exact c.others i hi
  · exact r.cur.trans hcur

theorem setInterval_spec {t : T} (h : Shape t []) {c : Nat} (hT : Timed t c) (id v : Nat) :
    Shape (setInterval t id v) [] ∧ Timed (setInterval t id v) c ∧
    Only t (setInterval t id v) id { t.tm id with interval := v } := by
  have hpl : ∀ i, ((setInterval t id v).tm i).place = (t.tm i).place ∧
      ((setInterval t id v).tm i).expires = (t.tm i).expires := by
    intro i
    by_cases hii : i = id
    · subst hii; simp [setInterval, setTm]
    · simp [setInterval, setTm, hii]
  refine ⟨⟨fun w s i => ?_, fun i => ?_, h.ndSlot, h.ndExp, h.ndX, h.maskOk, h.range⟩, ?_,
    setTm_same _ _ _, fun i hi => setTm_ne _ _ hi, rfl⟩
  · show i ∈ t.slots w s ↔ _; rw [(hpl i).1]; exact h.memSlot _ _ _
  · show i ∈ t.expired ↔ _; rw [(hpl i).1]; exact h.memExp _
  · intro w s i hm
    rw [(hpl i).2]; exact hT _ _ _ hm

/-- `timeouts_add`: the timer is armed for the given or the computed time. -/
theorem add_spec {t : T} (h : Shape t []) (hT : Timed t t.cur) (id tmo : Nat) :
    Shape (add t id tmo) [] ∧ Timed (add t id tmo) t.cur ∧
    Only t (add t id tmo) id { t.tm id with
      interval := if (t.tm id).isInt then max 1 tmo else (t.tm id).interval
      expires := if (t.tm id).isAbs then tmo else add64 t.cur tmo
      place := some (placeFor t.cur (if (t.tm id).isAbs then tmo else add64 t.cur tmo)) } := by
  -- writing the interval changes no list
  have key : ∀ e, Shape (sched (if (t.tm id).isInt then setInterval t id (max 1 tmo) else t) id e) [] ∧
      Timed (sched (if (t.tm id).isInt then setInterval t id (max 1 tmo) else t) id e) t.cur ∧
      Only t (sched (if (t.tm id).isInt then setInterval t id (max 1 tmo) else t) id e) id
        { t.tm id with
          interval := if (t.tm id).isInt then max 1 tmo else (t.tm id).interval
          expires := e
          place := some (placeFor t.cur e) } := by
    intro e
    by_cases hi : (t.tm id).isInt = true
    · rw [if_pos hi, if_pos hi]
      obtain ⟨hS, hTT, hO⟩ := setInterval_spec h hT id (max 1 tmo)
      obtain ⟨p, q, r⟩ := sched_spec hS (by rw [hO.cur]; exact hTT) id e
      rw [hO.cur] at q r
      refine ⟨p, q, ?_, ?_, r.cur.trans hO.cur⟩
      · rw [r.self, hO.self]
      · intro i hii; rw [r.others i hii]; exact hO.others i hii
    · rw [if_neg hi, if_neg hi]
      obtain ⟨p, q, r⟩ := sched_spec h hT id e
      exact ⟨p, q, r⟩
  unfold add
  by_cases ha : (t.tm id).isAbs = true
  · rw [if_pos ha, if_pos ha]; exact key _
  · rw [if_neg ha, if_neg ha]; exact key _

/-! ### Advancing the clock -/

theorem visited_all {cur now w : Nat} (hw : w < 4)
    (h : ∀ v, v < w → (passed cur now v).getLsbD 0 = true) : Visited cur now [0, 1, 2, 3] w := by
  have h4 : w = 0 ∨ w = 1 ∨ w = 2 ∨ w = 3 := by omega
  rcases h4 with rfl | rfl | rfl | rfl
  · exact ⟨by simp, by simp⟩
  · exact ⟨by simp, by simpa using h 0 (by omega)⟩
  · refine ⟨by simp, ?_⟩
    intro v hv
    simp at hv
    rcases hv with rfl | rfl
    · exact h 0 (by omega)
    · exact h 1 (by omega)
  · refine ⟨by simp, ?_⟩
    intro v hv
    simp at hv
    rcases hv with rfl | rfl | rfl
    · exact h 0 (by omega)
    · exact h 1 (by omega)
    · exact h 2 (by omega)

/-- A timer whose slot is not emptied is still placed right for the new time. -/
theorem placed_advance {cur now e w s : Nat} (hc : cur < 2 ^ 63) (hn : now < 2 ^ 63) (hw : w < 4)
    (hp : Placed cur e w s)
    (hnot : ¬ (Visited cur now [0, 1, 2, 3] w ∧ (passed cur now w).getLsbD s = true)) :
    Placed now e w s := by
  obtain ⟨h1, h2, h3⟩ := hp
  have hs : s < 64 := by rw [h1]; exact Nat.mod_lt _ (by omega)
  by_cases hback : now < cur
  · exfalso
    apply hnot
    refine ⟨visited_all hw (fun v hv => ?_), ?_⟩
    · rw [passed_back hc hback (by omega), BitVec.getLsbD_allOnes]; simp
    · rw [passed_back hc hback hw, BitVec.getLsbD_allOnes]; simp [hs]
  · have hle : cur ≤ now := by omega
    have hmono : cur / 64 ^ w ≤ now / 64 ^ w := Nat.div_le_div_right hle
    have hlt : now / 64 ^ w < e / 64 ^ w := by
      by_cases heq : now / 64 ^ w = cur / 64 ^ w
      · omega
      · have hgt : cur / 64 ^ w < now / 64 ^ w := by omega
        have hv : Visited cur now [0, 1, 2, 3] w := by
          apply visited_all hw
          intro v hv
          have hp1 : 0 < 64 ^ v := Nat.pow_pos (by omega)
          have hp2 : 0 < 64 ^ (w - v) := Nat.pow_pos (by omega)
          have hsplit : 64 ^ w = 64 ^ v * 64 ^ (w - v) := by rw [← Nat.pow_add]; congr 1; omega
          have hd : ∀ x, x / 64 ^ w = x / 64 ^ v / 64 ^ (w - v) := fun x => by
            rw [hsplit, Nat.div_div_eq_div_mul]
          have hx0 : now / 64 ^ w * 64 ^ (w - v) % 64 = 0 := by
            have : 64 ^ (w - v) = 64 * 64 ^ (w - v - 1) := by
              rw [← Nat.pow_succ']; congr 1; omega
            rw [this, Nat.mul_left_comm]; exact Nat.mul_mod_right _ _
          rw [← hx0]
          apply passed_hit hn
          · rw [hd cur] at hgt
            exact (Nat.div_lt_iff_lt_mul hp2).1 hgt
          · rw [hd now]; exact Nat.div_mul_le_self _ _
        by_contra hge
        apply hnot
        refine ⟨hv, ?_⟩
        rw [h1]
        exact passed_hit hn h2 (by omega)
    refine ⟨h1, hlt, fun hw3 => ?_⟩
    have hne : now < e := by
      by_contra hh
      have : e / 64 ^ w ≤ now / 64 ^ w := Nat.div_le_div_right (by omega)
      omega
    have u1 : cur / 64 ^ (w + 1) ≤ now / 64 ^ (w + 1) := Nat.div_le_div_right hle
    have u2 : now / 64 ^ (w + 1) ≤ e / 64 ^ (w + 1) := Nat.div_le_div_right (by omega)
    have := h3 hw3
    omega

theorem placed_future {c e w s : Nat} (h : Placed c e w s) : c < e := by
  by_contra hh
  have : e / 64 ^ w ≤ c / 64 ^ w := Nat.div_le_div_right (by omega)
  have := h.2.1
  omega

/-- What rescheduling does. -/
structure Moved (t t' : T) (X : List Nat) : Prop where
  stay : ∀ i, i ∉ X → t'.tm i = t.tm i
  move : ∀ i, i ∈ X → t'.tm i = { t.tm i with place := some (placeFor t.cur (t.tm i).expires) }
  cur : t'.cur = t.cur

theorem reSched_spec : ∀ (X : List Nat) (t : T), Shape t X → Timed t t.cur →
    Shape (reSched t X) [] ∧ Timed (reSched t X) t.cur ∧ Moved t (reSched t X) X := by
  intro X
  induction X with
  | nil => intro t h hT; exact ⟨h, hT, fun _ _ => rfl, by simp, rfl⟩
  | cons id X ih =>
    intro t h hT
    have hidX : id ∉ X := (List.nodup_cons.1 h.ndX).1
    have a : Shape (setNone t id) (id :: X) := shape_tm h (id := id) (by simp) _
    have b : Timed (setNone t id) t.cur := timed_tm h (id := id) (by simp) hT _
    have hself : (setNone t id).tm id = { t.tm id with place := none } := setTm_same _ _ _
    have hoth : ∀ i, i ≠ id → (setNone t id).tm i = t.tm i := fun i hi => setTm_ne _ _ hi
    have hcur : (setNone t id).cur = t.cur := rfl
    obtain ⟨p, q, r⟩ := schedNoPending_spec a b
    rw [hcur] at q r
    have e : reSched t (id :: X) = reSched (schedNoPending (setNone t id) id) X := rfl
    generalize schedNoPending (setNone t id) id = t1 at *
    have hc1 : t1.cur = t.cur := r.cur.trans hcur
    obtain ⟨p2, q2, r2⟩ := ih t1 p (by rw [hc1]; exact q)
    rw [e]
    rw [hc1] at q2
    refine ⟨p2, q2, ?_, ?_, r2.cur.trans hc1⟩
    · intro i hi
      simp only [List.mem_cons, not_or] at hi
      rw [r2.stay i hi.2, r.others i hi.1, hoth i hi.1]
    · intro i hi
      by_cases he : i = id
      · subst he
        rw [r2.stay _ hidX, r.self, hself]
      · have hiX : i ∈ X := by
          rcases List.mem_cons.1 hi with e | e
          · exact absurd e he
          · exact e
        rw [r2.move i hiX, r.others i he, hoth i he, hc1]

/-- `timeouts_update`: every waiting timer that is due is expired, everything else keeps waiting. -/
theorem update_spec {t : T} (h : Shape t []) (hT : Timed t t.cur) {now : Nat} (hc : t.cur < 2 ^ 63)
    (hn : now < 2 ^ 63) :
    Shape (update t now) [] ∧ Timed (update t now) now ∧ (update t now).cur = now ∧
    ∀ i, ∃ p, (update t now).tm i = { t.tm i with place := p } ∧
      (p = none ↔ (t.tm i).place = none) ∧
      (p = some .expired ↔ (t.tm i).place = some .expired ∨
        ((t.tm i).place ≠ none ∧ (t.tm i).expires ≤ now)) := by
  have hu : update t now = reSched { (takeWheels t now [0, 1, 2, 3]).1 with cur := now }
    (takeWheels t now [0, 1, 2, 3]).2 := by unfold update; rfl
  have hw := takeWheels_spec now [0, 1, 2, 3] t [] h
  obtain ⟨R, hR⟩ : ∃ R, R = takeWheels t now [0, 1, 2, 3] := ⟨_, rfl⟩
  rw [← hR] at hw hu
  clear hR
  rw [hu]
  clear hu
  obtain ⟨a, b, c, d⟩ := hw
  rw [List.nil_append] at a
  have a' : Shape { R.1 with cur := now } R.2 :=
    ⟨a.memSlot, a.memExp, a.ndSlot, a.ndExp, a.ndX, a.maskOk, a.range⟩
  have hT' : Timed { R.1 with cur := now } now := by
    intro w s i hm
    have hm : i ∈ R.1.slots w s := hm
    have hne : R.1.slots w s ≠ [] := List.ne_nil_of_mem hm
    have hrg := a.range w s hne
    have hin : i ∈ t.slots w s := by
      rcases b.slots w s with e | e
      · rw [e] at hm; exact hm
      · exact absurd e hne
    show Placed now (R.1.tm i).expires w s
    rw [b.tm]
    refine placed_advance hc hn hrg.1 (hT _ _ _ hin) ?_
    rintro ⟨hv, hm'⟩
    exact hne (c w hv s hrg.2 hm')
  obtain ⟨p, q, r⟩ := reSched_spec _ _ a' hT'
  refine ⟨p, q, r.cur, ?_⟩
  intro i
  by_cases hi : i ∈ R.2
  · have hm := r.move i hi
    obtain ⟨w, s, hp⟩ := d i hi
    refine ⟨some (placeFor now (t.tm i).expires), ?_, by simp [hp], ?_⟩
    · show (reSched _ _).tm i = _
      rw [hm]
      show ({ R.1.tm i with place := _ } : Tm) = _
      rw [b.tm]
    · unfold placeFor
      rw [hp]
      split
      · simp; omega
      · simp; omega
  · have hm := r.stay i hi
    refine ⟨(t.tm i).place, ?_, Iff.rfl, ?_⟩
    · show (reSched _ _).tm i = _
      rw [hm]
      show R.1.tm i = _
      rw [b.tm]
    · constructor
      · intro e; exact Or.inl e
      · rintro (e | ⟨e1, e2⟩)
        · exact e
        · rcases hp : (t.tm i).place with _ | pl
          · exact absurd hp e1
          · cases pl with
            | expired => rfl
            | slot w s =>
              exfalso
              have hin : i ∈ R.1.slots w s :=
                (a.memSlot w s i).2 ⟨hi, by rw [b.tm]; exact hp⟩
              have := placed_future (hT' w s i hin)
              have he : (({ R.1 with cur := now } : T).tm i).expires = (t.tm i).expires := by
                show (R.1.tm i).expires = _
                rw [b.tm]
              omega

/-! ### Taking an expired timer -/

theorem shape_pop {t : T} (h : Shape t []) {id : Nat} {rest : List Nat} (he : t.expired = id :: rest) {c : Nat}
    (hT : Timed t c) :
    Shape (setNone { t with expired := rest } id) [] ∧
    Timed (setNone { t with expired := rest } id) c := by
  have hp : (t.tm id).place = some .expired := ((h.memExp id).1 (by rw [he]; simp)).2
  have hnd := h.ndExp
  rw [he, List.nodup_cons] at hnd
  have hns : ∀ w s, id ∉ t.slots w s := fun w s hm => by
    have := ((h.memSlot _ _ _).1 hm).2; rw [hp] at this; simp at this
  refine ⟨⟨?_, ?_, h.ndSlot, hnd.2, List.nodup_nil, h.maskOk, h.range⟩, ?_⟩
  · intro w s i
    show i ∈ t.slots w s ↔ _
    by_cases hi : i = id
    · subst hi; simp [setNone, setTm, hns]
    · simp only [setNone, setTm_ne _ _ hi]; exact h.memSlot _ _ _
  · intro i
    show i ∈ rest ↔ _
    by_cases hi : i = id
    · subst hi; simp [setNone, setTm, hnd.1]
    · simp only [setNone, setTm_ne _ _ hi]
      rw [← h.memExp, he]; simp [hi]
  · intro w s i hm
    have hi : i ≠ id := fun e => hns w s (e ▸ hm)
    simp only [setNone, setTm_ne _ _ hi]; exact hT _ _ _ hm

theorem readd_spec {t : T} (h : Shape t []) (hT : Timed t t.cur) {id : Nat} (hp : (t.tm id).place = none)
    (hf : t.cur < nextExpiry t.cur (t.tm id).expires (t.tm id).interval) :
    Shape (readd t id) [] ∧ Timed (readd t id) t.cur ∧
    Only t (readd t id) id { t.tm id with
      expires := nextExpiry t.cur (t.tm id).expires (t.tm id).interval
      place := some (placeFor t.cur (nextExpiry t.cur (t.tm id).expires (t.tm id).interval)) } := by
  have hold := shape_hold h (X := []) (id := id) (by simp) hp
  have a : Shape (setExpires t id (nextExpiry t.cur (t.tm id).expires (t.tm id).interval)) [id] :=
    shape_tm hold (id := id) (by simp) _
  have b : Timed (setExpires t id (nextExpiry t.cur (t.tm id).expires (t.tm id).interval)) t.cur :=
    timed_tm hold (id := id) (by simp) hT _
  unfold readd
  generalize nextExpiry t.cur (t.tm id).expires (t.tm id).interval = e at *
  have hself : (setExpires t id e).tm id = { t.tm id with expires := e } := setTm_same _ _ _
  have hcur : (setExpires t id e).cur = t.cur := rfl
  obtain ⟨p, q⟩ := shape_future a (by rw [hself, hcur]; exact hf) b rfl
  refine ⟨p, q, ?_, ?_, rfl⟩
  · unfold placeFor; rw [if_pos hf]
    simp only [schedFuture, setTm_same, hself, hcur]
  · intro i hi; simp only [schedFuture, setTm_ne _ _ hi, setExpires]

end Ltio.Wheel
