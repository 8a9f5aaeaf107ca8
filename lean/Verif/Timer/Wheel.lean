import Verif.Timer.Bits

/-
Model of the hierarchical timing wheel thirdparty/timeout/timeout.c, the timers of every message
loop (base/message_loop/event_pump.cc), for C26.

Timers (`struct timeout`) are numbered; `tm` is their memory.  The intrusive lists are lists of
numbers, first element first; `pending` pointers are places.
-/
namespace Ltio.Wheel

attribute [local irreducible] passed elapsed timeoutWheel timeoutSlot

/-- What `to->pending` points to. -/
inductive Place where
  | expired
  | slot (w s : Nat)
  deriving DecidableEq

/-- `struct timeout` (timeout.h:71-99); the flags are `TIMEOUT_INT` and `TIMEOUT_ABS`. -/
structure Tm where
  isInt : Bool
  isAbs : Bool
  expires : Nat
  interval : Nat
  place : Option Place

/-- `struct timeouts` (timeout.c:163-170) and the timers. -/
structure T where
  slots : Nat → Nat → List Nat
  expired : List Nat
  mask : Nat → BitVec 64
  cur : Nat
  tm : Nat → Tm

/-- `timeouts_init` (timeout.c:174-189). -/
def init (tm : Nat → Tm) : T :=
  { slots := fun _ _ => [], expired := [], mask := fun _ => 0#64, cur := 0, tm }

def setSlot (f : Nat → Nat → List Nat) (w s : Nat) (l : List Nat) : Nat → Nat → List Nat :=
  fun w' s' => if w' = w ∧ s' = s then l else f w' s'

def setMask (f : Nat → BitVec 64) (w : Nat) (v : BitVec 64) : Nat → BitVec 64 :=
  fun w' => if w' = w then v else f w'

def setTm (f : Nat → Tm) (id : Nat) (v : Tm) : Nat → Tm := fun i => if i = id then v else f i

/-- Writing a field of a timer. -/
def setExpires (t : T) (id e : Nat) : T := { t with tm := setTm t.tm id { t.tm id with expires := e } }

def setInterval (t : T) (id v : Nat) : T := { t with tm := setTm t.tm id { t.tm id with interval := v } }

def setNone (t : T) (id : Nat) : T := { t with tm := setTm t.tm id { t.tm id with place := none } }

/-- `timeouts_del` (timeout.c:238-254). -/
def del (t : T) (id : Nat) : T :=
  match (t.tm id).place with
  | none => t
  | some .expired =>
    { t with expired := t.expired.erase id, tm := setTm t.tm id { t.tm id with place := none } }
  | some (.slot w s) =>
    { t with
      slots := setSlot t.slots w s ((t.slots w s).erase id)
      mask := if (t.slots w s).erase id = [] then setMask t.mask w (t.mask w &&& ~~~(1#64 <<< s)) else t.mask
      tm := setTm t.tm id { t.tm id with place := none } }

/-- `timeouts_sched_future_nopending` (timeout.c:301-311). -/
def schedFuture (t : T) (id : Nat) : T :=
  { t with
    slots := setSlot t.slots (timeoutWheel t.cur (t.tm id).expires)
      (timeoutSlot (timeoutWheel t.cur (t.tm id).expires) (t.tm id).expires)
      (id :: t.slots (timeoutWheel t.cur (t.tm id).expires)
        (timeoutSlot (timeoutWheel t.cur (t.tm id).expires) (t.tm id).expires))
    mask := setMask t.mask (timeoutWheel t.cur (t.tm id).expires)
      (t.mask (timeoutWheel t.cur (t.tm id).expires) |||
        (1#64 <<< (timeoutSlot (timeoutWheel t.cur (t.tm id).expires) (t.tm id).expires)))
    tm := setTm t.tm id { t.tm id with
      place := some (.slot (timeoutWheel t.cur (t.tm id).expires)
        (timeoutSlot (timeoutWheel t.cur (t.tm id).expires) (t.tm id).expires)) } }

/-- `timeouts_sched_nopending` (timeout.c:287-295). -/
def schedNoPending (t : T) (id : Nat) : T :=
  if t.cur < (t.tm id).expires then schedFuture t id
  else { t with expired := id :: t.expired, tm := setTm t.tm id { t.tm id with place := some .expired } }

/-- `uint64_t` addition. -/
def add64 (a b : Nat) : Nat := (a + b) % 2 ^ 64

/-- `timeouts_sched` (timeout.c:271-282). -/
def sched (t : T) (id expires : Nat) : T :=
  schedNoPending (setExpires (del t id) id expires) id

/-- `timeouts_add` (timeout.c:332-343). -/
def add (t : T) (id timeout : Nat) : T :=
  if (t.tm id).isAbs then
    sched (if (t.tm id).isInt then setInterval t id (max 1 timeout) else t) id timeout
  else
    sched (if (t.tm id).isInt then setInterval t id (max 1 timeout) else t) id (add64 t.cur timeout)

/-- The slots of one wheel that an update empties, in ascending order: the `while` loop
timeout.c:387-393 with `ctz` picking the lowest set bit.  The emptied lists are returned one after the
other (`todo` and `n_todo` keep them separate, and they are processed in this order). -/
def takeSlots (t : T) (w : Nat) (m : BitVec 64) : List Nat → T × List Nat
  | [] => (t, [])
  | s :: ss =>
    if (m &&& t.mask w).getLsbD s then
      ((takeSlots { t with
          slots := setSlot t.slots w s []
          mask := setMask t.mask w (t.mask w &&& ~~~(1#64 <<< s)) } w m ss).1,
        t.slots w s ++ (takeSlots { t with
          slots := setSlot t.slots w s []
          mask := setMask t.mask w (t.mask w &&& ~~~(1#64 <<< s)) } w m ss).2)
    else takeSlots t w m ss

/-- The slots of a wheel, in ascending order. -/
@[irreducible] def allSlots : List Nat := List.range 64

theorem mem_allSlots {s : Nat} : s ∈ allSlots ↔ s < 64 := by unfold allSlots; exact List.mem_range

/-- The loop over the wheels (timeout.c:354-397), left when the set of passed slots does not contain
slot 0. -/
def takeWheels (t : T) (now : Nat) : List Nat → T × List Nat
  | [] => (t, [])
  | w :: ws =>
    if (passed t.cur now w).getLsbD 0 then
      ((takeWheels (takeSlots t w (passed t.cur now w) allSlots).1 now ws).1,
        (takeSlots t w (passed t.cur now w) allSlots).2 ++
          (takeWheels (takeSlots t w (passed t.cur now w) allSlots).1 now ws).2)
    else takeSlots t w (passed t.cur now w) allSlots

/-- Second half of `timeouts_update` (timeout.c:401-411): schedule the collected timers again. -/
def reSched (t : T) : List Nat → T
  | [] => t
  | id :: ids => reSched (schedNoPending (setNone t id) id) ids

/-- `timeouts_update` (timeout.c:345-405). -/
def update (t : T) (now : Nat) : T :=
  reSched { (takeWheels t now [0, 1, 2, 3]).1 with cur := now } (takeWheels t now [0, 1, 2, 3]).2

/-- The next expiry of an interval timer (timeout.c:315-327). -/
def nextExpiry (cur expires interval : Nat) : Nat :=
  if add64 expires interval ≤ cur then
    add64 cur (interval - (cur - add64 expires interval) % interval)
  else add64 expires interval

/-- `timeouts_readd` (timeout.c:314-330). -/
def readd (t : T) (id : Nat) : T :=
  schedFuture (setExpires t id (nextExpiry t.cur (t.tm id).expires (t.tm id).interval)) id

/-- `timeouts_get` (timeout.c:485-504). -/
def get (t : T) : Option Nat × T :=
  match t.expired with
  | [] => (none, t)
  | id :: rest =>
    if (t.tm id).isInt = true ∧ 0 < (t.tm id).interval then
      (some id, readd (setNone { t with expired := rest } id) id)
    else (some id, setNone { t with expired := rest } id)

/-! ### Invariant -/

/-- Lists, places and slot sets agree; the timers of `X` are in none of the lists (they are being
moved). -/
structure Shape (t : T) (X : List Nat) : Prop where
  memSlot : ∀ w s id, id ∈ t.slots w s ↔ id ∉ X ∧ (t.tm id).place = some (.slot w s)
  memExp : ∀ id, id ∈ t.expired ↔ id ∉ X ∧ (t.tm id).place = some .expired
  ndSlot : ∀ w s, (t.slots w s).Nodup
  ndExp : t.expired.Nodup
  ndX : X.Nodup
  maskOk : ∀ w s, s < 64 → ((t.mask w).getLsbD s = true ↔ t.slots w s ≠ [])
  range : ∀ w s, t.slots w s ≠ [] → w < 4 ∧ s < 64

/-- Where a waiting timer sits, relative to the time `c`. -/
def Placed (c e w s : Nat) : Prop :=
  s = e / 64 ^ w % 64 ∧ c / 64 ^ w < e / 64 ^ w ∧ (w < 3 → c / 64 ^ (w + 1) = e / 64 ^ (w + 1))

/-- All waiting timers are placed right for the time `c`. -/
def Timed (t : T) (c : Nat) : Prop :=
  ∀ w s id, id ∈ t.slots w s → Placed c (t.tm id).expires w s

theorem setSlot_same (f : Nat → Nat → List Nat) (w s : Nat) (l : List Nat) : setSlot f w s l w s = l := by
  simp [setSlot]

theorem setSlot_ne (f : Nat → Nat → List Nat) {w s w' s' : Nat} (l : List Nat) (h : ¬ (w' = w ∧ s' = s)) :
    setSlot f w s l w' s' = f w' s' := by simp [setSlot, h]

theorem setTm_same (f : Nat → Tm) (id : Nat) (v : Tm) : setTm f id v id = v := by simp [setTm]

theorem setTm_ne (f : Nat → Tm) {id i : Nat} (v : Tm) (h : i ≠ id) : setTm f id v i = f i := by simp [setTm, h]

theorem getLsbD_clear (v : BitVec 64) (s i : Nat) (hi : i < 64) :
    (v &&& ~~~(1#64 <<< s)).getLsbD i = (v.getLsbD i && decide (i ≠ s)) := by
  rw [BitVec.getLsbD_and, BitVec.getLsbD_not, BitVec.getLsbD_shiftLeft, BitVec.getLsbD_one]
  by_cases h : i = s
  · subst h; simp [hi]
  · by_cases h2 : i < s
    · simp [hi, h, h2]
    · have : i - s ≠ 0 := by omega
      simp [hi, h, this]

theorem getLsbD_set (v : BitVec 64) (s i : Nat) (hi : i < 64) :
    (v ||| (1#64 <<< s)).getLsbD i = (v.getLsbD i || decide (i = s)) := by
  rw [BitVec.getLsbD_or, BitVec.getLsbD_shiftLeft, BitVec.getLsbD_one]
  by_cases h : i = s
  · subst h; simp [hi]
  · by_cases h2 : i < s
    · simp [hi, h, h2]
    · have : i - s ≠ 0 := by omega
      simp [hi, h, this]

theorem shape_init (tm : Nat → Tm) (h : ∀ id, (tm id).place = none) : Shape (init tm) [] where
  memSlot := by intro w s id; simp [init, h]
  memExp := by intro id; simp [init, h]
  ndSlot := by intro w s; simp [init]
  ndExp := by simp [init]
  ndX := List.nodup_nil
  maskOk := by intro w s _; simp [init]
  range := by intro w s h; simp [init] at h

/-- Emptying a slot. -/
theorem shape_take {t : T} {X : List Nat} (h : Shape t X) (w s : Nat) (hs : s < 64) :
    Shape { t with
      slots := setSlot t.slots w s []
      mask := setMask t.mask w (t.mask w &&& ~~~(1#64 <<< s)) } (X ++ t.slots w s) where
  memSlot := by
    intro w' s' id
    by_cases hc : w' = w ∧ s' = s
    · obtain ⟨rfl, rfl⟩ := hc
      simp only [setSlot_same, List.mem_append, not_or]
      constructor
      · intro hm; simp at hm
      · rintro ⟨⟨h1, h2⟩, h3⟩; exact absurd ((h.memSlot _ _ id).2 ⟨h1, h3⟩) h2
    · simp only [setSlot_ne _ _ hc, List.mem_append, not_or]
      rw [h.memSlot]
      constructor
      · rintro ⟨h1, h2⟩
        refine ⟨⟨h1, fun hm => ?_⟩, h2⟩
        have := ((h.memSlot _ _ id).1 hm).2
        rw [h2] at this
        simp only [Option.some.injEq, Place.slot.injEq] at this
        exact hc this
      · rintro ⟨⟨h1, _⟩, h2⟩; exact ⟨h1, h2⟩
  memExp := by
    intro id
    show id ∈ t.expired ↔ _
    rw [h.memExp, List.mem_append, not_or]
    constructor
    · rintro ⟨h1, h2⟩
      refine ⟨⟨h1, fun hm => ?_⟩, h2⟩
      have := ((h.memSlot _ _ id).1 hm).2
      rw [h2] at this; simp at this
    · rintro ⟨⟨h1, _⟩, h2⟩; exact ⟨h1, h2⟩
  ndSlot := by
    intro w' s'
    by_cases hc : w' = w ∧ s' = s
    · obtain ⟨rfl, rfl⟩ := hc; simp [setSlot_same]
    · simp only [setSlot_ne _ _ hc]; exact h.ndSlot _ _
  ndExp := h.ndExp
  ndX := by
    rw [List.nodup_append]
    refine ⟨h.ndX, h.ndSlot _ _, ?_⟩
    intro a ha b hb e
    subst e
    exact ((h.memSlot _ _ _).1 hb).1 ha
  maskOk := by
    intro w' s' hs'
    by_cases hw : w' = w
    · subst hw
      simp only [setMask, if_true]
      rw [getLsbD_clear _ _ _ hs']
      by_cases hc : s' = s
      · subst hc; simp [setSlot]
      · rw [setSlot_ne _ _ (by simp [hc])]
        rw [Bool.and_eq_true, decide_eq_true_eq, h.maskOk _ _ hs']
        simp [hc]
    · simp only [setMask, hw, if_false]
      rw [setSlot_ne _ _ (by simp [hw])]
      exact h.maskOk _ _ hs'
  range := by
    intro w' s' hne
    by_cases hc : w' = w ∧ s' = s
    · obtain ⟨rfl, rfl⟩ := hc; simp [setSlot_same] at hne
    · simp only [setSlot_ne _ _ hc] at hne; exact h.range _ _ hne

/-- What taking slots leaves alone. -/
structure Shrunk (t t' : T) : Prop where
  slots : ∀ w s, t'.slots w s = t.slots w s ∨ t'.slots w s = []
  expired : t'.expired = t.expired
  cur : t'.cur = t.cur
  tm : t'.tm = t.tm

theorem Shrunk.refl (t : T) : Shrunk t t := ⟨fun _ _ => Or.inl rfl, rfl, rfl, rfl⟩

theorem Shrunk.trans {a b c : T} (h1 : Shrunk a b) (h2 : Shrunk b c) : Shrunk a c where
  slots := by
    intro w s
    rcases h2.slots w s with e | e
    · rw [e]; exact h1.slots w s
    · exact Or.inr e
  expired := h2.expired.trans h1.expired
  cur := h2.cur.trans h1.cur
  tm := h2.tm.trans h1.tm

theorem Shrunk.empty {a b : T} (h : Shrunk a b) {w s : Nat} (he : a.slots w s = []) : b.slots w s = [] := by
  rcases h.slots w s with e | e
  · rw [e]; exact he
  · exact e

theorem takeSlots_spec (w : Nat) (m : BitVec 64) :
    ∀ (ss : List Nat) (t : T) (X : List Nat), Shape t X → (∀ s ∈ ss, s < 64) →
      Shape (takeSlots t w m ss).1 (X ++ (takeSlots t w m ss).2) ∧ Shrunk t (takeSlots t w m ss).1 ∧
      (∀ s ∈ ss, m.getLsbD s = true → (takeSlots t w m ss).1.slots w s = []) ∧
      (∀ id ∈ (takeSlots t w m ss).2, ∃ s, (t.tm id).place = some (.slot w s)) := by
  intro ss
  induction ss with
  | nil => intro t X h _; exact ⟨by simpa [takeSlots] using h, Shrunk.refl t, by simp, by simp [takeSlots]⟩
  | cons s ss ih =>
    intro t X h hss
    have hs : s < 64 := hss s (by simp)
    have hss' : ∀ s ∈ ss, s < 64 := fun x hx => hss x (by simp [hx])
    by_cases hb : (m &&& t.mask w).getLsbD s = true
    · simp only [takeSlots, hb, if_true]
      have h0 := shape_take h w s hs
      have hsh : Shrunk t { t with
          slots := setSlot t.slots w s []
          mask := setMask t.mask w (t.mask w &&& ~~~(1#64 <<< s)) } := by
        refine ⟨fun w' s' => ?_, rfl, rfl, rfl⟩
        by_cases hc : w' = w ∧ s' = s
        · exact Or.inr (by simp [setSlot, hc])
        · exact Or.inl (setSlot_ne _ _ hc)
      obtain ⟨a, b, c, d⟩ := ih _ _ h0 hss'
      refine ⟨by rw [← List.append_assoc]; exact a, hsh.trans b, ?_, ?_⟩
      · intro s' hs' hm
        rcases List.mem_cons.1 hs' with rfl | hs'
        · exact b.empty (setSlot_same _ _ _ _)
        · exact c s' hs' hm
      · intro id hid
        rcases List.mem_append.1 hid with hid | hid
        · exact ⟨s, ((h.memSlot _ _ _).1 hid).2⟩
        · exact d id hid
    · simp only [takeSlots, hb]
      obtain ⟨a, b, c, d⟩ := ih t X h hss'
      refine ⟨a, b, ?_, d⟩
      intro s' hs' hm
      rcases List.mem_cons.1 hs' with rfl | hs'
      · apply b.empty
        rw [BitVec.getLsbD_and, hm, Bool.true_and] at hb
        by_contra hne
        exact hb ((h.maskOk _ _ hs).2 hne)
      · exact c s' hs' hm

/-- Wheel `w` is visited if every lower wheel passed slot 0. -/
def Visited (cur now : Nat) (ws : List Nat) (w : Nat) : Prop :=
  w ∈ ws ∧ ∀ v ∈ ws.takeWhile (· ≠ w), (passed cur now v).getLsbD 0 = true

theorem takeWheels_spec (now : Nat) :
    ∀ (ws : List Nat) (t : T) (X : List Nat), Shape t X →
      Shape (takeWheels t now ws).1 (X ++ (takeWheels t now ws).2) ∧ Shrunk t (takeWheels t now ws).1 ∧
      (∀ w, Visited t.cur now ws w → ∀ s, s < 64 → (passed t.cur now w).getLsbD s = true →
        (takeWheels t now ws).1.slots w s = []) ∧
      (∀ id ∈ (takeWheels t now ws).2, ∃ w s, (t.tm id).place = some (.slot w s)) := by
  intro ws
  induction ws with
  | nil =>
    intro t X h
    exact ⟨by simpa [takeWheels] using h, Shrunk.refl t, fun w hv => absurd hv.1 (by simp), by simp [takeWheels]⟩
  | cons w ws ih =>
    intro t X h
    obtain ⟨a, b, c, d⟩ := takeSlots_spec w (passed t.cur now w) allSlots t X h
      (fun s hs => mem_allSlots.1 hs)
    by_cases hb : (passed t.cur now w).getLsbD 0 = true
    · rw [takeWheels, if_pos hb]
      obtain ⟨a', b', c', d'⟩ := ih _ _ a
      refine ⟨by rw [← List.append_assoc]; exact a', b.trans b', ?_, ?_⟩
      · intro w' hv s hs hm
        by_cases he : w' = w
        · subst he; exact b'.empty (c s (mem_allSlots.2 hs) hm)
        · rw [b.cur] at c'
          refine c' w' ⟨?_, ?_⟩ s hs hm
          · rcases List.mem_cons.1 hv.1 with e | e
            · exact absurd e he
            · exact e
          · intro v hvm
            apply hv.2
            rw [List.takeWhile_cons, if_pos (by simpa using fun e => he e.symm)]
            exact List.mem_cons_of_mem _ hvm
      · intro id hid
        rcases List.mem_append.1 hid with hid | hid
        · obtain ⟨s, e⟩ := d id hid; exact ⟨w, s, e⟩
        · obtain ⟨w', s, e⟩ := d' id hid; rw [b.tm] at e; exact ⟨w', s, e⟩
    · have e : takeWheels t now (w :: ws) = takeSlots t w (passed t.cur now w) allSlots := by
        rw [takeWheels, if_neg hb]
      rw [e]
      refine ⟨a, b, ?_, fun id hid => ?_⟩
      · intro w' hv s hs hm
        by_cases he : w' = w
        · subst he; exact c s (mem_allSlots.2 hs) hm
        · exfalso
          apply hb
          apply hv.2
          rw [List.takeWhile_cons, if_pos (by simpa using fun e => he e.symm)]
          simp
      · obtain ⟨s, e⟩ := d id hid; exact ⟨w, s, e⟩

/-- Putting one timer in place. -/
theorem shape_future {t : T} {id : Nat} {X : List Nat} (h : Shape t (id :: X)) (hc : t.cur < (t.tm id).expires)
    {c : Nat} (hT : Timed t c) (hcc : c = t.cur) :
    Shape (schedFuture t id) X ∧ Timed (schedFuture t id) c := by
  subst hcc
  obtain ⟨hw, h1, h2⟩ := timeoutWheel_spec hc
  have hsl := timeoutSlot_lt (timeoutWheel t.cur (t.tm id).expires) (t.tm id).expires
  have hse := timeoutSlot_eq (timeoutWheel t.cur (t.tm id).expires) (t.tm id).expires
  unfold schedFuture
  generalize timeoutWheel t.cur (t.tm id).expires = w at *
  generalize timeoutSlot w (t.tm id).expires = s at *
  have hidX : id ∉ X := (List.nodup_cons.1 h.ndX).1
  have hns : ∀ w s, id ∉ t.slots w s := fun w s hm => ((h.memSlot _ _ _).1 hm).1 (by simp)
  have hne : id ∉ t.expired := fun hm => ((h.memExp _).1 hm).1 (by simp)
  refine ⟨⟨?_, ?_, ?_, h.ndExp, (List.nodup_cons.1 h.ndX).2, ?_, ?_⟩, ?_⟩
  · intro w' s' i
    by_cases hi : i = id
    · subst hi
      simp only [setTm_same]
      by_cases hc' : w' = w ∧ s' = s
      · obtain ⟨rfl, rfl⟩ := hc'; simp [setSlot_same, hidX]
      · simp only [setSlot_ne _ _ hc']
        constructor
        · intro hm; exact absurd hm (hns _ _)
        · rintro ⟨_, e⟩
          simp only [Option.some.injEq, Place.slot.injEq] at e
          exact absurd ⟨e.1.symm, e.2.symm⟩ hc'
    · simp only [setTm_ne _ _ hi]
      have hX : i ∉ (id :: X) ↔ i ∉ X := by simp [hi]
      by_cases hc' : w' = w ∧ s' = s
      · obtain ⟨rfl, rfl⟩ := hc'
        simp only [setSlot_same, List.mem_cons, hi, false_or]
        rw [h.memSlot, hX]
      · simp only [setSlot_ne _ _ hc']
        rw [h.memSlot, hX]
  · intro i
    show i ∈ t.expired ↔ _
    by_cases hi : i = id
    · subst hi
      simp only [setTm_same]
      constructor
      · intro hm; exact absurd hm hne
      · rintro ⟨_, e⟩; simp at e
    · simp only [setTm_ne _ _ hi]
      rw [h.memExp]; simp [hi]
  · intro w' s'
    by_cases hc' : w' = w ∧ s' = s
    · obtain ⟨rfl, rfl⟩ := hc'
      simp only [setSlot_same]
      exact List.nodup_cons.2 ⟨hns _ _, h.ndSlot _ _⟩
    · simp only [setSlot_ne _ _ hc']; exact h.ndSlot _ _
  · intro w' s' hs'
    by_cases hw' : w' = w
    · subst hw'
      simp only [setMask, if_true]
      rw [getLsbD_set _ _ _ hs', Bool.or_eq_true, decide_eq_true_eq]
      by_cases hc' : s' = s
      · subst hc'; simp [setSlot]
      · rw [setSlot_ne _ _ (by simp [hc']), h.maskOk _ _ hs']; simp [hc']
    · simp only [setMask, hw', if_false]
      rw [setSlot_ne _ _ (by simp [hw'])]
      exact h.maskOk _ _ hs'
  · intro w' s' hne'
    by_cases hc' : w' = w ∧ s' = s
    · obtain ⟨rfl, rfl⟩ := hc'; exact ⟨hw, hsl⟩
    · simp only [setSlot_ne _ _ hc'] at hne'; exact h.range _ _ hne'
  · intro w' s' i hm
    by_cases hi : i = id
    · subst hi
      simp only [setTm_same]
      by_cases hc' : w' = w ∧ s' = s
      · obtain ⟨rfl, rfl⟩ := hc'
        exact ⟨hse, h1, h2⟩
      · simp only [setSlot_ne _ _ hc'] at hm; exact absurd hm (hns _ _)
    · simp only [setTm_ne _ _ hi]
      by_cases hc' : w' = w ∧ s' = s
      · obtain ⟨rfl, rfl⟩ := hc'
        simp only [setSlot_same, List.mem_cons, hi, false_or] at hm
        exact hT _ _ _ hm
      · simp only [setSlot_ne _ _ hc'] at hm; exact hT _ _ _ hm

theorem shape_expired {t : T} {id : Nat} {X : List Nat} (h : Shape t (id :: X)) {c : Nat} (hT : Timed t c) :
    Shape { t with expired := id :: t.expired, tm := setTm t.tm id { t.tm id with place := some .expired } } X ∧
    Timed { t with expired := id :: t.expired, tm := setTm t.tm id { t.tm id with place := some .expired } } c := by
  have hidX : id ∉ X := (List.nodup_cons.1 h.ndX).1
  have hns : ∀ w s, id ∉ t.slots w s := fun w s hm => ((h.memSlot _ _ _).1 hm).1 (by simp)
  have hne : id ∉ t.expired := fun hm => ((h.memExp _).1 hm).1 (by simp)
  refine ⟨⟨?_, ?_, h.ndSlot, ?_, (List.nodup_cons.1 h.ndX).2, h.maskOk, h.range⟩, ?_⟩
  · intro w s i
    show i ∈ t.slots w s ↔ _
    by_cases hi : i = id
    · subst hi
      simp only [setTm_same]
      constructor
      · intro hm; exact absurd hm (hns _ _)
      · rintro ⟨_, e⟩; simp at e
    · simp only [setTm_ne _ _ hi]; rw [h.memSlot]; simp [hi]
  · intro i
    by_cases hi : i = id
    · subst hi; simp [setTm_same, hidX]
    · simp only [setTm_ne _ _ hi, List.mem_cons, hi, false_or]; rw [h.memExp]; simp [hi]
  · exact List.nodup_cons.2 ⟨hne, h.ndExp⟩
  · intro w s i hm
    have hi : i ≠ id := fun e => hns w s (e ▸ hm)
    simp only [setTm_ne _ _ hi]
    exact hT _ _ _ hm

end Ltio.Wheel
