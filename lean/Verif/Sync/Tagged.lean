import Verif.Sync.Stack

/-
Model of base/lockfree/freelist_dcas.hpp (C81): the free list whose head is a pointer with a tag,
changed by a double-width compare-and-swap, used by any number of threads.

Every access of a shared location is one step; memory orders are not modelled (steps interleave).
`compare_exchange_weak` may fail although the values agree (`spurious`).  The tag is a `uintptr_t`
and wraps at 2^64.  Users only `add` a node that they own: every node is owned by the users at
first, is given up when `add` is called, and is owned again when `try_get` returns it.
-/
namespace Ltio.Sync.Tagged

/-- `uintptr_t` arithmetic. -/
def wrap (x : Nat) : Nat := x % 18446744073709551616

/-- Where a thread is. -/
inductive PC where
  | idle
  /-- `add`, before the load of line 25 -/
  | addLoad (n : Nat)
  /-- `add`, before the store of line 29, with `currentHead` -/
  | addStore (n : Nat) (h : Option Nat) (g : Nat)
  /-- `add`, before the compare-and-swap of line 30 -/
  | addCas (n : Nat) (h : Option Nat) (g : Nat)
  /-- `add` is about to return -/
  | addRet
  /-- `try_get`, before the load of line 36 -/
  | getLoad
  /-- `try_get`, before the load of line 39, with `currentHead` not null -/
  | getNext (p : Nat) (g : Nat)
  /-- `try_get`, before the compare-and-swap of line 41 -/
  | getCas (p : Nat) (g : Nat) (nx : Option Nat)
  /-- `try_get` is about to return -/
  | getRet (r : Option Nat)
deriving DecidableEq

/-- The free list and its threads. -/
structure St where
  head : Option Nat
  tag : Nat
  next : Nat → Option Nat
  pc : Nat → PC
  /-- nodes the users own (ghost) -/
  out : Nat → Bool
  /-- calls and returns so far (ghost) -/
  vis : List Vis
  /-- number of changes of the head so far (ghost) -/
  chg : Nat

/-- A new free list (freelist_dcas.hpp:11, 19-22). -/
def init : St := ⟨none, 0, fun _ => none, fun _ => .idle, fun _ => true, [], 0⟩

/-- What can happen. -/
inductive Lab where
  | call (t : Nat) (op : Op)
  /-- the next access of thread `t`; `spurious`: a weak compare-and-swap fails for no reason -/
  | go (t : Nat) (spurious : Bool)
  | ret (t : Nat)
deriving DecidableEq

/-- A step to `q` of thread `t`. -/
def St.to (s : St) (t : Nat) (q : PC) : St :=
  ⟨s.head, s.tag, s.next, put s.pc t q, s.out, s.vis, s.chg⟩

/-- A store in the `freeListNext` field of a node. -/
def St.link (s : St) (n : Nat) (v : Option Nat) : St :=
  ⟨s.head, s.tag, put s.next n v, s.pc, s.out, s.vis, s.chg⟩

/-- A change of the head. -/
def St.swing (s : St) (h : Option Nat) (g : Nat) : St :=
  ⟨h, g, s.next, s.pc, s.out, s.vis, s.chg + 1⟩

/-- A visible event, with the nodes owned afterwards. -/
def St.emit (s : St) (v : Vis) (o : Nat → Bool) : St :=
  ⟨s.head, s.tag, s.next, s.pc, o, s.vis ++ [v], s.chg⟩

/-- The loop test of line 38 on the `currentHead` just loaded. -/
def test (h : Option Nat) (g : Nat) : PC :=
  match h with
  | none => .getRet none
  | some p => .getNext p g

/-- The compare-and-swap of lines 30-32. -/
def addCas (s : St) (t n : Nat) (h : Option Nat) (g : Nat) (sp : Bool) : St :=
  if s.head = h ∧ s.tag = g ∧ sp = false then (s.swing (some n) (wrap (g + 1))).to t .addRet
  else s.to t (.addStore n s.head s.tag)

/-- The compare-and-swap of lines 41-43. -/
def getCas (s : St) (t p g : Nat) (nx : Option Nat) (sp : Bool) : St :=
  if s.head = some p ∧ s.tag = g ∧ sp = false then
    (s.swing nx (wrap (g + 1))).to t (.getRet (some p))
  else s.to t (test s.head s.tag)

/-- The next access of a thread inside an operation (freelist_dcas.hpp:24-48). -/
def go (s : St) (t : Nat) (sp : Bool) : PC → Option St
  | .addLoad n => some (s.to t (.addStore n s.head s.tag))
  | .addStore n h g => some ((s.link n h).to t (.addCas n h g))
  | .addCas n h g => some (addCas s t n h g sp)
  | .getLoad => some (s.to t (test s.head s.tag))
  | .getNext p g => some (s.to t (.getCas p g (s.next p)))
  | .getCas p g nx => some (getCas s t p g nx sp)
  | _ => none

/-- Calls: `add` only of an owned node, which is given up. -/
def call (s : St) (t : Nat) : Op → Option St
  | .add n => if s.out n = true then
      some ((s.emit (.call t (.add n)) (put s.out n false)).to t (.addLoad n)) else none
  | .get => some ((s.emit (.call t .get) s.out).to t .getLoad)

/-- Returns: a node returned by `try_get` is owned again. -/
def ret (s : St) (t : Nat) : PC → Option St
  | .addRet => some ((s.emit (.ret t .added) s.out).to t .idle)
  | .getRet none => some ((s.emit (.ret t (.got none)) s.out).to t .idle)
  | .getRet (some n) => some ((s.emit (.ret t (.got (some n))) (put s.out n true)).to t .idle)
  | _ => none

/-- One step. -/
def step (s : St) : Lab → Option St
  | .call t op => if s.pc t = .idle then call s t op else none
  | .go t sp => go s t sp (s.pc t)
  | .ret t => ret s t (s.pc t)

/-- The node a thread is moving: being added, or taken and not yet returned. -/
def has : PC → Option Nat
  | .addLoad n | .addStore n _ _ | .addCas n _ _ => some n
  | .getRet (some n) => some n
  | _ => none

/-- The corresponding thread of the atomic stack. -/
def absT : PC → TS
  | .idle => .idle
  | .addLoad n | .addStore n _ _ | .addCas n _ _ => .pend (.add n)
  | .addRet => .fin .added
  | .getLoad | .getNext _ _ | .getCas _ _ _ => .pend .get
  | .getRet r => .fin (.got r)

/-- What a thread knows of the head it loaded: if the tag has not changed, neither has the head
(nor the next field of its node). -/
def Knows (s : St) : PC → Prop
  | .addStore _ h g => g ≤ s.chg ∧ (g = s.chg → h = s.head)
  | .addCas n h g => g ≤ s.chg ∧ (g = s.chg → h = s.head) ∧ s.next n = h
  | .getNext p g => g ≤ s.chg ∧ (g = s.chg → s.head = some p)
  | .getCas p g nx => g ≤ s.chg ∧ (g = s.chg → s.head = some p ∧ s.next p = nx)
  | _ => True

/-- The invariant, with the list of free nodes. -/
structure Core (s : St) (L : List Nat) : Prop where
  tag : s.tag = s.chg
  chn : chain s.next s.head L
  nd : L.Nodup
  outL : ∀ n, s.out n = true → n ∉ L
  hasL : ∀ t n, has (s.pc t) = some n → n ∉ L ∧ s.out n = false
  hasU : ∀ t u n, has (s.pc t) = some n → has (s.pc u) = some n → t = u
  cov : ∀ n, s.out n = false → n ∈ L ∨ ∃ t, has (s.pc t) = some n
  kn : ∀ t, Knows s (s.pc t)

/-- The atomic stack that corresponds to a state. -/
def absOf (s : St) (L : List Nat) : Abs := ⟨L, fun t => absT (s.pc t)⟩

theorem core_init : Core init [] := by
  refine ⟨rfl, trivial, List.nodup_nil, by simp, ?_, ?_, ?_, ?_⟩ <;> simp [init, has, Knows]

theorem absOf_to {s : St} {t : Nat} {q : PC} {L : List Nat} :
    absOf (s.to t q) L = ⟨L, put (absOf s L).th t (absT q)⟩ := by
  simp only [absOf, St.to, Abs.mk.injEq, true_and]
  funext u
  by_cases h : u = t
  · subst h; simp
  · simp [put, h]

theorem knows_congr {s s' : St} (h1 : s'.head = s.head) (h2 : s'.chg = s.chg) (h3 : s'.next = s.next)
    (q : PC) : Knows s' q ↔ Knows s q := by
  cases q <;> simp [Knows, h1, h2, h3]

/-- A step that moves a thread and leaves its node alone. -/
theorem core_to {s : St} {L : List Nat} (hC : Core s L) {t : Nat} {q : PC}
    (hh : has q = has (s.pc t)) (hk : Knows s q) : Core (s.to t q) L := by
  have hhas : ∀ u, has ((s.to t q).pc u) = has (s.pc u) := by
    intro u
    by_cases hu : u = t
    · subst hu; simp [St.to, hh]
    · simp [St.to, put, hu]
  refine ⟨hC.tag, hC.chn, hC.nd, hC.outL, ?_, ?_, ?_, ?_⟩
  · intro u n h; rw [hhas] at h; exact hC.hasL u n h
  · intro u v n h h'; rw [hhas] at h h'; exact hC.hasU u v n h h'
  · intro n hn
    rcases hC.cov n hn with h | ⟨u, h⟩
    · exact Or.inl h
    · exact Or.inr ⟨u, by rw [hhas]; exact h⟩
  · intro u
    refine (knows_congr (s := s) rfl rfl rfl _).2 ?_
    by_cases hu : u = t
    · subst hu; simpa [St.to] using hk
    · simpa [St.to, put, hu] using hC.kn u

/-- A visible event that changes no ownership. -/
theorem core_emit {s : St} {L : List Nat} (hC : Core s L) (v : Vis) : Core (s.emit v s.out) L :=
  ⟨hC.tag, hC.chn, hC.nd, hC.outL, hC.hasL, hC.hasU, hC.cov,
    fun t => (knows_congr (s := s) rfl rfl rfl _).2 (hC.kn t)⟩

theorem core_callAdd {s : St} {L : List Nat} (hC : Core s L) {t n : Nat} {v : Vis}
    (hp : has (s.pc t) = none) (ho : s.out n = true) :
    Core ((s.emit v (put s.out n false)).to t (.addLoad n)) L := by
  have hno : ∀ u, has (s.pc u) ≠ some n := by
    intro u hu; have := (hC.hasL u n hu).2; simp [ho] at this
  refine ⟨hC.tag, hC.chn, hC.nd, ?_, ?_, ?_, ?_, ?_⟩
  · intro m hm
    by_cases h : m = n
    · subst h; exact hC.outL m ho
    · exact hC.outL m (by simpa [St.to, St.emit, put, h] using hm)
  · intro u m hm
    by_cases hu : u = t
    · subst hu
      simp [St.to, has] at hm; subst hm
      exact ⟨hC.outL n ho, by simp [St.to, St.emit]⟩
    · have hm' : has (s.pc u) = some m := by simpa [St.to, St.emit, put, hu] using hm
      have hmn : m ≠ n := by rintro rfl; exact hno u hm'
      exact ⟨(hC.hasL u m hm').1, by simpa [St.to, St.emit, put, hmn] using (hC.hasL u m hm').2⟩
  · intro u w m hm hw
    by_cases hu : u = t <;> by_cases hwt : w = t
    · rw [hu, hwt]
    · subst hu
      simp [St.to, has] at hm; subst hm
      exact absurd (by simpa [St.to, St.emit, put, hwt] using hw) (hno w)
    · subst hwt
      simp [St.to, has] at hw; subst hw
      exact absurd (by simpa [St.to, St.emit, put, hu] using hm) (hno u)
    · exact hC.hasU u w m (by simpa [St.to, St.emit, put, hu] using hm)
        (by simpa [St.to, St.emit, put, hwt] using hw)
  · intro m hm
    by_cases h : m = n
    · subst h; exact Or.inr ⟨t, by simp [St.to, has]⟩
    · rcases hC.cov m (by simpa [St.to, St.emit, put, h] using hm) with h' | ⟨u, h'⟩
      · exact Or.inl h'
      · have hu : u ≠ t := by rintro rfl; simp [hp] at h'
        exact Or.inr ⟨u, by simpa [St.to, St.emit, put, hu] using h'⟩
  · intro u
    refine (knows_congr (s := s) rfl rfl rfl _).2 ?_
    by_cases hu : u = t
    · subst hu; simp [St.to, Knows]
    · simpa [St.to, St.emit, put, hu] using hC.kn u

theorem core_retGet {s : St} {L : List Nat} (hC : Core s L) {t n : Nat} {v : Vis}
    (hp : has (s.pc t) = some n) :
    Core ((s.emit v (put s.out n true)).to t .idle) L := by
  refine ⟨hC.tag, hC.chn, hC.nd, ?_, ?_, ?_, ?_, ?_⟩
  · intro m hm
    by_cases h : m = n
    · subst h; exact (hC.hasL t m hp).1
    · exact hC.outL m (by simpa [St.to, St.emit, put, h] using hm)
  · intro u m hm
    by_cases hu : u = t
    · subst hu; simp [St.to, has] at hm
    · have hm' : has (s.pc u) = some m := by simpa [St.to, St.emit, put, hu] using hm
      have hmn : m ≠ n := by rintro rfl; exact hu (hC.hasU u t m hm' hp)
      exact ⟨(hC.hasL u m hm').1, by simpa [St.to, St.emit, put, hmn] using (hC.hasL u m hm').2⟩
  · intro u w m hm hw
    by_cases hu : u = t
    · subst hu; simp [St.to, has] at hm
    · by_cases hwt : w = t
      · subst hwt; simp [St.to, has] at hw
      · exact hC.hasU u w m (by simpa [St.to, St.emit, put, hu] using hm)
          (by simpa [St.to, St.emit, put, hwt] using hw)
  · intro m hm
    by_cases h : m = n
    · subst h; simp [St.to, St.emit] at hm
    · rcases hC.cov m (by simpa [St.to, St.emit, put, h] using hm) with h' | ⟨u, h'⟩
      · exact Or.inl h'
      · have hu : u ≠ t := by rintro rfl; rw [hp] at h'; exact h (Option.some.inj h').symm
        exact Or.inr ⟨u, by simpa [St.to, St.emit, put, hu] using h'⟩
  · intro u
    refine (knows_congr (s := s) rfl rfl rfl _).2 ?_
    by_cases hu : u = t
    · subst hu; simp [St.to, Knows]
    · simpa [St.to, St.emit, put, hu] using hC.kn u

theorem head_mem {s : St} {L : List Nat} (hC : Core s L) {p : Nat} (h : s.head = some p) : p ∈ L := by
  have := hC.chn
  rw [h] at this
  obtain ⟨L', rfl, _⟩ := chain_some this
  simp

theorem core_link {s : St} {L : List Nat} (hC : Core s L) {t n g : Nat} {h : Option Nat}
    (hp : s.pc t = .addStore n h g) : Core ((s.link n h).to t (.addCas n h g)) L := by
  have hh : has (s.pc t) = some n := by simp [hp, has]
  have hn := hC.hasL t n hh
  have hhas : ∀ u, has (((s.link n h).to t (.addCas n h g)).pc u) = has (s.pc u) := by
    intro u
    by_cases hu : u = t
    · subst hu; simp [St.to, hh]; rfl
    · simp [St.to, St.link, put, hu]
  refine ⟨hC.tag, chain_put hn.1 hC.chn, hC.nd, hC.outL, ?_, ?_, ?_, ?_⟩
  · intro u n h; rw [hhas] at h; exact hC.hasL u n h
  · intro u v n h h'; rw [hhas] at h h'; exact hC.hasU u v n h h'
  · intro n hn
    rcases hC.cov n hn with h | ⟨u, h⟩
    · exact Or.inl h
    · exact Or.inr ⟨u, by rw [hhas]; exact h⟩
  · intro u
    by_cases hu : u = t
    · subst hu
      have := hC.kn u
      simp only [hp, Knows] at this
      simp only [St.to, put_same, Knows, St.link]
      exact ⟨this.1, this.2, trivial⟩
    · have hk := hC.kn u
      have hpu : ((s.link n h).to t (.addCas n h g)).pc u = s.pc u := by
        simp [St.to, St.link, put, hu]
      rw [hpu]
      cases hq : s.pc u with
      | addCas m h' g' =>
        simp only [hq, Knows] at hk
        have hmn : m ≠ n := by
          rintro rfl
          exact hu (hC.hasU u t m (by simp [hq, has]) hh)
        simp only [Knows, St.to, St.link, put_ne _ _ hmn]
        exact hk
      | getCas p g' nx =>
        simp only [hq, Knows] at hk
        refine ⟨hk.1, fun hg => ?_⟩
        have := hk.2 hg
        have hpn : p ≠ n := by rintro rfl; exact hn.1 (head_mem hC this.1)
        simp only [St.to, St.link, put_ne _ _ hpn]
        exact this
      | _ => simp only [hq, Knows] at hk ⊢; try exact hk

/-- After a change of the head nobody's tag is current. -/
theorem knows_swing {s : St} {h : Option Nat} {g : Nat} {q : PC} (hk : Knows s q) :
    Knows (s.swing h g) q := by
  cases q <;> simp only [Knows, St.swing] at hk ⊢
  · exact ⟨by omega, fun hg => by omega⟩
  · exact ⟨by omega, fun hg => by omega, hk.2.2⟩
  · exact ⟨by omega, fun hg => by omega⟩
  · exact ⟨by omega, fun hg => by omega⟩

theorem core_push {s : St} {L : List Nat} (hC : Core s L) {t n g : Nat} {h : Option Nat}
    (hp : s.pc t = .addCas n h g) (hg : s.tag = g) (hlt : s.chg + 1 < 18446744073709551616) :
    Core ((s.swing (some n) (wrap (g + 1))).to t .addRet) (n :: L) := by
  have hh : has (s.pc t) = some n := by simp [hp, has]
  have hn := hC.hasL t n hh
  have hk := hC.kn t
  simp only [hp, Knows] at hk
  have htag := hC.tag
  have hhd := hk.2.1 (by omega)
  have hne : ∀ u, u ≠ t → ((s.swing (some n) (wrap (g + 1))).to t .addRet).pc u = s.pc u := by
    intro u hu; simp [St.to, St.swing, put, hu]
  refine ⟨?_, ?_, ?_, ?_, ?_, ?_, ?_, ?_⟩
  · simp only [St.to, St.swing, wrap]; rw [Nat.mod_eq_of_lt] <;> omega
  · refine ⟨rfl, ?_⟩
    show chain s.next (s.next n) L
    rw [show s.next n = s.head by rw [hk.2.2, hhd]]; exact hC.chn
  · exact List.nodup_cons.2 ⟨hn.1, hC.nd⟩
  · intro m hm
    have hm' : s.out m = true := hm
    simp only [List.mem_cons, not_or]
    exact ⟨by rintro rfl; simp [hn.2] at hm', hC.outL m hm'⟩
  · intro u m hm
    by_cases hu : u = t
    · subst hu; simp [St.to, has] at hm
    · rw [hne u hu] at hm
      simp only [List.mem_cons, not_or]
      exact ⟨⟨by rintro rfl; exact hu (hC.hasU u t m hm hh), (hC.hasL u m hm).1⟩, (hC.hasL u m hm).2⟩
  · intro u w m hm hw
    by_cases hu : u = t
    · subst hu; simp [St.to, has] at hm
    · by_cases hwt : w = t
      · subst hwt; simp [St.to, has] at hw
      · rw [hne u hu] at hm; rw [hne w hwt] at hw; exact hC.hasU u w m hm hw
  · intro m hm
    rcases hC.cov m hm with h' | ⟨u, h'⟩
    · exact Or.inl (List.mem_cons_of_mem _ h')
    · by_cases hu : u = t
      · subst hu; rw [hh] at h'; exact Or.inl (by simp [Option.some.inj h'])
      · exact Or.inr ⟨u, by rw [hne u hu]; exact h'⟩
  · intro u
    refine (knows_congr (s := s.swing (some n) (wrap (g + 1))) rfl rfl rfl _).2 ?_
    by_cases hu : u = t
    · subst hu; simp [St.to, Knows]
    · rw [hne u hu]; exact knows_swing (hC.kn u)

theorem core_pop {s : St} {L : List Nat} (hC : Core s L) {t p g : Nat} {nx : Option Nat}
    (hp : s.pc t = .getCas p g nx) (hg : s.tag = g) (hlt : s.chg + 1 < 18446744073709551616) :
    ∃ L', L = p :: L' ∧ Core ((s.swing nx (wrap (g + 1))).to t (.getRet (some p))) L' := by
  have hk := hC.kn t
  simp only [hp, Knows] at hk
  have htag := hC.tag
  obtain ⟨hhd, hnx⟩ := hk.2 (by omega)
  have hchn := hC.chn
  rw [hhd] at hchn
  obtain ⟨L', rfl, hch'⟩ := chain_some hchn
  have hnd := List.nodup_cons.1 hC.nd
  have hne : ∀ u, u ≠ t →
      ((s.swing nx (wrap (g + 1))).to t (.getRet (some p))).pc u = s.pc u := by
    intro u hu; simp [St.to, St.swing, put, hu]
  have hpo : s.out p = false := by
    cases h : s.out p with
    | false => rfl
    | true => exact absurd (by simp) (hC.outL p h)
  refine ⟨L', rfl, ?_, ?_, hnd.2, ?_, ?_, ?_, ?_, ?_⟩
  · simp only [St.to, St.swing, wrap]; rw [Nat.mod_eq_of_lt] <;> omega
  · rw [hnx] at hch'; exact hch'
  · intro m hm h; exact hC.outL m hm (List.mem_cons_of_mem _ h)
  · intro u m hm
    by_cases hu : u = t
    · subst hu; simp [St.to, has] at hm; subst hm; exact ⟨hnd.1, hpo⟩
    · rw [hne u hu] at hm
      have := hC.hasL u m hm
      exact ⟨fun h => this.1 (List.mem_cons_of_mem _ h), this.2⟩
  · intro u w m hm hw
    have hx : ∀ x, x ≠ t → has (s.pc x) ≠ some p := fun x _ h => (hC.hasL x p h).1 (by simp)
    by_cases hu : u = t <;> by_cases hwt : w = t
    · rw [hu, hwt]
    · subst hu; simp [St.to, has] at hm; subst hm; rw [hne w hwt] at hw
      exact absurd hw (hx w hwt)
    · subst hwt; simp [St.to, has] at hw; subst hw; rw [hne u hu] at hm
      exact absurd hm (hx u hu)
    · rw [hne u hu] at hm; rw [hne w hwt] at hw; exact hC.hasU u w m hm hw
  · intro m hm
    rcases hC.cov m hm with h' | ⟨u, h'⟩
    · rcases List.mem_cons.1 h' with rfl | h'
      · exact Or.inr ⟨t, by simp [St.to, has]⟩
      · exact Or.inl h'
    · have hu : u ≠ t := by rintro rfl; simp [hp, has] at h'
      exact Or.inr ⟨u, by rw [hne u hu]; exact h'⟩
  · intro u
    refine (knows_congr (s := s.swing nx (wrap (g + 1))) rfl rfl rfl _).2 ?_
    by_cases hu : u = t
    · subst hu; simp [St.to, Knows]
    · rw [hne u hu]; exact knows_swing (hC.kn u)

/-- What a step does, seen by the atomic stack. -/
def Sim (s s' : St) (L : List Nat) : Prop :=
  ∃ L' as, Core s' L' ∧ runs Abs.step (absOf s L) as = some (absOf s' L') ∧
    s'.vis = s.vis ++ visOf as

/-- An invisible step. -/
theorem sim_silent {s : St} {L : List Nat} {t : Nat} {q : PC} (hC : Core (s.to t q) L)
    (ha : absT q = absT (s.pc t)) : Sim s (s.to t q) L := by
  refine ⟨L, [], hC, ?_, by simp [visOf, St.to]⟩
  rw [absOf_to, ha]
  simp only [runs, Option.some.injEq, absOf, Abs.mk.injEq, true_and]
  funext u
  by_cases h : u = t
  · subst h; simp
  · simp [put, h]

/-- The loop test on the head just loaded: an empty list is the moment at which `try_get` fails. -/
theorem sim_test {s : St} {L : List Nat} (hC : Core s L) {t : Nat} (hh : has (s.pc t) = none)
    (ha : absT (s.pc t) = .pend .get) : Sim s (s.to t (test s.head s.tag)) L := by
  cases hd : s.head with
  | none =>
    have hL : L = [] := chain_none (hd ▸ hC.chn)
    subst hL
    refine ⟨[], [.lin t], core_to hC hh.symm trivial, ?_, by simp [visOf, St.to]⟩
    rw [absOf_to]
    have hth : (absOf s []).th t = .pend .get := ha
    simp only [runs, Abs.step, hth, Option.bind_some, Abs.perform, test]
    rfl
  | some p =>
    have hk : Knows s (.getNext p s.tag) := ⟨by rw [hC.tag]; omega, fun _ => hd⟩
    exact sim_silent (core_to hC (by rw [hh]; rfl) hk) (by rw [ha]; rfl)

theorem sim_step {s s' : St} {l : Lab} {L : List Nat} (hC : Core s L) (hs : step s l = some s')
    (hlt : s'.chg < 18446744073709551616) : Sim s s' L := by
  cases l with
  | call t op =>
    simp only [step] at hs
    split at hs
    case isFalse => simp at hs
    rename_i hp
    have hti : (absOf s L).th t = .idle := by simp [absOf, hp, absT]
    cases op with
    | add n =>
      simp only [call] at hs
      split at hs
      case isFalse => simp at hs
      rename_i ho
      cases hs
      refine ⟨L, [.vis (.call t (.add n))], core_callAdd hC (by simp [hp, has]) ho, ?_,
        by simp [visOf, St.to, St.emit]⟩
      rw [absOf_to]
      simp only [runs, Abs.step, hti, if_true, Option.bind_some]
      rfl
    | get =>
      simp only [call] at hs
      cases hs
      refine ⟨L, [.vis (.call t .get)], core_to (core_emit hC _) (by simp [St.emit, hp, has]) trivial,
        ?_, by simp [visOf, St.to, St.emit]⟩
      rw [absOf_to]
      simp only [runs, Abs.step, hti, if_true, Option.bind_some]
      rfl
  | ret t =>
    simp only [step] at hs
    cases hp : s.pc t with
    | addRet =>
      simp only [hp, ret, Option.some.injEq] at hs
      subst hs
      refine ⟨L, [.vis (.ret t .added)], core_to (core_emit hC _) (by simp [St.emit, hp, has]) trivial,
        ?_, by simp [visOf, St.to, St.emit]⟩
      rw [absOf_to]
      have : (absOf s L).th t = .fin .added := by simp [absOf, hp, absT]
      simp only [runs, Abs.step, this, if_true, Option.bind_some]
      rfl
    | getRet r =>
      have hf : (absOf s L).th t = .fin (.got r) := by simp [absOf, hp, absT]
      cases r with
      | none =>
        simp only [hp, ret, Option.some.injEq] at hs
        subst hs
        refine ⟨L, [.vis (.ret t (.got none))],
          core_to (core_emit hC _) (by simp [St.emit, hp, has]) trivial, ?_,
          by simp [visOf, St.to, St.emit]⟩
        rw [absOf_to]
        simp only [runs, Abs.step, hf, if_true, Option.bind_some]
        rfl
      | some n =>
        simp only [hp, ret, Option.some.injEq] at hs
        subst hs
        refine ⟨L, [.vis (.ret t (.got (some n)))], core_retGet hC (by simp [hp, has]), ?_,
          by simp [visOf, St.to, St.emit]⟩
        rw [absOf_to]
        simp only [runs, Abs.step, hf, if_true, Option.bind_some]
        rfl
    | _ => simp [hp, ret] at hs
  | go t sp =>
    simp only [step] at hs
    cases hp : s.pc t with
    | addLoad n =>
      simp only [hp, go, Option.some.injEq] at hs
      subst hs
      refine sim_silent (core_to hC (by simp [hp, has]) ?_) (by simp [hp, absT])
      exact ⟨by rw [hC.tag]; omega, fun _ => rfl⟩
    | addStore n h g =>
      simp only [hp, go, Option.some.injEq] at hs
      subst hs
      refine ⟨L, [], core_link hC hp, ?_, by simp [visOf, St.to, St.link]⟩
      rw [absOf_to]
      simp only [runs, Option.some.injEq, absOf, Abs.mk.injEq, true_and]
      funext u
      by_cases hu : u = t
      · subst hu; simp [hp, absT]
      · simp [put, hu, St.link]
    | addCas n h g =>
      simp only [hp, go, Option.some.injEq] at hs
      subst hs
      unfold addCas at hlt ⊢
      split
      · rename_i hc
        simp only [hc, and_self, if_true] at hlt
        refine ⟨n :: L, [.lin t], core_push hC hp hc.2.1 hlt, ?_, by simp [visOf, St.to, St.swing]⟩
        rw [absOf_to]
        have : (absOf s L).th t = .pend (.add n) := by simp [absOf, hp, absT]
        simp only [runs, Abs.step, this, Option.bind_some, Abs.perform]
        rfl
      · refine sim_silent (core_to hC (by simp [hp, has]) ?_) (by simp [hp, absT])
        exact ⟨by rw [hC.tag]; omega, fun _ => rfl⟩
    | getLoad =>
      simp only [hp, go, Option.some.injEq] at hs
      subst hs
      exact sim_test hC (by simp [hp, has]) (by simp [hp, absT])
    | getNext p g =>
      simp only [hp, go, Option.some.injEq] at hs
      subst hs
      have hk := hC.kn t
      simp only [hp, Knows] at hk
      refine sim_silent (core_to hC (by simp [hp, has]) ?_) (by simp [hp, absT])
      exact ⟨hk.1, fun hg => ⟨hk.2 hg, rfl⟩⟩
    | getCas p g nx =>
      simp only [hp, go, Option.some.injEq] at hs
      subst hs
      unfold getCas at hlt ⊢
      split
      · rename_i hc
        simp only [hc, and_self, if_true] at hlt
        obtain ⟨L', hL, hC'⟩ := core_pop hC hp hc.2.1 hlt
        subst hL
        refine ⟨L', [.lin t], hC', ?_, by simp [visOf, St.to, St.swing]⟩
        rw [absOf_to]
        have : (absOf s (p :: L')).th t = .pend .get := by simp [absOf, hp, absT]
        simp only [runs, Abs.step, this, Option.bind_some, Abs.perform]
        rfl
      · exact sim_test hC (by simp [hp, has]) (by simp [hp, absT])
    | _ => simp [hp, go] at hs

theorem chg_mono {s s' : St} {l : Lab} (hs : step s l = some s') : s.chg ≤ s'.chg := by
  cases l with
  | call t op =>
    simp only [step] at hs
    split at hs
    · cases op
      · simp only [call] at hs
        split at hs
        · cases hs; simp [St.to, St.emit]
        · simp at hs
      · simp only [call] at hs; cases hs; simp [St.to, St.emit]
    · simp at hs
  | ret t =>
    simp only [step] at hs
    unfold ret at hs
    split at hs
    all_goals first | (cases hs; simp [St.to, St.emit]) | simp at hs
  | go t sp =>
    simp only [step] at hs
    unfold go at hs
    split at hs
    all_goals first
      | (cases hs; simp [St.to, St.link])
      | (cases hs; unfold addCas; split <;> simp [St.to, St.swing])
      | (cases hs; unfold getCas; split <;> simp [St.to, St.swing])
      | simp at hs

/-- Reachable states. -/
abbrev R (s : St) : Prop := Reach step init s

theorem sim_reach {s : St} (h : R s) (hlt : s.chg < 18446744073709551616) :
    ∃ L as, Core s L ∧ runs Abs.step Abs.init as = some (absOf s L) ∧ s.vis = visOf as := by
  have key := inv_reach (step := step) (i := init) (s := s)
    (I := fun x => x.chg < 18446744073709551616 →
      ∃ L as, Core x L ∧ runs Abs.step Abs.init as = some (absOf x L) ∧ x.vis = visOf as)
    (fun _ => ⟨[], [], core_init, rfl, rfl⟩) ?_ h
  · exact key hlt
  · intro x l x' ih hs hlt'
    obtain ⟨L, as, hC, hr, hv⟩ := ih (Nat.lt_of_le_of_lt (chg_mono hs) hlt')
    obtain ⟨L', bs, hC', hr', hv'⟩ := sim_step hC hs hlt'
    exact ⟨L', as ++ bs, hC', by rw [runs_append, hr]; exact hr', by rw [hv', hv, visOf_append]⟩

/-- **C81.** The tagged free list is linearizable: as long as the head has been changed fewer than
2^64 times, the calls and returns seen so far are those of a run of the atomic stack, in which each
`add` and `try_get` takes place at one moment between its call and its return. -/
theorem c81_linearizable {s : St} (h : R s) (hlt : s.chg < 2 ^ 64) :
    ∃ as a, runs Abs.step Abs.init as = some a ∧ visOf as = s.vis := by
  obtain ⟨L, as, _, hr, hv⟩ := sim_reach h (by simpa using hlt)
  exact ⟨as, _, hr, hv.symm⟩

/-- **C81.** No node is handed out twice: a node that `try_get` is returning is owned by no user,
is not in the list, and is neither being added nor being returned by another thread. -/
theorem c81_no_double {s : St} (h : R s) (hlt : s.chg < 2 ^ 64) {t n : Nat}
    (ht : s.pc t = .getRet (some n)) :
    s.out n = false ∧ (∀ u, u ≠ t → has (s.pc u) ≠ some n) ∧
    ∀ L, chain s.next s.head L → n ∉ L := by
  obtain ⟨L, as, hC, _, _⟩ := sim_reach h (by simpa using hlt)
  have hh : has (s.pc t) = some n := by simp [ht, has]
  refine ⟨(hC.hasL t n hh).2, fun u hu hx => hu (hC.hasU u t n hx hh), ?_⟩
  intro M hM
  rw [chain_unique hM hC.chn]
  exact (hC.hasL t n hh).1

/-- **C81.** No node is lost: when no operation is running, following the list from its head ends,
visits no node twice, and visits exactly the nodes that the users do not own. -/
theorem c81_no_loss {s : St} (h : R s) (hlt : s.chg < 2 ^ 64) (hq : ∀ t, s.pc t = .idle) :
    ∃ L, chain s.next s.head L ∧ L.Nodup ∧ ∀ n, n ∈ L ↔ s.out n = false := by
  obtain ⟨L, as, hC, _, _⟩ := sim_reach h (by simpa using hlt)
  refine ⟨L, hC.chn, hC.nd, fun n => ⟨fun hn => ?_, fun hn => ?_⟩⟩
  · cases ho : s.out n with
    | false => rfl
    | true => exact absurd hn (hC.outL n ho)
  · rcases hC.cov n hn with h' | ⟨t, h'⟩
    · exact h'
    · simp [hq, has] at h'

/-- **C81.** Lock freedom: a compare-and-swap that does not fail spuriously fails only because the
head was changed by somebody else since this thread loaded it; every change of the head completes
an operation. -/
theorem c81_fail_means_progress {s : St} (h : R s) (hlt : s.chg < 2 ^ 64) {t n g : Nat}
    {hd : Option Nat} (hp : s.pc t = .addCas n hd g) :
    (addCas s t n hd g false).pc t = .addRet ∨ g < s.chg := by
  obtain ⟨L, as, hC, _, _⟩ := sim_reach h (by simpa using hlt)
  have hk := hC.kn t
  simp only [hp, Knows] at hk
  by_cases hg : g = s.chg
  · left
    have h1 := hk.2.1 hg
    have h2 := hC.tag
    unfold addCas
    rw [if_pos ⟨h1.symm, by omega, rfl⟩]
    simp [St.to]
  · right; omega

/-- A schedule: thread 1 takes node 5 while thread 0 is about to take it too, puts it back under a
new next pointer, and thread 0 must start again (the ABA situation). -/
def wSched : List Lab :=
  [.call 0 (.add 5), .go 0 false, .go 0 false, .go 0 false, .ret 0,
   .call 0 .get, .go 0 false, .go 0 false,
   .call 1 .get, .go 1 false, .go 1 false, .go 1 false, .ret 1,
   .call 1 (.add 6), .go 1 false, .go 1 false, .go 1 false, .ret 1,
   .call 1 (.add 5), .go 1 false, .go 1 false, .go 1 true, .go 1 false, .go 1 false, .ret 1,
   .go 0 false]

/-- The hypotheses of C81 are met: in this schedule thread 0's compare-and-swap finds the pointer
it expects, and fails because of the tag; then it takes 5, then 6, and the list is empty. -/
theorem w_c81 :
    ((runs step init wSched).map fun s => (s.head, s.pc 0, s.next 5, s.chg))
      = some (some 5, .getNext 5 4, some 6, 4) ∧
    ((runs step init (wSched ++ [.go 0 false, .go 0 false])).map fun s => (s.head, s.pc 0))
      = some (some 6, .getRet (some 5)) ∧
    ((runs step init (wSched ++ [.go 0 false, .go 0 false, .ret 0])).map
        fun s => (s.pc 0, s.pc 1, s.out 5, s.out 6)) = some (.idle, .idle, true, false) := by
  decide

end Ltio.Sync.Tagged
