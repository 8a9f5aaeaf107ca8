import Verif.Sync.Stack

/-
Model of base/lockfree/freelist.hpp (C82): the compare-and-swap free list with reference counts,
used by `T` threads.

Every access of a shared location is one step; memory orders are not modelled (steps interleave).
`freeListRefs` is a `uint32_t` and wraps at 2^32.  Users only `add` a node that they own: every
node is owned by the users at first, is given up when `add` is called, and is owned again when
`try_get` returns it.  Nodes are never freed (the requirement of the comment in lines 12-14).
-/
namespace Ltio.Sync.RefList

/-- `SHOULD_BE_ON_FREELIST` (freelist.hpp:101). -/
def SHOULD : Nat := 2147483648

/-- `uint32_t` arithmetic. -/
def w32 (x : Nat) : Nat := x % 4294967296

/-- What `add_knowing_refcount_is_zero` returns to: the end of `add` (line 25), or the loop of
`try_get` with the value of `head` (line 62). -/
inductive K where
  | done
  | loop (h : Option Nat)
deriving DecidableEq

/-- Where a thread is. -/
inductive PC where
  | idle
  /-- `add`, before the `fetch_add` of line 22 -/
  | addF (n : Nat)
  | addRet
  /-- `add_knowing_refcount_is_zero`, before the load of line 83 -/
  | zLoad (n : Nat) (k : K)
  /-- before the store of line 85 -/
  | zStore (n : Nat) (h : Option Nat) (k : K)
  /-- before the store of line 86 -/
  | zRefs (n : Nat) (h : Option Nat) (k : K)
  /-- before the compare-and-swap of line 87 -/
  | zCas (n : Nat) (h : Option Nat) (k : K)
  /-- before the `fetch_add` of line 90 -/
  | zBack (n : Nat) (h : Option Nat) (k : K)
  /-- `try_get`, before the load of line 30 or line 36 -/
  | getLoad
  /-- before the load of line 33 -/
  | getRefs (p : Nat)
  /-- before the compare-and-swap of line 34 -/
  | getInc (p : Nat) (r : Nat)
  /-- before the load of line 43 -/
  | getNext (p : Nat)
  /-- before the compare-and-swap of line 44 -/
  | getCas (p : Nat) (nx : Option Nat)
  /-- before the load in the assertion of line 49 -/
  | getAssert (p : Nat)
  /-- before the `fetch_add` of line 53 -/
  | getDec2 (p : Nat)
  /-- before the `fetch_add` of line 60, `head` being the value the failed exchange loaded -/
  | getDec1 (p : Nat) (h : Option Nat)
  | getRet (r : Option Nat)
  /-- the assertion of line 49 failed -/
  | abort
deriving DecidableEq

/-- What has become of a node (ghost). -/
inductive Mode where
  /-- the users own it -/
  | out
  /-- in the hands of an operation -/
  | mov
  /-- in the hands of `add_knowing_refcount_is_zero`, marked, without references -/
  | zero
  /-- off the list, with the list's reference -/
  | one
  /-- added, to be put on the list by whoever gives up its last reference -/
  | defd
  /-- on the list -/
  | listed
deriving DecidableEq

/-- The free list and its threads. -/
structure St where
  head : Option Nat
  next : Nat → Option Nat
  refs : Nat → Nat
  pc : Nat → PC
  mode : Nat → Mode

/-- A new free list (freelist.hpp:6, 17). -/
def init : St := ⟨none, fun _ => none, fun _ => 0, fun _ => .idle, fun _ => .out⟩

/-- What can happen. -/
inductive Lab where
  | call (t : Nat) (op : Op)
  | go (t : Nat)
  | ret (t : Nat)
deriving DecidableEq

/-- A step to `q` of thread `t`. -/
def St.to (s : St) (t : Nat) (q : PC) : St := ⟨s.head, s.next, s.refs, put s.pc t q, s.mode⟩

/-- A store in a next field. -/
def St.link (s : St) (n : Nat) (v : Option Nat) : St :=
  ⟨s.head, put s.next n v, s.refs, s.pc, s.mode⟩

/-- A store in a reference count. -/
def St.setRefs (s : St) (n : Nat) (v : Nat) : St := ⟨s.head, s.next, put s.refs n v, s.pc, s.mode⟩

/-- A change of the head. -/
def St.swing (s : St) (h : Option Nat) : St := ⟨h, s.next, s.refs, s.pc, s.mode⟩

/-- A change of a node's (ghost) mode. -/
def St.mark (s : St) (n : Nat) (m : Mode) : St := ⟨s.head, s.next, s.refs, s.pc, put s.mode n m⟩

/-- The loop test of line 31. -/
def test : Option Nat → PC
  | none => .getRet none
  | some p => .getRefs p

/-- Return from `add_knowing_refcount_is_zero`. -/
def K.resume : K → PC
  | .done => .addRet
  | .loop h => test h

/-- Line 22: `fetch_add(SHOULD_BE_ON_FREELIST)`. -/
def addF (s : St) (t n : Nat) : St :=
  if s.refs n = 0 then
    ((s.setRefs n (w32 (s.refs n + SHOULD))).mark n .zero).to t (.zLoad n .done)
  else ((s.setRefs n (w32 (s.refs n + SHOULD))).mark n .defd).to t .addRet

/-- Line 87. -/
def zCas (s : St) (t n : Nat) (h : Option Nat) (k : K) : St :=
  if s.head = h then ((s.swing (some n)).mark n .listed).to t k.resume
  else s.to t (.zBack n s.head k)

/-- Lines 90-95: `fetch_add(SHOULD_BE_ON_FREELIST - 1)`. -/
def zBack (s : St) (t n : Nat) (h : Option Nat) (k : K) : St :=
  if s.refs n = 1 then
    ((s.setRefs n (w32 (s.refs n + (SHOULD - 1)))).mark n .zero).to t (.zStore n h k)
  else ((s.setRefs n (w32 (s.refs n + (SHOULD - 1)))).mark n .defd).to t k.resume

/-- Lines 33-34, the test of the masked count. -/
def getRefs (s : St) (t p : Nat) : St :=
  if s.refs p % SHOULD = 0 then s.to t .getLoad else s.to t (.getInc p (s.refs p))

/-- Lines 34-38. -/
def getInc (s : St) (t p r : Nat) : St :=
  if s.refs p = r then (s.setRefs p (w32 (r + 1))).to t (.getNext p) else s.to t .getLoad

/-- Line 44. -/
def getCas (s : St) (t p : Nat) (nx : Option Nat) : St :=
  if s.head = some p then ((s.swing nx).mark p .one).to t (.getAssert p)
  else s.to t (.getDec1 p s.head)

/-- Lines 49-50. -/
def getAssert (s : St) (t p : Nat) : St :=
  if s.refs p / SHOULD % 2 = 0 then s.to t (.getDec2 p) else s.to t .abort

/-- Line 53: `fetch_add(-2)`. -/
def getDec2 (s : St) (t p : Nat) : St :=
  ((s.setRefs p (w32 (s.refs p + 4294967294))).mark p .mov).to t (.getRet (some p))

/-- Lines 60-63: `fetch_add(-1)`. -/
def getDec1 (s : St) (t p : Nat) (h : Option Nat) : St :=
  if s.refs p = SHOULD + 1 then
    ((s.setRefs p (w32 (s.refs p + 4294967295))).mark p .zero).to t (.zLoad p (.loop h))
  else (s.setRefs p (w32 (s.refs p + 4294967295))).to t (test h)

/-- The next access of a thread (freelist.hpp:19-67, 73-97). -/
def go (s : St) (t : Nat) : PC → Option St
  | .addF n => some (addF s t n)
  | .zLoad n k => some (s.to t (.zStore n s.head k))
  | .zStore n h k => some ((s.link n h).to t (.zRefs n h k))
  | .zRefs n h k => some (((s.setRefs n 1).mark n .one).to t (.zCas n h k))
  | .zCas n h k => some (zCas s t n h k)
  | .zBack n h k => some (zBack s t n h k)
  | .getLoad => some (s.to t (test s.head))
  | .getRefs p => some (getRefs s t p)
  | .getInc p r => some (getInc s t p r)
  | .getNext p => some (s.to t (.getCas p (s.next p)))
  | .getCas p nx => some (getCas s t p nx)
  | .getAssert p => some (getAssert s t p)
  | .getDec2 p => some (getDec2 s t p)
  | .getDec1 p h => some (getDec1 s t p h)
  | _ => none

/-- Calls: `add` only of an owned node, which is given up. -/
def call (s : St) (t : Nat) : Op → Option St
  | .add n => if s.mode n = .out then some ((s.mark n .mov).to t (.addF n)) else none
  | .get => some (s.to t .getLoad)

/-- Returns: a node returned by `try_get` is owned again. -/
def ret (s : St) (t : Nat) : PC → Option St
  | .addRet => some (s.to t .idle)
  | .getRet none => some (s.to t .idle)
  | .getRet (some n) => some ((s.mark n .out).to t .idle)
  | _ => none

/-- One step; there are `T` threads. -/
def step (T : Nat) (s : St) : Lab → Option St
  | .call t op => if t < T ∧ s.pc t = .idle then call s t op else none
  | .go t => if t < T then go s t (s.pc t) else none
  | .ret t => if t < T then ret s t (s.pc t) else none

/-- The node that is in a thread's hands, and its mode. -/
def pcMode : PC → Option (Nat × Mode)
  | .addF n => some (n, .mov)
  | .zLoad n _ | .zStore n _ _ | .zRefs n _ _ => some (n, .zero)
  | .zCas n _ _ | .zBack n _ _ => some (n, .one)
  | .getAssert n | .getDec2 n => some (n, .one)
  | .getRet (some n) => some (n, .mov)
  | _ => none

/-- Does a thread hold a reference to the node (the increment of line 34)? -/
def holds : PC → Nat → Bool
  | .getNext p, n | .getCas p _, n | .getAssert p, n | .getDec2 p, n | .getDec1 p _, n => p == n
  | _, _ => false

/-- Number of references held by the first `T` threads. -/
def cnt (pc : Nat → PC) (n : Nat) : Nat → Nat
  | 0 => 0
  | T + 1 => cnt pc n T + (holds (pc T) n).toNat

theorem cnt_le (pc : Nat → PC) (n T : Nat) : cnt pc n T ≤ T := by
  induction T with
  | zero => simp [cnt]
  | succ T ih => simp only [cnt]; have := Bool.toNat_le (holds (pc T) n); omega

theorem cnt_put_ge (pc : Nat → PC) (n t : Nat) (q : PC) : ∀ T, T ≤ t → cnt (put pc t q) n T = cnt pc n T := by
  intro T
  induction T with
  | zero => intro _; rfl
  | succ T ih =>
    intro h
    simp only [cnt]
    rw [ih (by omega), put_ne _ _ (by omega)]

theorem cnt_put (pc : Nat → PC) (n t : Nat) (q : PC) : ∀ T, t < T →
    cnt (put pc t q) n T + (holds (pc t) n).toNat = cnt pc n T + (holds q n).toNat := by
  intro T
  induction T with
  | zero => intro h; omega
  | succ T ih =>
    intro h
    simp only [cnt]
    by_cases ht : t = T
    · subst ht
      rw [cnt_put_ge _ _ _ _ _ (Nat.le_refl _)]
      simp only [put_same]
      omega
    · rw [put_ne _ _ (Ne.symm ht)]
      have := ih (by omega)
      omega

theorem cnt_pos {pc : Nat → PC} {n t : Nat} : ∀ {T}, t < T → holds (pc t) n = true →
    1 ≤ cnt pc n T := by
  intro T
  induction T with
  | zero => intro h; omega
  | succ T ih =>
    intro h hh
    simp only [cnt]
    by_cases ht : t = T
    · subst ht; rw [hh]; simp
    · have := ih (by omega) hh; omega

theorem cnt_zero {pc : Nat → PC} {n : Nat} : ∀ {T}, (∀ t, t < T → holds (pc t) n = false) →
    cnt pc n T = 0 := by
  intro T
  induction T with
  | zero => intro _; rfl
  | succ T ih =>
    intro h
    simp only [cnt]
    rw [ih (fun t ht => h t (by omega)), h T (by omega)]; rfl

/-- The part of the reference count that does not come from threads. -/
def base : Mode → Nat
  | .out | .mov => 0
  | .zero | .defd => SHOULD
  | .one | .listed => 1

/-- Modes of nodes in the hands of an operation. -/
def moving : Mode → Bool
  | .mov | .zero | .one => true
  | _ => false

/-- What a thread knows. -/
def Knows (s : St) : PC → Prop
  | .zRefs n h _ | .zCas n h _ => s.next n = h
  | .getInc _ r => r % SHOULD ≠ 0
  | .getCas p nx => s.next p = nx
  | .abort => False
  | _ => True

/-- The invariant, with the list of free nodes. -/
structure Core (T : Nat) (s : St) (L : List Nat) : Prop where
  chn : chain s.next s.head L
  nd : L.Nodup
  lst : ∀ n, n ∈ L ↔ s.mode n = .listed
  own : ∀ t n m, pcMode (s.pc t) = some (n, m) → s.mode n = m
  uni : ∀ t u n m m', pcMode (s.pc t) = some (n, m) → pcMode (s.pc u) = some (n, m') → t = u
  cov : ∀ n, moving (s.mode n) = true → ∃ t m, pcMode (s.pc t) = some (n, m)
  rc : ∀ n, s.refs n = base (s.mode n) + cnt s.pc n T
  zer : ∀ n, s.mode n = .zero → cnt s.pc n T = 0
  dfr : ∀ n, s.mode n = .defd → 1 ≤ cnt s.pc n T
  kn : ∀ t, Knows s (s.pc t)
  bnd : ∀ t, T ≤ t → s.pc t = .idle

theorem core_init (T : Nat) : Core T init [] := by
  have hc : ∀ n, cnt init.pc n T = 0 := fun n => cnt_zero (fun t _ => rfl)
  refine ⟨trivial, List.nodup_nil, ?_, ?_, ?_, ?_, ?_, ?_, ?_, ?_, ?_⟩
  · simp [init]
  · simp [init, pcMode]
  · simp [init, pcMode]
  · simp [init, moving]
  · intro n; rw [hc]; rfl
  · intro n _; exact hc n
  · intro n h; simp [init] at h
  · intro t; simp [init, Knows]
  · intro t _; rfl

/-- Steps of a thread that has no node in its hands, before or after: only its references and the
count of one node change. -/
theorem core_hold {T : Nat} {s : St} {L : List Nat} (hC : Core T s L) {t p v : Nat} {q : PC}
    (ht : t < T) (h0 : pcMode (s.pc t) = none) (h1 : pcMode q = none)
    (hb : ∀ n, n ≠ p → holds q n = holds (s.pc t) n)
    (hv : v + (holds (s.pc t) p).toNat = s.refs p + (holds q p).toNat)
    (hz : s.mode p = .zero → holds q p = false)
    (hd : s.mode p = .defd → holds (s.pc t) p = true → holds q p = false → cnt s.pc p T ≠ 1)
    (hk : Knows s q) : Core T ((s.setRefs p v).to t q) L := by
  have hne : ∀ u, u ≠ t → ((s.setRefs p v).to t q).pc u = s.pc u := by
    intro u hu; simp [St.to, St.setRefs, put, hu]
  have hpm : ∀ u, pcMode (((s.setRefs p v).to t q).pc u) = pcMode (s.pc u) := by
    intro u
    by_cases hu : u = t
    · subst hu; simp [St.to, h0, h1]
    · rw [hne u hu]
  have hcp := cnt_put s.pc p t q T ht
  have hcn : ∀ n, n ≠ p → cnt (put s.pc t q) n T = cnt s.pc n T := by
    intro n hn
    have := cnt_put s.pc n t q T ht
    rw [hb n hn] at this; omega
  refine ⟨hC.chn, hC.nd, hC.lst, ?_, ?_, ?_, ?_, ?_, ?_, ?_, ?_⟩
  · intro u n m h; rw [hpm] at h; exact hC.own u n m h
  · intro u w n m m' h h'; rw [hpm] at h h'; exact hC.uni u w n m m' h h'
  · intro n hn
    obtain ⟨u, m, h⟩ := hC.cov n hn
    exact ⟨u, m, by rw [hpm]; exact h⟩
  · intro n
    show put s.refs p v n = base (s.mode n) + cnt (put s.pc t q) n T
    by_cases hn : n = p
    · subst hn
      have := hC.rc n
      simp only [put_same]
      omega
    · rw [put_ne _ _ hn, hcn n hn, hC.rc n]
  · intro n hn
    show cnt (put s.pc t q) n T = 0
    have hn' : s.mode n = .zero := hn
    by_cases hnp : n = p
    · subst hnp
      have h1 := hC.zer n hn'
      have h2 := hz hn'
      rw [h2] at hcp
      simp only [Bool.toNat_false] at hcp
      omega
    · rw [hcn n hnp]; exact hC.zer n hn'
  · intro n hn
    show 1 ≤ cnt (put s.pc t q) n T
    have hn' : s.mode n = .defd := hn
    by_cases hnp : n = p
    · subst hnp
      have h1 := hC.dfr n hn'
      have h2 := hd hn'
      cases ha : holds (s.pc t) n <;> cases hb' : holds q n <;> rw [ha, hb'] at hcp <;>
        simp only [Bool.toNat_false, Bool.toNat_true] at hcp
      · omega
      · omega
      · have := h2 ha hb'; omega
      · omega
    · rw [hcn n hnp]; exact hC.dfr n hn'
  · intro u
    have hkc : ∀ x, Knows ((s.setRefs p v).to t q) x ↔ Knows s x := by
      intro x; cases x <;> exact Iff.rfl
    rw [hkc]
    by_cases hu : u = t
    · subst hu; simpa [St.to] using hk
    · rw [hne u hu]; exact hC.kn u
  · intro u hu
    rw [hne u (by omega)]
    exact hC.bnd u hu

/-- Steps that move or keep a node which is in no other thread's hands. -/
theorem core_own {T : Nat} {s s' : St} {L L' : List Nat} (hC : Core T s L) {t p : Nat} {q : PC}
    (ht : t < T) (hpc : s'.pc = put s.pc t q)
    (hmo : ∀ n, n ≠ p → s'.mode n = s.mode n) (hrf : ∀ n, n ≠ p → s'.refs n = s.refs n)
    (hnx : ∀ n, n ≠ p → s'.next n = s.next n)
    (hno : ∀ u m, u ≠ t → pcMode (s.pc u) ≠ some (p, m))
    (h0 : ∀ n m, pcMode (s.pc t) = some (n, m) → n = p)
    (h1 : ∀ n m, pcMode q = some (n, m) → n = p ∧ s'.mode p = m)
    (h2 : moving (s'.mode p) = true → pcMode q ≠ none)
    (hb : ∀ n, n ≠ p → holds q n = holds (s.pc t) n)
    (hchn : chain s'.next s'.head L') (hnd : L'.Nodup)
    (hlst : ∀ n, n ∈ L' ↔ s'.mode n = .listed)
    (hrc : s'.refs p = base (s'.mode p) + cnt s'.pc p T)
    (hz : s'.mode p = .zero → cnt s'.pc p T = 0) (hd : s'.mode p = .defd → 1 ≤ cnt s'.pc p T)
    (hk : Knows s' q) (hkp : s'.next p = s.next p ∨ cnt s.pc p T = 0) : Core T s' L' := by
  have hne : ∀ u, u ≠ t → s'.pc u = s.pc u := by
    intro u hu; rw [hpc]; simp [put, hu]
  have hteq : s'.pc t = q := by rw [hpc]; simp
  have hcn : ∀ n, n ≠ p → cnt s'.pc n T = cnt s.pc n T := by
    intro n hn
    have := cnt_put s.pc n t q T ht
    rw [hb n hn] at this; rw [hpc]; omega
  refine ⟨hchn, hnd, hlst, ?_, ?_, ?_, ?_, ?_, ?_, ?_, ?_⟩
  · intro u n m h
    by_cases hu : u = t
    · subst hu; rw [hteq] at h
      obtain ⟨rfl, h'⟩ := h1 n m h
      exact h'
    · rw [hne u hu] at h
      have hnp : n ≠ p := by rintro rfl; exact hno u m hu h
      rw [hmo n hnp]; exact hC.own u n m h
  · intro u w n m m' h h'
    by_cases hu : u = t <;> by_cases hw : w = t
    · rw [hu, hw]
    · subst hu; rw [hteq] at h; rw [hne w hw] at h'
      obtain ⟨rfl, _⟩ := h1 n m h
      exact absurd h' (hno w m' hw)
    · subst hw; rw [hteq] at h'; rw [hne u hu] at h
      obtain ⟨rfl, _⟩ := h1 n m' h'
      exact absurd h (hno u m hu)
    · rw [hne u hu] at h; rw [hne w hw] at h'; exact hC.uni u w n m m' h h'
  · intro n hn
    by_cases hnp : n = p
    · subst hnp
      have := h2 hn
      cases hq : pcMode q with
      | none => exact absurd hq this
      | some nm =>
        obtain ⟨n', m⟩ := nm
        obtain ⟨rfl, _⟩ := h1 n' m hq
        exact ⟨t, m, by rw [hteq]; exact hq⟩
    · rw [hmo n hnp] at hn
      obtain ⟨u, m, h⟩ := hC.cov n hn
      have hu : u ≠ t := by rintro rfl; exact hnp (h0 n m h)
      exact ⟨u, m, by rw [hne u hu]; exact h⟩
  · intro n
    by_cases hnp : n = p
    · subst hnp; exact hrc
    · rw [hrf n hnp, hmo n hnp, hcn n hnp]; exact hC.rc n
  · intro n hn
    by_cases hnp : n = p
    · subst hnp; exact hz hn
    · rw [hcn n hnp]; rw [hmo n hnp] at hn; exact hC.zer n hn
  · intro n hn
    by_cases hnp : n = p
    · subst hnp; exact hd hn
    · rw [hcn n hnp]; rw [hmo n hnp] at hn; exact hC.dfr n hn
  · intro u
    by_cases hu : u = t
    · subst hu; rw [hteq]; exact hk
    · rw [hne u hu]
      have hku := hC.kn u
      have hlt : s.pc u ≠ .idle → u < T := by
        intro h
        by_cases h' : u < T
        · exact h'
        · exact absurd (hC.bnd u (by omega)) h
      cases hx : s.pc u with
      | zRefs n h k =>
        have hnp : n ≠ p := by rintro rfl; exact hno u .zero hu (by simp [hx, pcMode])
        simp only [hx, Knows] at hku ⊢
        rw [hnx n hnp]; exact hku
      | zCas n h k =>
        have hnp : n ≠ p := by rintro rfl; exact hno u .one hu (by simp [hx, pcMode])
        simp only [hx, Knows] at hku ⊢
        rw [hnx n hnp]; exact hku
      | getCas n x =>
        simp only [hx, Knows] at hku ⊢
        by_cases hnp : n = p
        · subst hnp
          rcases hkp with h | h
          · rw [h]; exact hku
          · have := cnt_pos (pc := s.pc) (n := n) (hlt (by simp [hx])) (by simp [hx, holds])
            omega
        · rw [hnx n hnp]; exact hku
      | _ => simp only [hx, Knows] at hku ⊢; try exact hku
  · intro u hu
    rw [hne u (by omega)]
    exact hC.bnd u hu

theorem pcMode_moving {q : PC} {n : Nat} {m : Mode} (h : pcMode q = some (n, m)) :
    moving m = true := by
  unfold pcMode at h
  split at h
  all_goals first
    | (simp only [Option.some.injEq, Prod.mk.injEq] at h; rw [← h.2]; rfl)
    | simp at h

/-- Nobody has a node in hands which is not moving. -/
theorem no_owner {T : Nat} {s : St} {L : List Nat} (hC : Core T s L) {p : Nat}
    (h : moving (s.mode p) = false) (u : Nat) (m : Mode) : pcMode (s.pc u) ≠ some (p, m) := by
  intro hu
  have h1 := hC.own u p m hu
  have h2 := pcMode_moving hu
  rw [h1, h2] at h
  cases h

theorem other_owner {T : Nat} {s : St} {L : List Nat} (hC : Core T s L) {t p : Nat} {m : Mode}
    (h : pcMode (s.pc t) = some (p, m)) (u : Nat) (m' : Mode) (hu : u ≠ t) :
    pcMode (s.pc u) ≠ some (p, m') :=
  fun h' => hu (hC.uni u t p m' m h' h)

theorem lst_mark {T : Nat} {s : St} {L : List Nat} (hC : Core T s L) {p : Nat} {m : Mode}
    (h0 : s.mode p ≠ .listed) (h1 : m ≠ .listed) (n : Nat) :
    n ∈ L ↔ put s.mode p m n = .listed := by
  by_cases h : n = p
  · subst h; rw [hC.lst]; simp [h0, h1]
  · rw [put_ne _ _ h]; exact hC.lst n

theorem pcMode_resume (k : K) : pcMode k.resume = none := by
  cases k with
  | done => rfl
  | loop h => cases h <;> rfl

theorem holds_resume (k : K) (n : Nat) : holds k.resume n = false := by
  cases k with
  | done => rfl
  | loop h => cases h <;> rfl

theorem knows_resume (s : St) (k : K) : Knows s k.resume := by
  cases k with
  | done => trivial
  | loop h => cases h <;> trivial

theorem pcMode_test (h : Option Nat) : pcMode (test h) = none := by cases h <;> rfl
theorem holds_test (h : Option Nat) (n : Nat) : holds (test h) n = false := by cases h <;> rfl
theorem knows_test (s : St) (h : Option Nat) : Knows s (test h) := by cases h <;> trivial

/-- Thread `t` moves and keeps the references it has (none in its hands). -/
theorem core_move {T : Nat} {s : St} {L : List Nat} (hC : Core T s L) {t : Nat} {q : PC}
    (ht : t < T) (h0 : pcMode (s.pc t) = none) (h1 : pcMode q = none)
    (hb : ∀ n, holds q n = holds (s.pc t) n) (hk : Knows s q) : Core T (s.to t q) L := by
  have he : s.setRefs 0 (s.refs 0) = s := by
    have : put s.refs 0 (s.refs 0) = s.refs := by
      funext n
      by_cases h : n = 0
      · subst h; simp
      · simp [put, h]
    simp only [St.setRefs, this]
  have := core_hold hC (p := 0) (v := s.refs 0) ht h0 h1 (fun n _ => hb n) (by rw [hb 0])
    (by
      intro hz
      rw [hb 0]
      cases hx : holds (s.pc t) 0 with
      | false => rfl
      | true =>
        have h3 := cnt_pos ht hx
        have h4 := hC.zer 0 hz
        omega)
    (by intro _ h2 h3; rw [hb 0, h2] at h3; cases h3) hk
  rw [he] at this
  exact this

set_option linter.unusedSectionVars false

section
variable {T : Nat} {s : St} {L : List Nat} (hC : Core T s L) (hT : T < 2147483646) {t : Nat}
  (ht : t < T)
include hC hT ht

theorem core_addF {n : Nat} (hp : s.pc t = .addF n) : Core T (addF s t n) L := by
  have hpm : pcMode (s.pc t) = some (n, .mov) := by simp [hp, pcMode]
  have hm := hC.own t n .mov hpm
  have hrc := hC.rc n
  rw [hm] at hrc
  simp only [base] at hrc
  have hle := cnt_le s.pc n T
  have hcp : ∀ q, holds q n = false → cnt (put s.pc t q) n T = cnt s.pc n T := by
    intro q hq
    have := cnt_put s.pc n t q T ht
    rw [hq, hp] at this
    simpa [holds] using this
  have hne : s.mode n ≠ .listed := by rw [hm]; simp
  unfold addF
  split
  · rename_i h0
    refine core_own hC ht (p := n) (q := .zLoad n .done) rfl ?_ ?_ (fun _ _ => rfl)
      (fun u m hu => other_owner hC hpm u m hu) ?_ ?_ ?_ ?_ hC.chn hC.nd
      (fun x => lst_mark hC hne (by simp) x) ?_ ?_ ?_ trivial (Or.inl rfl)
    · intro x hx; simp [St.to, St.mark, St.setRefs, put, hx]
    · intro x hx; simp [St.to, St.mark, St.setRefs, put, hx]
    · intro x m h; rw [hpm] at h; simp at h; exact h.1.symm
    · intro x m h
      simp only [pcMode, Option.some.injEq, Prod.mk.injEq] at h
      exact ⟨h.1.symm, by simp [St.to, St.mark, h.2]⟩
    · intro _; simp [pcMode]
    · intro x _; simp [hp, holds]
    · simp only [St.to, St.mark, St.setRefs, put_same, base, w32, SHOULD]
      rw [hcp _ rfl]; omega
    · intro _
      simp only [St.to, St.mark, St.setRefs]
      rw [hcp _ rfl]; omega
    · intro h; simp [St.to, St.mark] at h
  · rename_i h0
    refine core_own hC ht (p := n) (q := .addRet) rfl ?_ ?_ (fun _ _ => rfl)
      (fun u m hu => other_owner hC hpm u m hu) ?_ ?_ ?_ ?_ hC.chn hC.nd
      (fun x => lst_mark hC hne (by simp) x) ?_ ?_ ?_ trivial (Or.inl rfl)
    · intro x hx; simp [St.to, St.mark, St.setRefs, put, hx]
    · intro x hx; simp [St.to, St.mark, St.setRefs, put, hx]
    · intro x m h; rw [hpm] at h; simp at h; exact h.1.symm
    · intro x m h; simp [pcMode] at h
    · simp [St.to, St.mark, moving]
    · intro x _; simp [hp, holds]
    · simp only [St.to, St.mark, St.setRefs, put_same, base, w32, SHOULD]
      rw [hcp _ rfl]; omega
    · intro h; simp [St.to, St.mark] at h
    · intro _
      simp only [St.to, St.mark, St.setRefs]
      rw [hcp _ rfl]; omega

theorem core_zLoad {n : Nat} {k : K} (hp : s.pc t = .zLoad n k) :
    Core T (s.to t (.zStore n s.head k)) L := by
  have hpm : pcMode (s.pc t) = some (n, .zero) := by simp [hp, pcMode]
  have hm := hC.own t n .zero hpm
  have hcp : ∀ x, cnt (put s.pc t (.zStore n s.head k)) x T = cnt s.pc x T := by
    intro x
    have := cnt_put s.pc x t (.zStore n s.head k) T ht
    rw [hp] at this
    simpa [holds] using this
  refine core_own hC ht (p := n) (q := .zStore n s.head k) rfl (fun _ _ => rfl) (fun _ _ => rfl)
    (fun _ _ => rfl) (fun u m hu => other_owner hC hpm u m hu) ?_ ?_ ?_ ?_ hC.chn hC.nd hC.lst
    ?_ ?_ ?_ trivial (Or.inl rfl)
  · intro x m h; rw [hpm] at h; simp at h; exact h.1.symm
  · intro x m h
    simp only [pcMode, Option.some.injEq, Prod.mk.injEq] at h
    exact ⟨h.1.symm, by rw [← h.2]; exact hm⟩
  · intro _; simp [pcMode]
  · intro x _; simp [hp, holds]
  · show s.refs n = base (s.mode n) + cnt (put s.pc t _) n T
    rw [hcp]; exact hC.rc n
  · intro h
    show cnt (put s.pc t _) n T = 0
    rw [hcp]; exact hC.zer n h
  · intro h
    show 1 ≤ cnt (put s.pc t _) n T
    rw [hcp]; exact hC.dfr n h

theorem core_zStore {n : Nat} {h : Option Nat} {k : K} (hp : s.pc t = .zStore n h k) :
    Core T ((s.link n h).to t (.zRefs n h k)) L := by
  have hpm : pcMode (s.pc t) = some (n, .zero) := by simp [hp, pcMode]
  have hm := hC.own t n .zero hpm
  have hcp : ∀ x, cnt (put s.pc t (.zRefs n h k)) x T = cnt s.pc x T := by
    intro x
    have := cnt_put s.pc x t (.zRefs n h k) T ht
    rw [hp] at this
    simpa [holds] using this
  have hnL : n ∉ L := by rw [hC.lst, hm]; simp
  refine core_own hC ht (p := n) (q := .zRefs n h k) rfl (fun _ _ => rfl) (fun _ _ => rfl)
    ?_ (fun u m hu => other_owner hC hpm u m hu) ?_ ?_ ?_ ?_ (chain_put hnL hC.chn) hC.nd hC.lst
    ?_ ?_ ?_ ?_ (Or.inr (hC.zer n hm))
  · intro x hx; simp [St.to, St.link, put, hx]
  · intro x m h; rw [hpm] at h; simp at h; exact h.1.symm
  · intro x m h
    simp only [pcMode, Option.some.injEq, Prod.mk.injEq] at h
    exact ⟨h.1.symm, by rw [← h.2]; exact hm⟩
  · intro _; simp [pcMode]
  · intro x _; simp [hp, holds]
  · show s.refs n = base (s.mode n) + cnt (put s.pc t _) n T
    rw [hcp]; exact hC.rc n
  · intro h
    show cnt (put s.pc t _) n T = 0
    rw [hcp]; exact hC.zer n h
  · intro h
    show 1 ≤ cnt (put s.pc t _) n T
    rw [hcp]; exact hC.dfr n h
  · simp [Knows, St.to, St.link]

theorem core_zRefs {n : Nat} {h : Option Nat} {k : K} (hp : s.pc t = .zRefs n h k) :
    Core T (((s.setRefs n 1).mark n .one).to t (.zCas n h k)) L := by
  have hpm : pcMode (s.pc t) = some (n, .zero) := by simp [hp, pcMode]
  have hm := hC.own t n .zero hpm
  have hcp : ∀ x, cnt (put s.pc t (.zCas n h k)) x T = cnt s.pc x T := by
    intro x
    have := cnt_put s.pc x t (.zCas n h k) T ht
    rw [hp] at this
    simpa [holds] using this
  have hk := hC.kn t
  simp only [hp, Knows] at hk
  refine core_own hC ht (p := n) (q := .zCas n h k) rfl ?_ ?_ (fun _ _ => rfl)
    (fun u m hu => other_owner hC hpm u m hu) ?_ ?_ ?_ ?_ hC.chn hC.nd
    (fun x => lst_mark hC (by rw [hm]; simp) (by simp) x) ?_ ?_ ?_ hk (Or.inl rfl)
  · intro x hx; simp [St.to, St.mark, St.setRefs, put, hx]
  · intro x hx; simp [St.to, St.mark, St.setRefs, put, hx]
  · intro x m h; rw [hpm] at h; simp at h; exact h.1.symm
  · intro x m h
    simp only [pcMode, Option.some.injEq, Prod.mk.injEq] at h
    exact ⟨h.1.symm, by simp [St.to, St.mark, h.2]⟩
  · intro _; simp [pcMode]
  · intro x _; simp [hp, holds]
  · simp only [St.to, St.mark, St.setRefs, put_same, base]
    rw [hcp, hC.zer n hm]
  · intro h; simp [St.to, St.mark] at h
  · intro h; simp [St.to, St.mark] at h

theorem core_zCas {n : Nat} {h : Option Nat} {k : K} (hp : s.pc t = .zCas n h k) :
    ∃ L', Core T (zCas s t n h k) L' := by
  have hpm : pcMode (s.pc t) = some (n, .one) := by simp [hp, pcMode]
  have hm := hC.own t n .one hpm
  have hk := hC.kn t
  simp only [hp, Knows] at hk
  have hcp : ∀ q, (∀ x, holds q x = false) → ∀ x, cnt (put s.pc t q) x T = cnt s.pc x T := by
    intro q hq x
    have := cnt_put s.pc x t q T ht
    rw [hp, hq] at this
    simpa [holds] using this
  have hrc := hC.rc n
  rw [hm] at hrc
  simp only [base] at hrc
  have hnL : n ∉ L := by rw [hC.lst, hm]; simp
  unfold zCas
  split
  · rename_i hh
    refine ⟨n :: L, core_own hC ht (p := n) (q := k.resume) rfl ?_ (fun _ _ => rfl)
      (fun _ _ => rfl) (fun u m hu => other_owner hC hpm u m hu) ?_ ?_ ?_ ?_ ?_
      (List.nodup_cons.2 ⟨hnL, hC.nd⟩) ?_ ?_ ?_ ?_ (knows_resume _ k) (Or.inl rfl)⟩
    · intro x hx; simp [St.to, St.mark, St.swing, put, hx]
    · intro x m h; rw [hpm] at h; simp at h; exact h.1.symm
    · intro x m h; rw [pcMode_resume] at h; cases h
    · simp [St.to, St.mark, moving]
    · intro x _; rw [holds_resume, hp]; rfl
    · refine ⟨rfl, ?_⟩
      show chain s.next (s.next n) L
      rw [hk, ← hh]; exact hC.chn
    · intro x
      by_cases hx : x = n
      · subst hx; simp [St.to, St.mark]
      · simp only [List.mem_cons, hx, false_or, St.to, St.mark, put_ne _ _ hx]
        exact hC.lst x
    · simp only [St.to, St.mark, St.swing, put_same, base]
      rw [hcp _ (holds_resume k)]; exact hrc
    · intro h; simp [St.to, St.mark] at h
    · intro h; simp [St.to, St.mark] at h
  · refine ⟨L, core_own hC ht (p := n) (q := .zBack n s.head k) rfl (fun _ _ => rfl)
      (fun _ _ => rfl)
      (fun _ _ => rfl) (fun u m hu => other_owner hC hpm u m hu) ?_ ?_ ?_ ?_ hC.chn hC.nd hC.lst
      ?_ ?_ ?_ trivial (Or.inl rfl)⟩
    · intro x m h; rw [hpm] at h; simp at h; exact h.1.symm
    · intro x m h
      simp only [pcMode, Option.some.injEq, Prod.mk.injEq] at h
      exact ⟨h.1.symm, by rw [← h.2]; exact hm⟩
    · intro _; simp [pcMode]
    · intro x _; simp [hp, holds]
    · show s.refs n = base (s.mode n) + cnt (put s.pc t _) n T
      rw [hcp _ (fun _ => rfl)]; exact hC.rc n
    · intro h
      show cnt (put s.pc t _) n T = 0
      rw [hcp _ (fun _ => rfl)]; exact hC.zer n h
    · intro h
      show 1 ≤ cnt (put s.pc t _) n T
      rw [hcp _ (fun _ => rfl)]; exact hC.dfr n h

theorem core_zBack {n : Nat} {h : Option Nat} {k : K} (hp : s.pc t = .zBack n h k) :
    Core T (zBack s t n h k) L := by
  have hpm : pcMode (s.pc t) = some (n, .one) := by simp [hp, pcMode]
  have hm := hC.own t n .one hpm
  have hcp : ∀ q, (∀ x, holds q x = false) → ∀ x, cnt (put s.pc t q) x T = cnt s.pc x T := by
    intro q hq x
    have := cnt_put s.pc x t q T ht
    rw [hp, hq] at this
    simpa [holds] using this
  have hrc := hC.rc n
  rw [hm] at hrc
  simp only [base] at hrc
  have hle := cnt_le s.pc n T
  have hne : s.mode n ≠ .listed := by rw [hm]; simp
  unfold zBack
  split
  · rename_i h0
    refine core_own hC ht (p := n) (q := .zStore n h k) rfl ?_ ?_ (fun _ _ => rfl)
      (fun u m hu => other_owner hC hpm u m hu) ?_ ?_ ?_ ?_ hC.chn hC.nd
      (fun x => lst_mark hC hne (by simp) x) ?_ ?_ ?_ trivial (Or.inl rfl)
    · intro x hx; simp [St.to, St.mark, St.setRefs, put, hx]
    · intro x hx; simp [St.to, St.mark, St.setRefs, put, hx]
    · intro x m h; rw [hpm] at h; simp at h; exact h.1.symm
    · intro x m h
      simp only [pcMode, Option.some.injEq, Prod.mk.injEq] at h
      exact ⟨h.1.symm, by simp [St.to, St.mark, h.2]⟩
    · intro _; simp [pcMode]
    · intro x _; simp [hp, holds]
    · simp only [St.to, St.mark, St.setRefs, put_same, base, w32, SHOULD]
      rw [hcp _ (fun _ => rfl)]; omega
    · intro _
      simp only [St.to, St.mark, St.setRefs]
      rw [hcp _ (fun _ => rfl)]; omega
    · intro h; simp [St.to, St.mark] at h
  · rename_i h0
    refine core_own hC ht (p := n) (q := k.resume) rfl ?_ ?_ (fun _ _ => rfl)
      (fun u m hu => other_owner hC hpm u m hu) ?_ ?_ ?_ ?_ hC.chn hC.nd
      (fun x => lst_mark hC hne (by simp) x) ?_ ?_ ?_ (knows_resume _ k) (Or.inl rfl)
    · intro x hx; simp [St.to, St.mark, St.setRefs, put, hx]
    · intro x hx; simp [St.to, St.mark, St.setRefs, put, hx]
    · intro x m h; rw [hpm] at h; simp at h; exact h.1.symm
    · intro x m h; rw [pcMode_resume] at h; cases h
    · simp [St.to, St.mark, moving]
    · intro x _; rw [holds_resume, hp]; rfl
    · simp only [St.to, St.mark, St.setRefs, put_same, base, w32, SHOULD]
      rw [hcp _ (holds_resume k)]; omega
    · intro h; simp [St.to, St.mark] at h
    · intro _
      simp only [St.to, St.mark, St.setRefs]
      rw [hcp _ (holds_resume k)]; omega

theorem core_getInc {p r : Nat} (hp : s.pc t = .getInc p r) : Core T (getInc s t p r) L := by
  have hk := hC.kn t
  simp only [hp, Knows] at hk
  have hle := cnt_le s.pc p T
  unfold getInc
  split
  · rename_i hr
    have hrc := hC.rc p
    have hb : base (s.mode p) ≤ SHOULD := by cases s.mode p <;> simp [base, SHOULD]
    have hlt : r + 1 < 4294967296 := by simp only [SHOULD] at hb; omega
    refine core_hold hC ht (by simp [hp, pcMode]) rfl ?_ ?_ ?_ ?_ trivial
    · intro n hn; simp only [hp, holds]; simp; exact Ne.symm hn
    · simp only [hp, holds, w32]; rw [Nat.mod_eq_of_lt hlt, hr]; simp
    · intro hz
      have h1 := hC.zer p hz
      rw [hz, h1] at hrc
      simp only [base] at hrc
      rw [hr] at hrc
      rw [hrc] at hk
      simp [SHOULD] at hk
    · intro _ h; simp [hp, holds] at h
  · exact core_move hC ht (by simp [hp, pcMode]) rfl (by intro n; simp [hp, holds]) trivial

theorem core_getCas {p : Nat} {nx : Option Nat} (hp : s.pc t = .getCas p nx) :
    ∃ L', Core T (getCas s t p nx) L' := by
  have hk := hC.kn t
  simp only [hp, Knows] at hk
  unfold getCas
  split
  · rename_i hh
    have hchn := hC.chn
    rw [hh] at hchn
    obtain ⟨L', rfl, hch⟩ := chain_some hchn
    have hm : s.mode p = .listed := (hC.lst p).1 (by simp)
    have hnd := List.nodup_cons.1 hC.nd
    have hcp : cnt (put s.pc t (.getAssert p)) p T = cnt s.pc p T := by
      have := cnt_put s.pc p t (.getAssert p) T ht
      rw [hp] at this
      simpa [holds] using this
    have hrc := hC.rc p
    rw [hm] at hrc
    simp only [base] at hrc
    refine ⟨L', core_own hC ht (p := p) (q := .getAssert p) rfl ?_ (fun _ _ => rfl)
      (fun _ _ => rfl) (fun u m _ => no_owner hC (by rw [hm]; rfl) u m) ?_ ?_ ?_ ?_ ?_
      hnd.2 ?_ ?_ ?_ ?_ trivial (Or.inl rfl)⟩
    · intro x hx; simp [St.to, St.mark, St.swing, put, hx]
    · intro x m h; simp [hp, pcMode] at h
    · intro x m h
      simp only [pcMode, Option.some.injEq, Prod.mk.injEq] at h
      exact ⟨h.1.symm, by simp [St.to, St.mark, h.2]⟩
    · intro _; simp [pcMode]
    · intro x hx; simp [hp, holds]
    · rw [hk] at hch; exact hch
    · intro x
      by_cases hx : x = p
      · subst hx; simp [St.to, St.mark, hnd.1]
      · simp only [St.to, St.mark, put_ne _ _ hx]
        have := hC.lst x
        simp only [List.mem_cons, hx, false_or] at this
        exact this
    · simp only [St.to, St.mark, St.swing, put_same, base]
      rw [hcp]; exact hrc
    · intro h; simp [St.to, St.mark] at h
    · intro h; simp [St.to, St.mark] at h
  · exact ⟨L, core_move hC ht (by simp [hp, pcMode]) rfl (by intro n; simp [hp, holds]) trivial⟩

theorem core_getAssert {p : Nat} (hp : s.pc t = .getAssert p) : Core T (getAssert s t p) L := by
  have hpm : pcMode (s.pc t) = some (p, .one) := by simp [hp, pcMode]
  have hm := hC.own t p .one hpm
  have hrc := hC.rc p
  rw [hm] at hrc
  simp only [base] at hrc
  have hle := cnt_le s.pc p T
  have hz : s.refs p / SHOULD = 0 := Nat.div_eq_of_lt (by simp only [SHOULD]; omega)
  unfold getAssert
  rw [if_pos (by rw [hz])]
  have hcp : ∀ x, cnt (put s.pc t (.getDec2 p)) x T = cnt s.pc x T := by
    intro x
    have := cnt_put s.pc x t (.getDec2 p) T ht
    rw [hp] at this
    simpa [holds] using this
  refine core_own hC ht (p := p) (q := .getDec2 p) rfl (fun _ _ => rfl) (fun _ _ => rfl)
    (fun _ _ => rfl) (fun u m hu => other_owner hC hpm u m hu) ?_ ?_ ?_ ?_ hC.chn hC.nd hC.lst
    ?_ ?_ ?_ trivial (Or.inl rfl)
  · intro x m h; rw [hpm] at h; simp at h; exact h.1.symm
  · intro x m h
    simp only [pcMode, Option.some.injEq, Prod.mk.injEq] at h
    exact ⟨h.1.symm, by rw [← h.2]; exact hm⟩
  · intro _; simp [pcMode]
  · intro x _; simp [hp, holds]
  · show s.refs p = base (s.mode p) + cnt (put s.pc t _) p T
    rw [hcp]; exact hC.rc p
  · intro h
    show cnt (put s.pc t _) p T = 0
    rw [hcp]; exact hC.zer p h
  · intro h
    show 1 ≤ cnt (put s.pc t _) p T
    rw [hcp]; exact hC.dfr p h

theorem core_getDec2 {p : Nat} (hp : s.pc t = .getDec2 p) : Core T (getDec2 s t p) L := by
  have hpm : pcMode (s.pc t) = some (p, .one) := by simp [hp, pcMode]
  have hm := hC.own t p .one hpm
  have hrc := hC.rc p
  rw [hm] at hrc
  simp only [base] at hrc
  have hle := cnt_le s.pc p T
  have hpos := cnt_pos (pc := s.pc) (n := p) ht (by simp [hp, holds])
  have hcp : cnt (put s.pc t (.getRet (some p))) p T + 1 = cnt s.pc p T := by
    have := cnt_put s.pc p t (.getRet (some p)) T ht
    rw [hp] at this
    simpa [holds] using this
  unfold getDec2
  refine core_own hC ht (p := p) (q := .getRet (some p)) rfl ?_ ?_ (fun _ _ => rfl)
    (fun u m hu => other_owner hC hpm u m hu) ?_ ?_ ?_ ?_ hC.chn hC.nd
    (fun x => lst_mark hC (by rw [hm]; simp) (by simp) x) ?_ ?_ ?_ trivial (Or.inl rfl)
  · intro x hx; simp [St.to, St.mark, St.setRefs, put, hx]
  · intro x hx; simp [St.to, St.mark, St.setRefs, put, hx]
  · intro x m h; rw [hpm] at h; simp at h; exact h.1.symm
  · intro x m h
    simp only [pcMode, Option.some.injEq, Prod.mk.injEq] at h
    exact ⟨h.1.symm, by simp [St.to, St.mark, h.2]⟩
  · intro _; simp [pcMode]
  · intro x hx; simp [hp, holds]; exact Ne.symm hx
  · simp only [St.to, St.mark, St.setRefs, put_same, base, w32]
    omega
  · intro h; simp [St.to, St.mark] at h
  · intro h; simp [St.to, St.mark] at h

theorem core_getDec1 {p : Nat} {h : Option Nat} (hp : s.pc t = .getDec1 p h) :
    Core T (getDec1 s t p h) L := by
  have hle := cnt_le s.pc p T
  have hpos := cnt_pos (pc := s.pc) (n := p) ht (by simp [hp, holds])
  have hrc := hC.rc p
  have hnz : s.mode p ≠ .zero := by intro hz; have := hC.zer p hz; omega
  unfold getDec1
  split
  · rename_i h1
    have hm : s.mode p = .defd := by
      cases hmm : s.mode p <;> rw [hmm] at hrc <;> simp only [base] at hrc
      case zero => exact absurd hmm hnz
      all_goals simp only [SHOULD] at h1 hrc; omega
    rw [hm] at hrc
    simp only [base] at hrc
    have hcp : cnt (put s.pc t (.zLoad p (.loop h))) p T + 1 = cnt s.pc p T := by
      have := cnt_put s.pc p t (.zLoad p (.loop h)) T ht
      rw [hp] at this
      simpa [holds] using this
    refine core_own hC ht (p := p) (q := .zLoad p (.loop h)) rfl ?_ ?_ (fun _ _ => rfl)
      (fun u m _ => no_owner hC (by rw [hm]; rfl) u m) ?_ ?_ ?_ ?_ hC.chn hC.nd
      (fun x => lst_mark hC (by rw [hm]; simp) (by simp) x) ?_ ?_ ?_ trivial (Or.inl rfl)
    · intro x hx; simp [St.to, St.mark, St.setRefs, put, hx]
    · intro x hx; simp [St.to, St.mark, St.setRefs, put, hx]
    · intro x m h; simp [hp, pcMode] at h
    · intro x m h
      simp only [pcMode, Option.some.injEq, Prod.mk.injEq] at h
      exact ⟨h.1.symm, by simp [St.to, St.mark, h.2]⟩
    · intro _; simp [pcMode]
    · intro x hx; simp [hp, holds]; exact Ne.symm hx
    · simp only [St.to, St.mark, St.setRefs, put_same, base, w32]
      simp only [SHOULD] at h1 hrc ⊢
      omega
    · intro _
      simp only [St.to, St.mark, St.setRefs]
      omega
    · intro h; simp [St.to, St.mark] at h
  · rename_i h1
    have hb : base (s.mode p) ≤ SHOULD := by cases s.mode p <;> simp [base, SHOULD]
    simp only [SHOULD] at hb
    have hv : w32 (s.refs p + 4294967295) + 1 = s.refs p := by
      simp only [w32]; omega
    refine core_hold hC ht (by simp [hp, pcMode]) (pcMode_test h) ?_ ?_ ?_ ?_ (knows_test s h)
    · intro n hn; rw [holds_test, hp]; simp [holds]; exact Ne.symm hn
    · rw [holds_test, hp]; simp [holds]; exact hv
    · intro _; exact holds_test h p
    · intro hd _ _ hc
      rw [hd, hc] at hrc
      exact h1 hrc
end

theorem core_callAdd {T : Nat} {s : St} {L : List Nat} (hC : Core T s L) {t n : Nat} (ht : t < T)
    (hp : s.pc t = .idle) (ho : s.mode n = .out) : Core T ((s.mark n .mov).to t (.addF n)) L := by
  have hcp : ∀ x, cnt (put s.pc t (.addF n)) x T = cnt s.pc x T := by
    intro x
    have := cnt_put s.pc x t (.addF n) T ht
    rw [hp] at this
    simpa [holds] using this
  have hrc := hC.rc n
  rw [ho] at hrc
  refine core_own hC ht (p := n) (q := .addF n) rfl ?_ (fun _ _ => rfl) (fun _ _ => rfl)
    (fun u m _ => no_owner hC (by rw [ho]; rfl) u m) ?_ ?_ ?_ ?_ hC.chn hC.nd
    (fun x => lst_mark hC (by rw [ho]; simp) (by simp) x) ?_ ?_ ?_ trivial (Or.inl rfl)
  · intro x hx; simp [St.to, St.mark, put, hx]
  · intro x m h; simp [hp, pcMode] at h
  · intro x m h
    simp only [pcMode, Option.some.injEq, Prod.mk.injEq] at h
    exact ⟨h.1.symm, by simp [St.to, St.mark, h.2]⟩
  · intro _; simp [pcMode]
  · intro x _; simp [hp, holds]
  · simp only [St.to, St.mark, put_same, hcp]
    exact hrc
  · intro h; simp [St.to, St.mark] at h
  · intro h; simp [St.to, St.mark] at h

theorem core_retGet {T : Nat} {s : St} {L : List Nat} (hC : Core T s L) {t n : Nat} (ht : t < T)
    (hp : s.pc t = .getRet (some n)) : Core T ((s.mark n .out).to t .idle) L := by
  have hpm : pcMode (s.pc t) = some (n, .mov) := by simp [hp, pcMode]
  have hm := hC.own t n .mov hpm
  have hcp : ∀ x, cnt (put s.pc t .idle) x T = cnt s.pc x T := by
    intro x
    have := cnt_put s.pc x t .idle T ht
    rw [hp] at this
    simpa [holds] using this
  have hrc := hC.rc n
  rw [hm] at hrc
  refine core_own hC ht (p := n) (q := .idle) rfl ?_ (fun _ _ => rfl) (fun _ _ => rfl)
    (fun u m hu => other_owner hC hpm u m hu) ?_ ?_ ?_ ?_ hC.chn hC.nd
    (fun x => lst_mark hC (by rw [hm]; simp) (by simp) x) ?_ ?_ ?_ trivial (Or.inl rfl)
  · intro x hx; simp [St.to, St.mark, put, hx]
  · intro x m h; rw [hpm] at h; simp at h; exact h.1.symm
  · intro x m h; simp [pcMode] at h
  · simp [St.to, St.mark, moving]
  · intro x _; simp [hp, holds]
  · simp only [St.to, St.mark, put_same, hcp]
    exact hrc
  · intro h; simp [St.to, St.mark] at h
  · intro h; simp [St.to, St.mark] at h

theorem core_step {T : Nat} (hT : T < 2147483646) {s s' : St} {l : Lab} {L : List Nat}
    (hC : Core T s L) (hs : step T s l = some s') : ∃ L', Core T s' L' := by
  cases l with
  | call t op =>
    simp only [step] at hs
    split at hs
    case isFalse => simp at hs
    rename_i hp
    cases op with
    | add n =>
      simp only [call] at hs
      split at hs
      case isFalse => simp at hs
      rename_i ho
      cases hs
      exact ⟨L, core_callAdd hC hp.1 hp.2 ho⟩
    | get =>
      simp only [call] at hs
      cases hs
      exact ⟨L, core_move hC hp.1 (by simp [hp.2, pcMode]) rfl (by simp [hp.2, holds]) trivial⟩
  | ret t =>
    simp only [step] at hs
    split at hs
    case isFalse => simp at hs
    rename_i ht
    cases hp : s.pc t with
    | addRet =>
      simp only [hp, ret, Option.some.injEq] at hs
      subst hs
      exact ⟨L, core_move hC ht (by simp [hp, pcMode]) rfl (by simp [hp, holds]) trivial⟩
    | getRet r =>
      cases r with
      | none =>
        simp only [hp, ret, Option.some.injEq] at hs
        subst hs
        exact ⟨L, core_move hC ht (by simp [hp, pcMode]) rfl (by simp [hp, holds]) trivial⟩
      | some n =>
        simp only [hp, ret, Option.some.injEq] at hs
        subst hs
        exact ⟨L, core_retGet hC ht hp⟩
    | _ => simp [hp, ret] at hs
  | go t =>
    simp only [step] at hs
    split at hs
    case isFalse => simp at hs
    rename_i ht
    cases hp : s.pc t with
    | addF n => simp only [hp, go, Option.some.injEq] at hs; subst hs; exact ⟨L, core_addF hC hT ht hp⟩
    | zLoad n k => simp only [hp, go, Option.some.injEq] at hs; subst hs; exact ⟨L, core_zLoad hC hT ht hp⟩
    | zStore n h k =>
      simp only [hp, go, Option.some.injEq] at hs; subst hs; exact ⟨L, core_zStore hC hT ht hp⟩
    | zRefs n h k =>
      simp only [hp, go, Option.some.injEq] at hs; subst hs; exact ⟨L, core_zRefs hC hT ht hp⟩
    | zCas n h k => simp only [hp, go, Option.some.injEq] at hs; subst hs; exact core_zCas hC hT ht hp
    | zBack n h k =>
      simp only [hp, go, Option.some.injEq] at hs; subst hs; exact ⟨L, core_zBack hC hT ht hp⟩
    | getLoad =>
      simp only [hp, go, Option.some.injEq] at hs; subst hs
      exact ⟨L, core_move hC ht (by simp [hp, pcMode]) (pcMode_test _)
        (by intro n; rw [holds_test, hp]; rfl) (knows_test _ _)⟩
    | getRefs p =>
      simp only [hp, go, Option.some.injEq] at hs; subst hs
      unfold getRefs
      split
      · exact ⟨L, core_move hC ht (by simp [hp, pcMode]) rfl (by simp [hp, holds]) trivial⟩
      · rename_i h
        exact ⟨L, core_move hC ht (by simp [hp, pcMode]) rfl (by simp [hp, holds]) h⟩
    | getInc p r =>
      simp only [hp, go, Option.some.injEq] at hs; subst hs; exact ⟨L, core_getInc hC hT ht hp⟩
    | getNext p =>
      simp only [hp, go, Option.some.injEq] at hs; subst hs
      exact ⟨L, core_move hC ht (by simp [hp, pcMode]) rfl (by simp [hp, holds]) rfl⟩
    | getCas p nx =>
      simp only [hp, go, Option.some.injEq] at hs; subst hs; exact core_getCas hC hT ht hp
    | getAssert p =>
      simp only [hp, go, Option.some.injEq] at hs; subst hs; exact ⟨L, core_getAssert hC hT ht hp⟩
    | getDec2 p =>
      simp only [hp, go, Option.some.injEq] at hs; subst hs; exact ⟨L, core_getDec2 hC hT ht hp⟩
    | getDec1 p h =>
      simp only [hp, go, Option.some.injEq] at hs; subst hs; exact ⟨L, core_getDec1 hC hT ht hp⟩
    | _ => simp [hp, go] at hs

/-- States reachable with `T` threads. -/
abbrev R (T : Nat) (s : St) : Prop := Reach (step T) init s

theorem core_reach {T : Nat} (hT : T < 2147483646) {s : St} (h : R T s) : ∃ L, Core T s L :=
  inv_reach (I := fun x => ∃ L, Core T x L) ⟨[], core_init T⟩
    (fun _ _ _ ⟨_, hC⟩ hs => core_step hT hC hs) h

/-- The node a thread is about to hand out, or is putting back. -/
def inHands (s : St) (t n : Nat) : Prop := ∃ m, pcMode (s.pc t) = some (n, m)

/-- **C82.** No node is handed out twice: a node that `try_get` is returning is owned by no user,
is not on the list, and is in no other thread's hands. -/
theorem c82_no_double {T : Nat} (hT : T < 2 ^ 31 - 2) {s : St} (h : R T s) {t n : Nat}
    (ht : s.pc t = .getRet (some n)) :
    s.mode n ≠ .out ∧ (∀ u, u ≠ t → ¬ inHands s u n) ∧
    ∀ L, chain s.next s.head L → n ∉ L := by
  obtain ⟨L, hC⟩ := core_reach (by simpa using hT) h
  have hpm : pcMode (s.pc t) = some (n, .mov) := by simp [ht, pcMode]
  have hm := hC.own t n .mov hpm
  refine ⟨by rw [hm]; simp, fun u hu ⟨m, hx⟩ => other_owner hC hpm u m hu hx, ?_⟩
  intro M hM
  rw [chain_unique hM hC.chn, hC.lst, hm]
  simp

/-- **C82.** No node is lost: when no operation is running, following the list from its head ends,
visits no node twice, and visits exactly the nodes that the users do not own; and all reference
counts are back to what they were (one on the list, zero off it). -/
theorem c82_no_loss {T : Nat} (hT : T < 2 ^ 31 - 2) {s : St} (h : R T s)
    (hq : ∀ t, s.pc t = .idle) :
    ∃ L, chain s.next s.head L ∧ L.Nodup ∧ (∀ n, n ∈ L ↔ s.mode n ≠ .out) ∧
      ∀ n, s.refs n = if n ∈ L then 1 else 0 := by
  obtain ⟨L, hC⟩ := core_reach (by simpa using hT) h
  have hc : ∀ n, cnt s.pc n T = 0 := fun n => cnt_zero (fun t _ => by rw [hq]; rfl)
  have hm : ∀ n, s.mode n = .out ∨ s.mode n = .listed := by
    intro n
    have hmv : moving (s.mode n) = false := by
      cases hx : moving (s.mode n) with
      | false => rfl
      | true => obtain ⟨t, m, h'⟩ := hC.cov n hx; rw [hq] at h'; cases h'
    have hdf : s.mode n ≠ .defd := by intro hd; have := hC.dfr n hd; rw [hc] at this; omega
    cases hx : s.mode n <;> simp_all [moving]
  refine ⟨L, hC.chn, hC.nd, fun n => ?_, fun n => ?_⟩
  · rw [hC.lst]; rcases hm n with h' | h' <;> simp [h']
  · rw [hC.rc n, hc n]
    rcases hm n with h' | h'
    · have : n ∉ L := by rw [hC.lst, h']; simp
      rw [h', if_neg this]; rfl
    · have : n ∈ L := by rw [hC.lst, h']
      rw [h', if_pos this]; rfl

/-- **C82.** While operations run, every node that no user owns is on the list, or in the hands of
exactly one operation, or waits for a running `try_get` that will put it on the list; a waiting node
always has such a `try_get`. -/
theorem c82_accounted {T : Nat} (hT : T < 2 ^ 31 - 2) {s : St} (h : R T s) :
    ∃ L, chain s.next s.head L ∧ L.Nodup ∧ ∀ n, s.mode n ≠ .out →
      n ∈ L ∨ (∃ t, inHands s t n) ∨ ∃ t, holds (s.pc t) n = true := by
  obtain ⟨L, hC⟩ := core_reach (by simpa using hT) h
  refine ⟨L, hC.chn, hC.nd, fun n hn => ?_⟩
  cases hx : s.mode n with
  | out => exact absurd hx hn
  | listed => exact Or.inl ((hC.lst n).2 hx)
  | defd =>
    refine Or.inr (Or.inr ?_)
    by_cases hh : ∃ t, holds (s.pc t) n = true
    · exact hh
    · have : cnt s.pc n T = 0 := cnt_zero (fun t _ => by
        cases hb : holds (s.pc t) n with
        | false => rfl
        | true => exact absurd ⟨t, hb⟩ hh)
      have := hC.dfr n hx
      omega
  | mov => obtain ⟨t, m, h'⟩ := hC.cov n (by rw [hx]; rfl); exact Or.inr (Or.inl ⟨t, m, h'⟩)
  | zero => obtain ⟨t, m, h'⟩ := hC.cov n (by rw [hx]; rfl); exact Or.inr (Or.inl ⟨t, m, h'⟩)
  | one => obtain ⟨t, m, h'⟩ := hC.cov n (by rw [hx]; rfl); exact Or.inr (Or.inl ⟨t, m, h'⟩)

/-- **C82.** The assertion in `try_get` never fails. -/
theorem c82_no_abort {T : Nat} (hT : T < 2 ^ 31 - 2) {s : St} (h : R T s) (t : Nat) :
    s.pc t ≠ .abort := by
  obtain ⟨L, hC⟩ := core_reach (by simpa using hT) h
  intro ht
  have := hC.kn t
  simp [ht, Knows] at this

/-- Thread 0 looks at node 5 (and holds a reference) while thread 1 takes it, and puts it back. -/
def wSched : List Lab :=
  [.call 0 (.add 5), .go 0, .go 0, .go 0, .go 0, .go 0, .ret 0,
   .call 0 .get, .go 0, .go 0, .go 0, .go 0,
   .call 1 .get, .go 1, .go 1, .go 1, .go 1, .go 1, .go 1, .go 1, .ret 1,
   .call 1 (.add 5), .go 1, .ret 1]

/-- **C82, violation.** `add` may return with the node not on the list: here thread 1 adds node 5
and its own next `try_get` returns a null pointer although nobody has taken the node. -/
theorem c82_added_not_found :
    ((runs (step 2) init (wSched ++ [.call 1 .get, .go 1])).map
      fun s => (s.pc 1, s.mode 5, s.head)) = some (.getRet none, .defd, none) := by decide

/-- The hypotheses of C82 are met: continuing that schedule, thread 0 gives up its reference and so
puts node 5 back on the list, finds the list empty in its old copy of the head and returns; at the
end all threads are idle, node 5 is on the list with one reference. -/
theorem w_c82 :
    ((runs (step 2) init (wSched ++ [.go 0, .go 0, .go 0, .go 0, .go 0, .go 0])).map
      fun s => (s.pc 0, s.head, s.mode 5, s.refs 5))
        = some (.getRet none, some 5, .listed, 1) ∧
    ((runs (step 2) init (wSched ++ [.go 0, .go 0, .go 0, .go 0, .go 0, .go 0, .ret 0])).map
      fun s => (s.pc 0, s.pc 1, s.refs 5)) = some (.idle, .idle, 1) ∧
    ((runs (step 2) init (wSched.take 20)).map fun s => (s.pc 1, s.refs 5))
      = some (.getRet (some 5), 1) := by decide

end Ltio.Sync.RefList
