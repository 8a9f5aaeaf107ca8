/-
C207, C208: `base::StrError` (base/utils/sys_error.cc:28-62), the description of an error number, called from any number of
threads.  All calls share one static buffer.

The C library is glibc: for error numbers it knows, `strerror_r` gives an unchanging text and does not touch the buffer;
for others it writes "Unknown error N" into it (strerror_r(3)); that text fits.  One step writes or reads one byte; C++
calls such overlapping accesses undefined, so the interleavings are what happens at best.
-/
namespace Ltio.Text.StrError

abbrev Str := List Char

/-- The library's texts: of known error numbers, and what it writes for the others. -/
structure Lib where
  known : Int → Option Str
  unknown : Int → Str
  clean : ∀ n, Char.ofNat 0 ∉ unknown n

def nul : Char := Char.ofNat 0

/-! ### The program -/

/-- Where a call is (sys_error.cc:32-62). -/
inductive Phase where
  | start (n : Int)
  | cleared (n : Int)
  | writing (n : Int) (k : Nat)
  | reading (n : Int) (k : Nat) (acc : Str)
  | done (n : Int) (r : Str)
deriving DecidableEq

/-- The static buffer (line 38) and the calls, one per thread. -/
structure St where
  buf : Nat → Char
  calls : Nat → Phase

def setBuf (b : Nat → Char) (k : Nat) (c : Char) : Nat → Char := fun j => if j = k then c else b j

/-- One step of a call: the buffer and where the call is afterwards. -/
def stepCall (l : Lib) (b : Nat → Char) : Phase → (Nat → Char) × Phase
  | .start n => if n = 0 then (b, .done n []) else (setBuf b 0 nul, .cleared n)
  | .cleared n => match l.known n with
    | some t => (b, .done n t)
    | none => (b, .writing n 0)
  | .writing n k => match (l.unknown n)[k]? with
    | some c => (setBuf b k c, .writing n (k + 1))
    | none => (setBuf b k nul, .reading n 0 [])
  | .reading n k acc => if b k = nul then (b, .done n acc) else (b, .reading n (k + 1) (acc ++ [b k]))
  | .done n r => (b, .done n r)

def step (l : Lib) (s : St) (i : Nat) : St :=
  let x := stepCall l s.buf (s.calls i)
  ⟨x.1, fun j => if j = i then x.2 else s.calls j⟩

/-- The threads take steps in any order. -/
def run (l : Lib) (s : St) (sched : List Nat) : St := sched.foldl (step l) s

/-! ### Specification -/

/-- The description of an error number. -/
def describe (l : Lib) (n : Int) : Str := if n = 0 then [] else (l.known n).getD (l.unknown n)

def Phase.num : Phase → Int
  | .start n | .cleared n | .writing n _ | .reading n _ _ | .done n _ => n

/-- In the middle of a call. -/
def Phase.busy : Phase → Bool
  | .start _ | .done .. => false
  | _ => true

/-- All calls are at their beginning. -/
def Fresh (s : St) : Prop := ∀ i, ∃ n, s.calls i = .start n

/-- No call begins while another is under way. -/
def Serial (l : Lib) : St → List Nat → Prop
  | _, [] => True
  | s, i :: is => (∀ j, j ≠ i → (s.calls j).busy = false) ∧ Serial l (step l s i) is

/-! ### Proofs -/

theorem step_num (l : Lib) (b : Nat → Char) (p : Phase) : (stepCall l b p).2.num = p.num := by
  cases p with
  | start n => simp only [stepCall]; split <;> rfl
  | cleared n => simp only [stepCall]; split <;> rfl
  | writing n k => simp only [stepCall]; split <;> rfl
  | reading n k acc => simp only [stepCall]; split <;> rfl
  | done n r => rfl

/-- A call for a number that is zero or known. -/
def Good (l : Lib) : Phase → Prop
  | .start _ => True
  | .cleared n => n ≠ 0
  | .writing n _ => n ≠ 0 ∧ l.known n = none
  | .reading n _ _ => n ≠ 0 ∧ l.known n = none
  | .done n r => (n = 0 ∨ l.known n ≠ none) → r = describe l n

theorem good_step (l : Lib) (b : Nat → Char) (p : Phase) (h : Good l p) : Good l (stepCall l b p).2 := by
  cases p with
  | start n =>
    simp only [stepCall]
    split
    · rename_i h0; intro _; simp [describe, h0]
    · rename_i h0; exact h0
  | cleared n =>
    simp only [stepCall]
    split
    · rename_i t ht
      intro _
      have : n ≠ 0 := h
      simp [describe, this, ht]
    · rename_i ht; exact ⟨h, ht⟩
  | writing n k => simp only [stepCall]; split <;> exact h
  | reading n k acc =>
    simp only [stepCall]
    split
    · intro hc
      rcases hc with hc | hc
      · exact absurd hc h.1
      · exact absurd h.2 hc
    · exact h
  | done n r => exact h

/-- **C208: known errors are always described rightly.**  However the threads' steps are mixed, a call for zero or for an error the library knows
that has ended gave that error's description. -/
theorem c208_known (l : Lib) (s : St) (hs : Fresh s) (sched : List Nat) (i : Nat) (n : Int) (r : Str)
    (h : (run l s sched).calls i = .done n r) (hn : n = 0 ∨ l.known n ≠ none) : r = describe l n := by
  have key : ∀ (sched : List Nat) (s : St), (∀ i, Good l (s.calls i)) → ∀ i, Good l ((run l s sched).calls i) := by
    intro sched
    induction sched with
    | nil => intro s h; exact h
    | cons j js ih =>
      intro s h
      refine ih (step l s j) (fun i => ?_)
      show Good l (if i = j then _ else s.calls i)
      split
      · exact good_step l _ _ (h j)
      · exact h i
  have := key sched s (fun i => by obtain ⟨m, hm⟩ := hs i; rw [hm]; exact trivial) i
  rw [h] at this
  exact this hn

/-- What holds of a call that has the buffer to itself. -/
def Own (l : Lib) (b : Nat → Char) : Phase → Prop
  | .start _ => True
  | .cleared n => n ≠ 0
  | .writing n k => n ≠ 0 ∧ l.known n = none ∧ k ≤ (l.unknown n).length ∧ ∀ j, j < k → (l.unknown n)[j]? = some (b j)
  | .reading n k acc => n ≠ 0 ∧ l.known n = none ∧ k ≤ (l.unknown n).length ∧ acc = (l.unknown n).take k ∧
      (∀ j, j < (l.unknown n).length → (l.unknown n)[j]? = some (b j)) ∧ b (l.unknown n).length = nul
  | .done n r => r = describe l n

theorem own_step (l : Lib) (b : Nat → Char) (p : Phase) (h : Own l b p) : Own l (stepCall l b p).1 (stepCall l b p).2 := by
  cases p with
  | start n =>
    simp only [stepCall]
    split
    · rename_i h0; simp [Own, describe, h0]
    · rename_i h0; exact h0
  | cleared n =>
    simp only [stepCall]
    have hn : n ≠ 0 := h
    split
    · rename_i t ht; simp [Own, describe, hn, ht]
    · rename_i ht; exact ⟨hn, ht, Nat.zero_le _, fun j hj => absurd hj (by omega)⟩
  | writing n k =>
    obtain ⟨h1, h2, h3, h4⟩ := h
    simp only [stepCall]
    split
    · rename_i c hc
      have hk : k < (l.unknown n).length := by
        rcases Nat.lt_or_ge k (l.unknown n).length with hk | hk
        · exact hk
        · rw [List.getElem?_eq_none hk] at hc; exact absurd hc (by simp)
      refine ⟨h1, h2, hk, fun j hj => ?_⟩
      simp only [setBuf]
      by_cases hjk : j = k
      · rw [if_pos hjk, hjk]; exact hc
      · rw [if_neg hjk]; exact h4 j (by omega)
    · rename_i hc
      have hk : k = (l.unknown n).length := by
        have := List.getElem?_eq_none_iff.1 hc
        omega
      refine ⟨h1, h2, Nat.zero_le _, by simp, fun j hj => ?_, ?_⟩
      · simp only [setBuf]
        rw [if_neg (by omega)]
        exact h4 j (by omega)
      · simp only [setBuf]
        rw [if_pos hk.symm]
  | reading n k acc =>
    obtain ⟨h1, h2, h3, h4, h5, h6⟩ := h
    simp only [stepCall]
    split
    · rename_i hb
      show acc = describe l n
      have hk : k = (l.unknown n).length := by
        rcases Nat.lt_or_ge k (l.unknown n).length with hk | hk
        · have := h5 k hk
          rw [hb] at this
          exact absurd (List.mem_of_getElem? this) (l.clean n)
        · omega
      rw [h4, hk, List.take_length]
      simp [describe, h1, h2]
    · rename_i hb
      have hk : k < (l.unknown n).length := by
        rcases Nat.lt_or_ge k (l.unknown n).length with hk | hk
        · exact hk
        · exact absurd (by rw [show k = (l.unknown n).length by omega]; exact h6) hb
      refine ⟨h1, h2, hk, ?_, h5, h6⟩
      have := h5 k hk
      rw [h4, List.take_add_one, this]
      rfl
  | done n r => exact h

/-- Calls that are not under way do not depend on the buffer. -/
theorem own_idle (l : Lib) (b b' : Nat → Char) (p : Phase) (hp : p.busy = false) (h : Own l b p) : Own l b' p := by
  cases p with
  | start n => exact trivial
  | done n r => exact h
  | cleared n => exact absurd hp (by simp [Phase.busy])
  | writing n k => exact absurd hp (by simp [Phase.busy])
  | reading n k a => exact absurd hp (by simp [Phase.busy])

/-- **C208: calls one after the other are right.**  If no call begins while another is under way, every call that has ended gave the description of
its error, known or not. -/
theorem c208_serial (l : Lib) (s : St) (hs : Fresh s) (sched : List Nat) (hser : Serial l s sched) (i : Nat) (n : Int) (r : Str)
    (h : (run l s sched).calls i = .done n r) : r = describe l n := by
  have key : ∀ (sched : List Nat) (s : St), (∀ i, Own l s.buf (s.calls i)) → Serial l s sched →
      ∀ i, Own l (run l s sched).buf ((run l s sched).calls i) := by
    intro sched
    induction sched with
    | nil => intro s h _; exact h
    | cons j js ih =>
      intro s h hser
      refine ih (step l s j) (fun i => ?_) hser.2
      show Own l _ (if i = j then _ else s.calls i)
      split
      · exact own_step l _ _ (h j)
      · rename_i hij
        exact own_idle l s.buf _ _ (hser.1 i hij) (h i)
  have := key sched s (fun i => by obtain ⟨m, hm⟩ := hs i; rw [hm]; exact trivial) hser i
  rw [h] at this
  exact this

/-- How far a call is from its end. -/
def left (l : Lib) : Phase → Nat
  | .start n => 2 * (l.unknown n).length + 5
  | .cleared n => 2 * (l.unknown n).length + 4
  | .writing n k => 2 * (l.unknown n).length - k + 3
  | .reading n k _ => (l.unknown n).length - k + 1
  | .done .. => 0

theorem left_step (l : Lib) (b : Nat → Char) (p : Phase) (h : Own l b p) (hp : ∀ n r, p ≠ .done n r) :
    left l (stepCall l b p).2 < left l p := by
  cases p with
  | start n => simp only [stepCall]; split <;> simp [left]
  | cleared n => simp only [stepCall]; split <;> simp [left]
  | writing n k =>
    have hk : k ≤ (l.unknown n).length := h.2.2.1
    simp only [stepCall]
    split
    · rename_i c hc
      have : k < (l.unknown n).length := by
        rcases Nat.lt_or_ge k (l.unknown n).length with hk | hk
        · exact hk
        · rw [List.getElem?_eq_none hk] at hc; exact absurd hc (by simp)
      simp only [left]
      omega
    · simp only [left]; omega
  | reading n k acc =>
    obtain ⟨h1, h2, h3, h4, h5, h6⟩ := h
    simp only [stepCall]
    split
    · simp [left]
    · rename_i hb
      have hk : k < (l.unknown n).length := by
        rcases Nat.lt_or_ge k (l.unknown n).length with hk | hk
        · exact hk
        · exact absurd (by rw [show k = (l.unknown n).length by omega]; exact h6) hb
      simp only [left]
      omega
  | done n r => exact absurd rfl (hp n r)

/-- **C208: a call left to itself ends.**  With the description of its error. -/
theorem c208_ends (l : Lib) (s : St) (i : Nat) (n : Int) (h : s.calls i = .start n) :
    ∃ k, (run l s (List.replicate k i)).calls i = .done n (describe l n) := by
  have key : ∀ (m : Nat) (s : St), left l (s.calls i) ≤ m → Own l s.buf (s.calls i) → (s.calls i).num = n →
      ∃ k, (run l s (List.replicate k i)).calls i = .done n (describe l n) := by
    intro m
    induction m with
    | zero =>
      intro s hm ho hn
      cases hp : s.calls i with
      | done n' r =>
        rw [hp] at ho hn
        have hn' : n' = n := hn
        have ho' : r = describe l n' := ho
        exact ⟨0, by rw [← hn', ← ho']; exact hp⟩
      | _ => rw [hp] at hm; simp [left] at hm
    | succ m ih =>
      intro s hm ho hn
      by_cases hd : ∃ n' r, s.calls i = .done n' r
      · obtain ⟨n', r, hp⟩ := hd
        rw [hp] at ho hn
        have hn' : n' = n := hn
        have ho' : r = describe l n' := ho
        exact ⟨0, by rw [← hn', ← ho']; exact hp⟩
      · have hc : (step l s i).calls i = (stepCall l s.buf (s.calls i)).2 := if_pos rfl
        obtain ⟨k, hk⟩ := ih (step l s i)
          (by
            rw [hc]
            have := left_step l s.buf (s.calls i) ho (fun n' r e => hd ⟨n', r, e⟩)
            omega)
          (by rw [hc]; exact own_step l s.buf _ ho)
          (by rw [hc, step_num]; exact hn)
        exact ⟨k + 1, hk⟩
  exact key _ s (Nat.le_refl _) (by rw [h]; exact trivial) (by rw [h]; rfl)

/-- The call with all its text written. -/
theorem write_all (l : Lib) (i : Nat) (n : Int) : ∀ (d : Nat) (s : St) (k : Nat), s.calls i = .writing n k → (l.unknown n).length - k = d →
    k ≤ (l.unknown n).length → ∃ m, (run l s (List.replicate m i)).calls i = .reading n 0 [] ∧
      ∀ j, j ≠ i → (run l s (List.replicate m i)).calls j = s.calls j := by
  intro d
  induction d with
  | zero =>
    intro s k h hd hk
    refine ⟨1, ?_, fun j hj => if_neg hj⟩
    show (if i = i then _ else _) = _
    rw [if_pos rfl, h]
    simp only [stepCall]
    rw [List.getElem?_eq_none (by omega)]
  | succ d ih =>
    intro s k h hd hk
    have hc : (step l s i).calls i = .writing n (k + 1) := by
      show (if i = i then _ else _) = _
      rw [if_pos rfl, h]
      simp only [stepCall]
      rw [List.getElem?_eq_getElem (by omega)]
    obtain ⟨m, h1, h2⟩ := ih (step l s i) (k + 1) hc (by omega) (by omega)
    exact ⟨m + 1, h1, fun j hj => (h2 j hj).trans (if_neg hj)⟩

/-- **C207, violation.**  A call for any error the library does not know, beside a call for any other error in another thread: there is an order of
their steps in which it gives nothing. -/
theorem c207_overlap_violated (l : Lib) (s : St) (i j : Nat) (hij : j ≠ i) (n m : Int) (hi : s.calls i = .start n) (hj : s.calls j = .start m)
    (hn : n ≠ 0) (hm : m ≠ 0) (hu : l.known n = none) (ht : l.unknown n ≠ []) :
    ∃ sched, (run l s sched).calls i = .done n [] ∧ describe l n ≠ [] := by
  have happ : ∀ (a b : List Nat) (s : St), run l s (a ++ b) = run l (run l s a) b := fun a b s => List.foldl_append
  have h2 : (run l s [i, i]).calls i = .writing n 0 := by
    have e1 : (step l s i).calls i = .cleared n := by
      show (if i = i then _ else _) = _
      rw [if_pos rfl, hi]; simp only [stepCall]; rw [if_neg hn]
    show (if i = i then _ else _) = _
    rw [if_pos rfl, e1]; simp only [stepCall]; rw [hu]
  have h2j : (run l s [i, i]).calls j = .start m := by
    show (if j = i then _ else if j = i then _ else s.calls j) = _
    rw [if_neg hij, if_neg hij, hj]
  obtain ⟨k, h3, h4⟩ := write_all l i n _ (run l s [i, i]) 0 h2 rfl (Nat.zero_le _)
  let u := run l (run l s [i, i]) (List.replicate k i)
  have hju : u.calls j = .start m := (h4 j hij).trans h2j
  have hb : (step l u j).buf 0 = nul := by
    show (stepCall l u.buf (u.calls j)).1 0 = nul
    rw [hju]; simp only [stepCall]; rw [if_neg hm]
    show setBuf u.buf 0 nul 0 = nul
    exact if_pos rfl
  have hiu : (step l u j).calls i = .reading n 0 [] := by
    show (if i = j then _ else u.calls i) = _
    rw [if_neg (fun e => hij e.symm)]
    exact h3
  refine ⟨[i, i] ++ (List.replicate k i ++ [j, i]), ?_, ?_⟩
  · rw [happ, happ]
    show (step l (step l u j) i).calls i = _
    show (if i = i then _ else _) = _
    rw [if_pos rfl, hiu]
    simp only [stepCall]
    rw [if_pos hb]
  · simp [describe, hn, hu, ht]

/-! ### Example -/

/-- A library that knows error 2. -/
def demoLib : Lib where
  known n := if n = 2 then some "No such file or directory".toList else none
  unknown n := if n = 999 then "Unknown error 999".toList else "Unknown error".toList
  clean n := by
    show Char.ofNat 0 ∉ (if n = 999 then "Unknown error 999".toList else "Unknown error".toList)
    split <;> decide +kernel

/-- Thread 0 asks about 999, all others about 2. -/
def demoSt : St := ⟨fun _ => nul, fun i => .start (if i = 0 then 999 else 2)⟩

theorem w_c207 : Fresh demoSt ∧ (∃ sched, (run demoLib demoSt sched).calls 0 = .done 999 []) ∧
    (∃ k, (run demoLib demoSt (List.replicate k 0)).calls 0 = .done 999 "Unknown error 999".toList) ∧
    (run demoLib demoSt [0, 1, 0, 1]).calls 1 = .done 2 "No such file or directory".toList ∧ Serial demoLib demoSt [0, 0, 0] := by
  refine ⟨fun i => ⟨_, rfl⟩, ?_, ?_, by rfl, ?_⟩
  · obtain ⟨sched, h, _⟩ := c207_overlap_violated demoLib demoSt 0 1 (by decide) 999 2 rfl rfl (by decide) (by decide) rfl (by decide +kernel)
    exact ⟨sched, h⟩
  · exact c208_ends demoLib demoSt 0 999 rfl
  · refine ⟨fun j _ => rfl, fun j hj => ?_, fun j hj => ?_, trivial⟩
    · show (if j = 0 then _ else demoSt.calls j).busy = false
      rw [if_neg hj]; rfl
    · show (if j = 0 then _ else if j = 0 then _ else demoSt.calls j).busy = false
      rw [if_neg hj, if_neg hj]; rfl

end Ltio.Text.StrError
