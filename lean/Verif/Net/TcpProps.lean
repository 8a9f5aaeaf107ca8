import Verif.Net.TcpChannel
import Mathlib.Tactic.ByContra
/-
C24: the TCP channel carries both byte streams without loss, duplication or reordering.
-/
namespace Ltio.Net
open Ltio.IOBuffer

/-! ### Specification -/

/-- All bytes passed to `Send`, in order. -/
def sentOf : List Op → List Byte
  | [] => []
  | .send d _ :: ops => d ++ sentOf ops
  | _ :: ops => sentOf ops

/-- All bytes the peer's data brought in, in order. -/
def arrivedOf : List Op → List Byte
  | [] => []
  | .arrive d :: ops => d ++ arrivedOf ops
  | _ :: ops => arrivedOf ops

/-- The caller respects the `int32_t` length of the API. -/
def Fits : Op → Prop
  | .send d _ => d.length < 2^31
  | _ => True

/-- `Reach ops c`: the channel performed `ops`, none of which reported an error, and is now `c`. -/
inductive Reach : List Op → Chan → Prop
  | init : Reach [] Chan.init
  | step {ops c op c' rv} : Reach ops c → Fits op → Net.step c op = some (c', rv) → 0 ≤ rv →
      Reach (ops ++ [op]) c'

/-! ### Lemmas -/

theorem sentOf_append (a b : List Op) : sentOf (a ++ b) = sentOf a ++ sentOf b := by
  induction a with
  | nil => rfl
  | cons x xs ih => cases x <;> simp [sentOf, ih]

theorem arrivedOf_append (a b : List Op) : arrivedOf (a ++ b) = arrivedOf a ++ arrivedOf b := by
  induction a with
  | nil => rfl
  | cons x xs ih => cases x <;> simp [arrivedOf, ih]

theorem toI32_of_lt {n : Nat} (h : n < 2^31) : toI32 n = n := by
  unfold toI32
  rw [Nat.mod_eq_of_lt (by omega)]
  omega

theorem writeLoop_spec (script : List WRes) : ∀ (c : Chan) (total : Nat), c.out.Inv →
    (writeLoop script c total).1.out.Inv ∧
    (writeLoop script c total).1.inb = c.inb ∧ (writeLoop script c total).1.peer = c.peer ∧
    (writeLoop script c total).1.taken = c.taken ∧
    (∃ x, (writeLoop script c total).1.sock = c.sock ++ x ∧
      x ++ (writeLoop script c total).1.out.asString = c.out.asString ∧
      (∀ t, (writeLoop script c total).2 = some t → t = total + x.length)) ∧
    ((writeLoop script c total).2 = none → WRes.err .other ∈ script) ∧
    ((writeLoop script c total).2 ≠ none →
      (writeLoop script c total).1.out.canRead = 0 ∨
      (writeLoop script c total).1.errno = .again) := by
  induction script with
  | nil =>
    intro c total h
    simp only [writeLoop]
    split
    · exact ⟨h, rfl, rfl, rfl, ⟨[], by simp, by simp, by simp +contextual⟩, by simp, by simp [*]⟩
    · exact ⟨h, rfl, rfl, rfl, ⟨[], by simp, by simp, by simp +contextual⟩, by simp, by simp⟩
  | cons r rs ih =>
    intro c total h
    simp only [writeLoop]
    split
    · exact ⟨h, rfl, rfl, rfl, ⟨[], by simp, by simp, by simp +contextual⟩, by simp, by simp [*]⟩
    · rename_i hne
      cases r with
      | ok n =>
        have hlen := asString_length c.out h
        have hpos : 0 < min (n + 1) c.out.asString.length := by rw [hlen]; omega
        have hp : ((min (n + 1) c.out.asString.length : Nat) : Int) > 0 := by omega
        simp only [Chan.kwrite, hp, if_true, Int.toNat_natCast]
        generalize hm : min (n + 1) c.out.asString.length = m at *
        obtain ⟨i1, i2, i3, i4, ⟨x, x1, x2, x3⟩, i6, i7⟩ := ih
          { c with sock := c.sock ++ c.out.asString.take m, out := c.out.consume m } (total + m)
          (consume_inv _ h _)
        refine ⟨i1, i2, i3, i4, ⟨c.out.asString.take m ++ x, ?_, ?_, ?_⟩, ?_, i7⟩
        · rw [x1]; simp
        · rw [List.append_assoc, x2, consume_asString _ h, List.take_append_drop]
        · intro t ht
          rw [x3 t ht]; simp; omega
        · intro hh; exact List.mem_cons_of_mem _ (i6 hh)
      | err e =>
        have hm1 : ¬ ((-1 : Int) > 0) := by decide
        simp only [Chan.kwrite, hm1, if_false]
        cases e with
        | again =>
          simp only [if_true]
          exact ⟨h, trivial, trivial, trivial, ⟨[], by simp, by simp, by simp +contextual⟩, by simp, by simp⟩
        | intr =>
          simp only [reduceCtorEq, if_false, if_true]
          obtain ⟨i1, i2, i3, i4, ⟨x, x1, x2, x3⟩, i6, i7⟩ := ih { c with errno := .intr } total h
          exact ⟨i1, i2, i3, i4, ⟨x, x1, x2, x3⟩, fun hh => List.mem_cons_of_mem _ (i6 hh), i7⟩
        | other =>
          simp only [reduceCtorEq, if_false]
          exact ⟨h, trivial, trivial, trivial, ⟨[], by simp, by simp, by simp⟩, by simp, by simp⟩

theorem handleWrite_spec (script : List WRes) (c : Chan) (h : c.out.Inv) :
    (c.handleWrite script).1.out.Inv ∧
    (c.handleWrite script).1.inb = c.inb ∧ (c.handleWrite script).1.peer = c.peer ∧
    (c.handleWrite script).1.taken = c.taken ∧
    (∃ x, (c.handleWrite script).1.sock = c.sock ++ x ∧
      x ++ (c.handleWrite script).1.out.asString = c.out.asString ∧
      (0 ≤ (c.handleWrite script).2 → (c.handleWrite script).2 = toI32 x.length)) ∧
    ((c.handleWrite script).2 < 0 → WRes.err .other ∈ script ∨ 2^31 ≤ c.out.canRead) ∧
    (0 ≤ (c.handleWrite script).2 →
      ((c.handleWrite script).1.out.canRead > 0 → (c.handleWrite script).1.writing = true) ∧
      ((c.handleWrite script).1.out.canRead = 0 ∨
        (c.handleWrite script).1.errno = .again)) := by
  unfold Chan.handleWrite
  split
  · rename_i h0
    refine ⟨h, rfl, rfl, rfl, ⟨[], by simp, by simp, by simp [toI32]⟩, by simp, ?_⟩
    intro _
    exact ⟨by simp [h0], Or.inl h0⟩
  · obtain ⟨i1, i2, i3, i4, ⟨x, x1, x2, x3⟩, i6, i7⟩ := writeLoop_spec script c 0 h
    rcases hw : writeLoop script c 0 with ⟨c', o⟩
    rw [hw] at i1 i2 i3 i4 x1 x2 x3 i6 i7
    cases o with
    | none =>
      exact ⟨i1, i2, i3, i4, ⟨x, x1, x2, by simp⟩, fun _ => Or.inl (i6 rfl), by simp⟩
    | some t =>
      have ht := x3 t rfl
      refine ⟨i1, i2, i3, i4, ⟨x, x1, x2, ?_⟩, ?_, ?_⟩
      · intro _; simp only; rw [ht]; simp
      · intro hneg
        right
        simp only at hneg
        have hx : x.length ≤ c.out.canRead := by
          rw [← asString_length _ h, ← x2]; simp
        by_contra hlt
        rw [ht, toI32_of_lt (by omega)] at hneg
        omega
      · intro _
        simp only
        exact ⟨by intro hgt; simp; omega, i7 (by simp)⟩

theorem park_spec (c : Chan) (h : c.out.Inv) (rest : List Byte) (n : Nat) :
    ∃ o, c.park rest n = some ({ c with out := o, writing := true }, toI32 n) ∧ o.Inv ∧
      o.asString = c.out.asString ++ rest := by
  obtain ⟨o, e, i, a⟩ := write_spec c.out h rest
  exact ⟨o, by simp [Chan.park, e], i, a⟩

theorem sendLoop_spec (script : List WRes) : ∀ (c : Chan) (rest : List Byte) (n : Nat), c.out.Inv →
    c.out.canRead = 0 →
    ∃ c' rv, sendLoop script c rest n = some (c', rv) ∧ c'.out.Inv ∧
      c'.inb = c.inb ∧ c'.peer = c.peer ∧ c'.taken = c.taken ∧
      (∃ x, c'.sock = c.sock ++ x ∧ (x <+: rest) ∧
        (0 ≤ rv → x ++ c'.out.asString = rest ∧ rv = toI32 (n + x.length))) ∧
      (rv < 0 → (WRes.err .other ∈ script ∨ 2^31 ≤ n + rest.length) ∨ rest = []) ∧
      (0 ≤ rv → c'.out.canRead > 0 → c'.writing = true ∧ c'.errno = .again) := by
  induction script with
  | nil =>
    intro c rest n h h0
    obtain ⟨o, e, i, a⟩ := park_spec { c with errno := .again } h rest n
    have hemp : c.out.asString = [] := List.eq_nil_of_length_eq_zero (by rw [asString_length _ h, h0])
    refine ⟨_, _, e, i, rfl, rfl, rfl, ⟨[], by simp, by simp, ?_⟩, ?_, by simp⟩
    · intro _; simp only at a; simp [a, hemp]
    · intro hneg
      left; right
      by_contra hlt
      rw [toI32_of_lt (by omega)] at hneg
      omega
  | cons r rs ih =>
    intro c rest n h h0
    have hemp : c.out.asString = [] := List.eq_nil_of_length_eq_zero (by rw [asString_length _ h, h0])
    have hovf : ∀ m, m ≤ rest.length → toI32 (n + m) < 0 → 2^31 ≤ n + rest.length := by
      intro m hm hneg
      by_contra hlt
      rw [toI32_of_lt (by omega)] at hneg
      omega
    -- the EAGAIN exit
    have hpark : ∀ e0, ∃ c' rv, ({ c with errno := e0 } : Chan).park rest n = some (c', rv) ∧ c'.out.Inv ∧
        c'.inb = c.inb ∧ c'.peer = c.peer ∧ c'.taken = c.taken ∧
        (∃ x, c'.sock = c.sock ++ x ∧ (x <+: rest) ∧
          (0 ≤ rv → x ++ c'.out.asString = rest ∧ rv = toI32 (n + x.length))) ∧
        (rv < 0 → (WRes.err .other ∈ r :: rs ∨ 2^31 ≤ n + rest.length) ∨ rest = []) ∧
        (0 ≤ rv → c'.out.canRead > 0 → c'.writing = true ∧ c'.errno = e0) := by
      intro e0
      obtain ⟨o, e, i, a⟩ := park_spec { c with errno := e0 } h rest n
      refine ⟨_, _, e, i, rfl, rfl, rfl, ⟨[], by simp, by simp, ?_⟩, ?_, by simp⟩
      · intro _; simp only at a; simp [a, hemp]
      · intro hneg; exact Or.inl (Or.inr (hovf 0 (by omega) (by simpa using hneg)))
    simp only [sendLoop]
    cases r with
    | ok k =>
      simp only [Chan.kwrite]
      by_cases hr : rest = []
      · subst hr
        have hz : ¬ (((min (k + 1) ([] : List Byte).length : Nat) : Int) > 0) := by simp
        simp only [hz, if_false]
        simp only [List.length_nil, if_true, List.take_nil, List.append_nil]
        split
        · rename_i he
          have := hpark .again
          rw [← he] at this
          simpa [he] using this
        · split
          · refine ⟨_, _, rfl, h, rfl, rfl, rfl, ⟨[], by simp, by simp, ?_⟩, by simp, ?_⟩
            · intro _; simp [hemp]
            · intro _ hgt; simp only at hgt; omega
          · exact ⟨_, _, rfl, h, rfl, rfl, rfl, ⟨[], by simp, by simp, by simp⟩, by simp, by simp⟩
      · have hrl : 0 < rest.length := List.length_pos_iff.2 hr
        have hpos : 0 < min (k + 1) rest.length := by omega
        have hle : min (k + 1) rest.length ≤ rest.length := by omega
        have hp : ((min (k + 1) rest.length : Nat) : Int) > 0 := by omega
        simp only [hp, if_true, Int.toNat_natCast]
        by_cases hd : rest.length - min (k + 1) rest.length = 0
        · simp only [hd, if_true]
          generalize min (k + 1) rest.length = m at *
          have hm : m = rest.length := by omega
          subst hm
          refine ⟨_, _, rfl, h, rfl, rfl, rfl, ⟨rest.take rest.length, rfl, by simp, ?_⟩, ?_, ?_⟩
          · intro _; simp [hemp]
          · intro hneg; exact Or.inl (Or.inr (hovf _ hle hneg))
          · intro _ hgt; simp only at hgt; omega
        · simp only [hd, if_false]
          generalize min (k + 1) rest.length = m at *
          obtain ⟨c', rv, e, i1, i2, i3, i4, ⟨x, x1, x2, x3⟩, i6, i7⟩ :=
            ih { c with sock := c.sock ++ rest.take m } (rest.drop m) (n + m) h h0
          refine ⟨c', rv, e, i1, i2, i3, i4, ⟨rest.take m ++ x, ?_, ?_, ?_⟩, ?_, i7⟩
          · rw [x1]; simp
          · obtain ⟨y, hy⟩ := x2
            exact ⟨y, by rw [List.append_assoc, hy, List.take_append_drop]⟩
          · intro hge
            obtain ⟨y1, y2⟩ := x3 hge
            refine ⟨by rw [List.append_assoc, y1, List.take_append_drop], ?_⟩
            rw [y2]; congr 1; simp; omega
          · intro hneg
            rcases i6 hneg with (hh | hh) | hh
            · exact Or.inl (Or.inl (List.mem_cons_of_mem _ hh))
            · exact Or.inl (Or.inr (by simp at hh; omega))
            · have := congrArg List.length hh
              simp at this; omega
    | err e =>
      have hm1 : ¬ ((-1 : Int) > 0) := by decide
      simp only [Chan.kwrite, hm1, if_false]
      cases e with
      | again => simp only [if_true]; exact hpark .again
      | intr =>
        simp only [reduceCtorEq, if_false, if_true]
        split
        · rename_i hr
          have hr : rest = [] := List.eq_nil_of_length_eq_zero hr
          subst hr
          refine ⟨_, _, rfl, h, rfl, rfl, rfl, ⟨[], by simp, by simp, ?_⟩, by simp, ?_⟩
          · intro _; simp [hemp]
          · intro _ hgt; simp only at hgt; omega
        · obtain ⟨c', rv, e, i1, i2, i3, i4, hx, i6, i7⟩ := ih { c with errno := .intr } rest n h h0
          refine ⟨c', rv, e, i1, i2, i3, i4, hx, ?_, i7⟩
          intro hneg
          rcases i6 hneg with (hh | hh) | hh
          · exact Or.inl (Or.inl (List.mem_cons_of_mem _ hh))
          · exact Or.inl (Or.inr hh)
          · exact Or.inr hh
      | other =>
        simp only [reduceCtorEq, if_false]
        exact ⟨_, _, rfl, h, rfl, rfl, rfl, ⟨[], by simp, by simp, by simp⟩, by simp, by simp⟩

theorem send_spec (script : List WRes) (c : Chan) (data : List Byte) (h : c.out.Inv) :
    ∃ c' rv, c.send data script = some (c', rv) ∧ c'.out.Inv ∧
      c'.inb = c.inb ∧ c'.peer = c.peer ∧ c'.taken = c.taken ∧
      (∃ x, c'.sock = c.sock ++ x ∧ (x <+: c.out.asString ++ data) ∧
        (0 ≤ rv → x ++ c'.out.asString = c.out.asString ++ data ∧ rv = toI32 x.length)) ∧
      (rv < 0 → (WRes.err .other ∈ script ∨ 2^31 ≤ c.out.canRead + data.length) ∨
        (c.out.canRead = 0 ∧ data = [])) ∧
      (0 ≤ rv → c'.out.canRead > 0 → c'.writing = true ∧ c'.errno = .again) := by
  unfold Chan.send
  split
  · obtain ⟨o, e, i, a⟩ := write_spec c.out h data
    simp only [e]
    obtain ⟨i1, i2, i3, i4, ⟨x, x1, x2, x3⟩, i6, i7⟩ := handleWrite_spec script { c with out := o } i
    generalize ({ c with out := o } : Chan).handleWrite script = q at *
    refine ⟨q.1, q.2, rfl, i1, i2, i3, i4, ⟨x, x1, ⟨q.1.out.asString, by rw [x2, a]⟩, ?_⟩, ?_, ?_⟩
    · intro hge; exact ⟨by rw [x2, a], x3 hge⟩
    · intro hneg
      rcases i6 hneg with hh | hh
      · exact Or.inl (Or.inl hh)
      · refine Or.inl (Or.inr ?_)
        have := asString_length o i
        rw [a] at this
        rw [← asString_length c.out h]
        simp only at hh
        rw [← this] at hh
        simpa using hh
    · intro hge hgt
      obtain ⟨y1, y2⟩ := i7 hge
      exact ⟨y1 hgt, y2.resolve_left (by omega)⟩
  · rename_i hz
    have h0 : c.out.canRead = 0 := by omega
    have hemp : c.out.asString = [] := List.eq_nil_of_length_eq_zero (by rw [asString_length _ h, h0])
    obtain ⟨c', rv, e, i1, i2, i3, i4, ⟨x, x1, x2, x3⟩, i6, i7⟩ := sendLoop_spec script c data 0 h h0
    refine ⟨c', rv, e, i1, i2, i3, i4, ⟨x, x1, by simpa [hemp] using x2, ?_⟩, ?_, i7⟩
    · intro hge; simpa [hemp] using x3 hge
    · intro hneg
      rcases i6 hneg with (hh | hh) | hh
      · exact Or.inl (Or.inl hh)
      · exact Or.inl (Or.inr (by omega))
      · exact Or.inr ⟨h0, hh⟩

theorem readLoop_spec (script : List RRes) : ∀ (c : Chan), c.inb.Inv →
    ∃ c' ok, readLoop script c = some (c', ok) ∧ c'.inb.Inv ∧ c'.out = c.out ∧ c'.sock = c.sock ∧
      c'.writing = c.writing ∧ c'.taken = c.taken ∧
      c'.inb.asString ++ c'.peer = c.inb.asString ++ c.peer ∧
      (∃ x, c'.inb.asString = c.inb.asString ++ x) ∧
      (ok = true → c'.errno = .again) ∧
      (ok = false → RRes.eof ∈ script ∨ RRes.err .other ∈ script) := by
  induction script with
  | nil =>
    intro c h
    obtain ⟨b, e, i, a, _⟩ := ensure_spec c.inb h kBlockSize
    simp only [readLoop, e]
    exact ⟨_, _, rfl, i, rfl, rfl, rfl, rfl, by simp [a], ⟨[], by simp [a]⟩, by simp, by simp⟩
  | cons r rs ih =>
    intro c h
    obtain ⟨b, e, i, a, _⟩ := ensure_spec c.inb h kBlockSize
    simp only [readLoop, e]
    cases r with
    | data n =>
      simp only
      split
      · exact ⟨_, _, rfl, i, rfl, rfl, rfl, rfl, by simp [a], ⟨[], by simp [a]⟩, by simp, by simp⟩
      · generalize hm : min (n + 1) (min b.canWrite c.peer.length) = m at *
        obtain ⟨b', e', i', a', _⟩ := rawProduce_spec b i (c.peer.take m) (by simp; omega)
        simp only [e']
        obtain ⟨c', ok, j0, j1, j2, j3, j4, j5, j6, ⟨x, hx⟩, j7, j8⟩ :=
          ih { c with inb := b', peer := c.peer.drop m } i'
        refine ⟨c', ok, j0, j1, j2, j3, j4, j5, ?_, ?_, j7, ?_⟩
        · rw [j6, a', a]; simp
        · exact ⟨c.peer.take m ++ x, by rw [hx, a', a]; simp⟩
        · intro hh
          rcases j8 hh with k | k
          · exact Or.inl (List.mem_cons_of_mem _ k)
          · exact Or.inr (List.mem_cons_of_mem _ k)
    | eof =>
      exact ⟨_, _, rfl, i, rfl, rfl, rfl, rfl, by simp [a], ⟨[], by simp [a]⟩, by simp, by simp⟩
    | err e =>
      cases e with
      | again =>
        exact ⟨_, _, rfl, i, rfl, rfl, rfl, rfl, by simp [a], ⟨[], by simp [a]⟩, by simp, by simp⟩
      | intr =>
        simp only
        obtain ⟨c', ok, j0, j1, j2, j3, j4, j5, j6, ⟨x, hx⟩, j7, j8⟩ :=
          ih { c with inb := b, errno := .intr } i
        refine ⟨c', ok, j0, j1, j2, j3, j4, j5, by rw [j6, a], ⟨x, by rw [hx, a]⟩, j7, ?_⟩
        intro hh
        rcases j8 hh with k | k
        · exact Or.inl (List.mem_cons_of_mem _ k)
        · exact Or.inr (List.mem_cons_of_mem _ k)
      | other =>
        exact ⟨_, _, rfl, i, rfl, rfl, rfl, rfl, by simp [a], ⟨[], by simp [a]⟩, by simp, by simp⟩

/-- Invariant of reachable channels. -/
structure Good (ops : List Op) (c : Chan) : Prop where
  inInv : c.inb.Inv
  outInv : c.out.Inv
  sent : c.sock ++ c.out.asString = sentOf ops
  arrived : c.taken ++ c.inb.asString ++ c.peer = arrivedOf ops
  interest : c.out.canRead > 0 → c.writing = true

theorem sendString_eq (c : Chan) (d : List Byte) (s : List WRes) (hf : d.length < 2^31) :
    c.sendString d s = c.send d s := by
  unfold Chan.sendString
  rw [toI32_of_lt hf, if_neg (by omega)]
  simp

/-- One step from a good state: no undefined behaviour, accepted bytes form a prefix of what was
sent, and a non-error result re-establishes the invariant. -/
theorem step_good {ops : List Op} {c : Chan} (g : Good ops c) (op : Op) (hf : Fits op) :
    ∃ c' rv, Net.step c op = some (c', rv) ∧ c'.sock <+: sentOf (ops ++ [op]) ∧
      c.sock <+: c'.sock ∧
      c'.taken ++ c'.inb.asString ++ c'.peer = arrivedOf (ops ++ [op]) ∧
      (0 ≤ rv → Good (ops ++ [op]) c') := by
  have hsent : c.sock <+: sentOf ops := ⟨_, g.sent⟩
  cases op with
  | send d s =>
    have hf' : d.length < 2^31 := hf
    obtain ⟨c', rv, e, i1, i2, i3, i4, ⟨x, x1, ⟨y, hy⟩, x3⟩, i6, i7⟩ := send_spec s c d g.outInv
    have htot : sentOf (ops ++ [Op.send d s]) = c.sock ++ (c.out.asString ++ d) := by
      rw [sentOf_append, ← g.sent]; simp [sentOf]
    have harr : arrivedOf (ops ++ [Op.send d s]) = arrivedOf ops := by
      rw [arrivedOf_append]; simp [arrivedOf]
    refine ⟨c', rv, by simp only [Net.step, sendString_eq c d s hf']; exact e, ?_, ⟨x, x1.symm⟩, ?_, ?_⟩
    · exact ⟨y, by rw [htot, ← hy, x1]; simp⟩
    · rw [harr, i2, i3, i4]; exact g.arrived
    · intro hge
      refine ⟨by rw [i2]; exact g.inInv, i1, ?_, by rw [harr, i2, i3, i4]; exact g.arrived,
        fun h => (i7 hge h).1⟩
      rw [htot, ← (x3 hge).1, x1]; simp
  | writable s =>
    obtain ⟨i1, i2, i3, i4, ⟨x, x1, x2, x3⟩, i6, i7⟩ := handleWrite_spec s c g.outInv
    have htot : sentOf (ops ++ [Op.writable s]) = c.sock ++ c.out.asString := by
      rw [sentOf_append, g.sent]; simp [sentOf]
    have harr : arrivedOf (ops ++ [Op.writable s]) = arrivedOf ops := by
      rw [arrivedOf_append]; simp [arrivedOf]
    simp only [Net.step]
    generalize c.handleWrite s = q at *
    refine ⟨q.1, q.2, rfl, ?_, ⟨x, x1.symm⟩, ?_, ?_⟩
    · exact ⟨q.1.out.asString, by rw [htot, ← x2, x1, List.append_assoc]⟩
    · rw [harr, i2, i3, i4]; exact g.arrived
    · intro hge
      refine ⟨by rw [i2]; exact g.inInv, i1, ?_, by rw [harr, i2, i3, i4]; exact g.arrived,
        (i7 hge).1⟩
      rw [htot, ← x2, x1]; simp
  | readable s =>
    obtain ⟨c', ok, e, j1, j2, j3, j4, j5, j6, _, j7, j8⟩ := readLoop_spec s c g.inInv
    have htot : sentOf (ops ++ [Op.readable s]) = sentOf ops := by
      rw [sentOf_append]; simp [sentOf]
    have harr : arrivedOf (ops ++ [Op.readable s]) = arrivedOf ops := by
      rw [arrivedOf_append]; simp [arrivedOf]
    have hg : Good (ops ++ [Op.readable s]) c' := by
      refine ⟨j1, by rw [j2]; exact g.outInv, by rw [htot, j2, j3]; exact g.sent, ?_, ?_⟩
      · rw [harr, j5, List.append_assoc, j6, ← g.arrived, List.append_assoc]
      · rw [j2, j4]; exact g.interest
    cases ok with
    | true =>
      exact ⟨c', toI32 c'.inb.canRead, by simp only [Net.step, Chan.handleRead, e], ⟨_, hg.sent⟩, ⟨[], by rw [j3]; simp⟩,
        hg.arrived, fun _ => hg⟩
    | false =>
      exact ⟨c', -1, by simp only [Net.step, Chan.handleRead, e], ⟨_, hg.sent⟩, ⟨[], by rw [j3]; simp⟩,
        hg.arrived, fun _ => hg⟩
  | arrive bs =>
    have htot : sentOf (ops ++ [Op.arrive bs]) = sentOf ops := by
      rw [sentOf_append]; simp [sentOf]
    have harr : arrivedOf (ops ++ [Op.arrive bs]) = arrivedOf ops ++ bs := by
      rw [arrivedOf_append]; simp [arrivedOf]
    have ha : c.taken ++ c.inb.asString ++ (c.peer ++ bs) = arrivedOf (ops ++ [Op.arrive bs]) := by
      rw [harr, ← g.arrived]; simp
    exact ⟨_, _, rfl, by rw [htot]; exact hsent, List.prefix_refl _, ha,
      fun _ => ⟨g.inInv, g.outInv, by rw [htot]; exact g.sent, ha, g.interest⟩⟩
  | appConsume n =>
    have htot : sentOf (ops ++ [Op.appConsume n]) = sentOf ops := by
      rw [sentOf_append]; simp [sentOf]
    have harr : arrivedOf (ops ++ [Op.appConsume n]) = arrivedOf ops := by
      rw [arrivedOf_append]; simp [arrivedOf]
    have ha : (c.taken ++ c.inb.asString.take n) ++ (c.inb.consume n).asString ++ c.peer
        = arrivedOf (ops ++ [Op.appConsume n]) := by
      rw [harr, ← g.arrived, consume_asString _ g.inInv, List.append_assoc c.taken,
        List.take_append_drop]
    exact ⟨_, _, rfl, by rw [htot]; exact hsent, List.prefix_refl _, ha,
      fun _ => ⟨consume_inv _ g.inInv _, g.outInv, by rw [htot]; exact g.sent, ha, g.interest⟩⟩
  | clobber e =>
    have htot : sentOf (ops ++ [Op.clobber e]) = sentOf ops := by
      rw [sentOf_append]; simp [sentOf]
    have harr : arrivedOf (ops ++ [Op.clobber e]) = arrivedOf ops := by
      rw [arrivedOf_append]; simp [arrivedOf]
    exact ⟨_, _, rfl, by rw [htot]; exact hsent, List.prefix_refl _, by rw [harr]; exact g.arrived,
      fun _ => ⟨g.inInv, g.outInv, by rw [htot]; exact g.sent, by rw [harr]; exact g.arrived, g.interest⟩⟩

theorem reach_good {ops : List Op} {c : Chan} (h : Reach ops c) : Good ops c := by
  induction h with
  | init => exact ⟨IOBuffer.init_inv, IOBuffer.init_inv, rfl, rfl, fun _ => rfl⟩
  | step hr hf he hge ih =>
    obtain ⟨c', rv, e, _, _, _, hg⟩ := step_good ih _ hf
    rw [e] at he
    cases he
    exact hg hge

/-! ### C24 -/

/-- C24 (no undefined behaviour, any next operation): whatever the kernel answers, an operation on
a channel that has not failed never leaves the buffers' storage. -/
theorem c24_safe {ops : List Op} {c : Chan} (h : Reach ops c) (op : Op) (hf : Fits op) :
    ∃ r, Net.step c op = some r := by
  obtain ⟨c', rv, e, _⟩ := step_good (reach_good h) op hf
  exact ⟨_, e⟩

/-- C24: after any error-free history, what the kernel accepted followed by what is pending is
exactly the concatenation of everything passed to `Send`. -/
theorem c24_stream {ops : List Op} {c : Chan} (h : Reach ops c) :
    c.sock ++ c.out.asString = sentOf ops := (reach_good h).sent

/-- C24 (also during the operation that reports an error): the socket has been given a prefix of
the stream, extending what it had been given before. -/
theorem c24_prefix {ops : List Op} {c c' : Chan} {op : Op} {rv : Int} (h : Reach ops c) (hf : Fits op)
    (hs : Net.step c op = some (c', rv)) :
    c'.sock <+: sentOf (ops ++ [op]) ∧ c.sock <+: c'.sock := by
  obtain ⟨d, rv', e, h1, h2, _⟩ := step_good (reach_good h) op hf
  rw [e] at hs; cases hs
  exact ⟨h1, h2⟩

/-- C24 (input side): consumed, buffered and not-yet-read bytes are exactly what arrived, even when
the operation reports an error or end of stream. -/
theorem c24_input {ops : List Op} {c c' : Chan} {op : Op} {rv : Int} (h : Reach ops c) (hf : Fits op)
    (hs : Net.step c op = some (c', rv)) :
    c'.taken ++ c'.inb.asString ++ c'.peer = arrivedOf (ops ++ [op]) := by
  obtain ⟨d, rv', e, _, _, h3, _⟩ := step_good (reach_good h) op hf
  rw [e] at hs; cases hs
  exact h3

/-- C24 (no stall): pending output always has write interest registered. -/
theorem c24_write_interest {ops : List Op} {c : Chan} (h : Reach ops c) (hp : c.out.asString ≠ []) :
    c.writing = true := by
  refine (reach_good h).interest ?_
  rw [← asString_length _ (reach_good h).outInv]
  exact List.length_pos_iff.2 hp

/-- C24 (edge-triggered discipline, output): a successful `Send` or `HandleWrite` that leaves
output pending did so because the kernel answered EAGAIN. -/
theorem c24_write_until_eagain {ops : List Op} {c c' : Chan} {op : Op} {rv : Int} (h : Reach ops c)
    (hf : Fits op) (hop : (∃ d s, op = .send d s) ∨ (∃ s, op = .writable s))
    (hs : Net.step c op = some (c', rv)) (hge : 0 ≤ rv) (hp : c'.out.asString ≠ []) :
    c'.errno = .again := by
  have g := reach_good h
  rcases hop with ⟨d, s, rfl⟩ | ⟨s, rfl⟩
  · obtain ⟨c1, rv1, e, i1, _, _, _, _, _, i7⟩ := send_spec s c d g.outInv
    simp only [Net.step, sendString_eq c d s hf, e] at hs
    cases hs
    refine (i7 hge ?_).2
    rw [← asString_length _ i1]; exact List.length_pos_iff.2 hp
  · obtain ⟨i1, _, _, _, _, _, i7⟩ := handleWrite_spec s c g.outInv
    simp only [Net.step] at hs
    generalize c.handleWrite s = q at *
    cases hs
    rcases (i7 hge).2 with h0 | h0
    · exact absurd (List.eq_nil_of_length_eq_zero (by rw [asString_length _ i1, h0])) hp
    · exact h0

/-- C24 (edge-triggered discipline, input): `HandleRead` succeeds only after the kernel said
EAGAIN; it never stops early. It returns the number of buffered bytes. -/
theorem c24_read_until_eagain {ops : List Op} {c c' : Chan} {s : List RRes} {rv : Int}
    (h : Reach ops c) (hs : Net.step c (.readable s) = some (c', rv)) (hge : 0 ≤ rv) :
    c'.errno = .again ∧ rv = toI32 c'.inb.asString.length := by
  obtain ⟨c1, ok, e, j1, _, _, _, _, _, _, j7, _⟩ := readLoop_spec s c (reach_good h).inInv
  simp only [Net.step, Chan.handleRead, e] at hs
  cases ok with
  | true => cases hs; exact ⟨j7 rfl, by rw [asString_length _ j1]⟩
  | false => cases hs; exact absurd hge (by decide)

/-- C24: `HandleRead` reports failure only for end of stream, a fatal errno, or an input buffer of
2 GiB or more. -/
theorem c24_read_failure {ops : List Op} {c c' : Chan} {s : List RRes} {rv : Int}
    (h : Reach ops c) (hs : Net.step c (.readable s) = some (c', rv)) (hneg : rv < 0) :
    RRes.eof ∈ s ∨ RRes.err .other ∈ s ∨ 2^31 ≤ c'.inb.asString.length := by
  obtain ⟨c1, ok, e, j1, _, _, _, _, _, _, _, j8⟩ := readLoop_spec s c (reach_good h).inInv
  simp only [Net.step, Chan.handleRead, e] at hs
  cases ok with
  | true =>
    cases hs
    right; right
    rw [asString_length _ j1]
    by_contra hlt
    rw [toI32_of_lt (by omega)] at hneg
    omega
  | false => cases hs; rcases j8 rfl with k | k <;> simp [k]

/-- C24: the value `Send`/`HandleWrite` return is the number of bytes the socket accepted during
the call (as an `int`). -/
theorem c24_return_value {ops : List Op} {c c' : Chan} {op : Op} {rv : Int} (h : Reach ops c)
    (hf : Fits op) (hop : (∃ d s, op = .send d s) ∨ (∃ s, op = .writable s))
    (hs : Net.step c op = some (c', rv)) (hge : 0 ≤ rv) :
    rv = toI32 (c'.sock.length - c.sock.length) := by
  have g := reach_good h
  rcases hop with ⟨d, s, rfl⟩ | ⟨s, rfl⟩
  · obtain ⟨c1, rv1, e, i1, _, _, _, ⟨x, x1, _, x3⟩, _, i7⟩ := send_spec s c d g.outInv
    simp only [Net.step, sendString_eq c d s hf, e] at hs
    cases hs
    rw [(x3 hge).2, x1]; simp
  · obtain ⟨i1, _, _, _, ⟨x, x1, _, x3⟩, _, i7⟩ := handleWrite_spec s c g.outInv
    simp only [Net.step] at hs
    generalize c.handleWrite s = q at *
    cases hs
    have hv := x3 hge
    simp only at hv x1
    rw [hv, x1]; simp

/-- C24 (partial): a reported failure of `Send`/`HandleWrite` means the kernel reported a fatal
error, or 2 GiB of output were pending.  What is missing: `Send` of zero bytes, see
`c24_violation_empty_send`. -/
theorem c24_failure_is_real_partial {ops : List Op} {c c' : Chan} {op : Op} {rv : Int} (h : Reach ops c)
    (hf : Fits op) (hs : Net.step c op = some (c', rv)) (hneg : rv < 0) :
    (∀ d s, op = .send d s → d ≠ [] → WRes.err .other ∈ s ∨ 2^31 ≤ c.out.asString.length + d.length) ∧
    (∀ s, op = .writable s → WRes.err .other ∈ s ∨ 2^31 ≤ c.out.asString.length) := by
  have g := reach_good h
  refine ⟨?_, ?_⟩
  · rintro d s rfl hd
    obtain ⟨c1, rv1, e, i1, _, _, _, _, i6, _⟩ := send_spec s c d g.outInv
    simp only [Net.step, sendString_eq c d s hf, e] at hs
    cases hs
    rw [asString_length _ g.outInv]
    rcases i6 hneg with hh | ⟨_, hh⟩
    · exact hh
    · exact absurd hh hd
  · rintro s rfl
    obtain ⟨i1, _, _, _, _, i6, i7⟩ := handleWrite_spec s c g.outInv
    simp only [Net.step] at hs
    generalize c.handleWrite s = q at *
    cases hs
    rw [asString_length _ g.outInv]
    exact i6 hneg

theorem writeLoop_drains : ∀ (script : List WRes) (c : Chan) (total : Nat), c.out.Inv →
    (∀ r ∈ script, ∃ n, r = .ok n) → c.out.canRead ≤ script.length →
    (writeLoop script c total).1.out.canRead = 0 ∧ (writeLoop script c total).2 ≠ none := by
  intro script
  induction script with
  | nil =>
    intro c total h _ hl
    have : c.out.canRead = 0 := by simpa using hl
    simp [writeLoop, this]
  | cons r rs ih =>
    intro c total h hok hl
    simp only [writeLoop]
    split
    · simp_all
    · obtain ⟨n, rfl⟩ := hok r (by simp)
      have hlen := asString_length c.out h
      have hpos : 0 < min (n + 1) c.out.asString.length := by rw [hlen]; omega
      have hp : ((min (n + 1) c.out.asString.length : Nat) : Int) > 0 := by omega
      simp only [Chan.kwrite, hp, if_true, Int.toNat_natCast]
      generalize min (n + 1) c.out.asString.length = m at *
      refine ih _ _ (consume_inv _ h _) (fun r hr => hok r (List.mem_cons_of_mem _ hr)) ?_
      simp only
      rw [← asString_length _ (consume_inv _ h _), consume_asString _ h]
      simp at hl ⊢
      omega

/-- C24 (progress): if the socket keeps accepting (as little as one byte per call), a write event
flushes everything that is pending and removes the write interest. -/
theorem c24_drains {ops : List Op} {c : Chan} (h : Reach ops c) (hp : c.out.asString ≠ [])
    (script : List WRes) (hok : ∀ r ∈ script, ∃ n, r = WRes.ok n)
    (hl : c.out.asString.length ≤ script.length) :
    (c.handleWrite script).1.out.asString = [] ∧ (c.handleWrite script).1.sock = sentOf ops ∧
    (c.handleWrite script).1.writing = false := by
  have g := reach_good h
  have hlen := asString_length c.out g.outInv
  have hpos := List.length_pos_iff.2 hp
  obtain ⟨d1, d2⟩ := writeLoop_drains script c 0 g.outInv hok (by omega)
  obtain ⟨i1, _, _, _, ⟨x, x1, x2, _⟩, _, _⟩ := writeLoop_spec script c 0 g.outInv
  have hemp : (writeLoop script c 0).1.out.asString = [] :=
    List.eq_nil_of_length_eq_zero (by rw [asString_length _ i1, d1])
  unfold Chan.handleWrite
  rw [if_neg (by omega)]
  rcases hw : writeLoop script c 0 with ⟨c', o⟩
  rw [hw] at d1 d2 x1 x2 hemp
  cases o with
  | none => exact absurd rfl d2
  | some t =>
    simp only at d1 hemp x1 x2 ⊢
    refine ⟨hemp, ?_, by simp [d1]⟩
    rw [x1, ← g.sent, ← x2, hemp]; simp

/-- C24 VIOLATION: sending zero bytes on an idle, healthy channel (a raw message with empty
content, raw_message.cc:94, or an empty line, line_codec_service.cc:63) reports failure whenever
errno still holds an unrelated value: the code tests errno after `write` returned 0. -/
theorem c24_violation_empty_send : Reach [] Chan.init ∧ Fits (.send [] [.ok 0]) ∧
    (Net.step Chan.init (.send [] [.ok 0])).map Prod.snd = some (-1) := by
  refine ⟨.init, by simp [Fits], ?_⟩
  decide +kernel

/-- C24 VIOLATION: with a stale EAGAIN the same call leaves write interest registered with nothing
pending, and `HandleWrite` never removes it. -/
theorem c24_violation_interest_without_data (script : List WRes) :
    ∃ c : Chan, Reach [.send [1] [.ok 0], .send [1] [.err .again], .writable [.ok 0], .send [] [.ok 0]] c
      ∧ c.out.asString = [] ∧ c.writing = true ∧ (c.handleWrite script).1.writing = true := by
  let f (c : Chan) (op : Op) : Chan := ((Net.step c op).map Prod.fst).getD c
  let c1 := f Chan.init (.send [1] [.ok 0])
  let c2 := f c1 (.send [1] [.err .again])
  let c3 := f c2 (.writable [.ok 0])
  let c4 := f c3 (.send [] [.ok 0])
  have r1 : Reach [.send [1] [.ok 0]] c1 :=
    Reach.step (ops := []) (rv := 1) .init (by simp [Fits]) (by decide +kernel) (by decide)
  have r2 : Reach [.send [1] [.ok 0], .send [1] [.err .again]] c2 :=
    Reach.step (ops := [.send [1] [.ok 0]]) (rv := 0) r1 (by simp [Fits]) (by decide +kernel) (by decide)
  have r3 : Reach [.send [1] [.ok 0], .send [1] [.err .again], .writable [.ok 0]] c3 :=
    Reach.step (ops := [.send [1] [.ok 0], .send [1] [.err .again]]) (rv := 1) r2 (by simp [Fits])
      (by decide +kernel) (by decide)
  have r4 := Reach.step (ops := [.send [1] [.ok 0], .send [1] [.err .again], .writable [.ok 0]])
    (op := .send [] [.ok 0]) (c' := c4) (rv := 0) r3 (by simp [Fits]) (by decide +kernel) (by decide)
  refine ⟨c4, r4, by decide +kernel, by decide +kernel, ?_⟩
  have h0 : c4.out.canRead = 0 := by decide +kernel
  have h1 : c4.writing = true := by decide +kernel
  simp [Chan.handleWrite, h0, h1]

/-- C24 VIOLATION: `Send(const std::string&)` of a string of 2^32 bytes sends nothing and reports
whatever an empty send reports; the length is truncated to `int32_t`. -/
theorem c24_violation_length_truncated (data : List Byte) (h : data.length = 2^32) (c : Chan)
    (s : List WRes) : c.sendString data s = c.send [] s := by
  unfold Chan.sendString
  rw [h]
  have : toI32 (2^32) = 0 := by decide +kernel
  rw [this]; simp

/-- Witness: a history with partial writes, EINTR, EAGAIN, later sends and reads meets the
hypotheses and leaves output pending. -/
theorem c24_witness :
    let ops : List Op := [.send [1, 2, 3, 4] [.ok 0, .err .intr, .ok 0, .err .again],
      .send [5, 6] [.ok 0, .err .again], .arrive [9, 8, 7], .readable [.data 1, .err .intr, .data 5],
      .appConsume 2]
    ∃ c, Reach ops c ∧ c.sock = [1, 2, 3] ∧ c.out.asString = [4, 5, 6] ∧ c.taken = [9, 8] ∧
      c.inb.asString = [7] := by
  intro ops
  let f (c : Chan) (op : Op) : Chan := ((Net.step c op).map Prod.fst).getD c
  let c1 := f Chan.init (.send [1, 2, 3, 4] [.ok 0, .err .intr, .ok 0, .err .again])
  let c2 := f c1 (.send [5, 6] [.ok 0, .err .again])
  let c3 := f c2 (.arrive [9, 8, 7])
  let c4 := f c3 (.readable [.data 1, .err .intr, .data 5])
  let c5 := f c4 (.appConsume 2)
  have r1 : Reach (ops.take 1) c1 :=
    Reach.step (ops := []) (rv := 2) .init (by simp [Fits]) (by decide +kernel) (by decide)
  have r2 : Reach (ops.take 2) c2 :=
    Reach.step (ops := ops.take 1) (rv := 1) r1 (by simp [Fits]) (by decide +kernel) (by decide)
  have r3 : Reach (ops.take 3) c3 :=
    Reach.step (ops := ops.take 2) (rv := 0) r2 (by simp [Fits]) (by decide +kernel) (by decide)
  have r4 : Reach (ops.take 4) c4 :=
    Reach.step (ops := ops.take 3) (rv := 3) r3 (by simp [Fits]) (by decide +kernel) (by decide)
  have r5 : Reach (ops.take 5) c5 :=
    Reach.step (ops := ops.take 4) (rv := 0) r4 (by simp [Fits]) (by decide +kernel) (by decide)
  exact ⟨c5, r5, by decide +kernel, by decide +kernel, by decide +kernel, by decide +kernel⟩

end Ltio.Net
