import Verif.IOBuffer.Lemmas
/-
Properties C01 and C02: IOBuffer is a FIFO byte queue and never leaves its storage.
-/
namespace Ltio.IOBuffer

/-! ### Specification: a plain byte queue -/

/-- What each operation does to an abstract byte queue. -/
def specStep (q : List Byte) : Op → List Byte
  | .write bs => q ++ bs
  | .ensure _ => q
  | .rawProduce bs => q ++ bs
  | .consume n => q.drop n

/-- All bytes ever written by an operation sequence, in order. -/
def written : List Op → List Byte
  | [] => []
  | .write bs :: ops => bs ++ written ops
  | .rawProduce bs :: ops => bs ++ written ops
  | _ :: ops => written ops

/-- **C01.** Any operation sequence that does not hit undefined behaviour leaves exactly the
abstract queue's contents readable. -/
theorem c01_fifo (ops : List Op) (b : Buf) (h : run init ops = some b) :
    b.asString = ops.foldl specStep [] := by
  have key : ∀ (ops : List Op) (s t : Buf), s.Inv → run s ops = some t →
      t.asString = ops.foldl specStep s.asString := by
    intro ops
    induction ops with
    | nil => intro s t _ h; simp [run] at h; subst h; rfl
    | cons op ops ih =>
      intro s t hi h
      cases op with
      | write bs =>
        obtain ⟨s', e, i, a⟩ := write_spec s hi bs
        simp only [run, step, e] at h
        simpa [specStep, a] using ih s' t i h
      | ensure n =>
        obtain ⟨s', e, i, a, _⟩ := ensure_spec s hi n
        simp only [run, step, e] at h
        simpa [specStep, a] using ih s' t i h
      | rawProduce bs =>
        by_cases hw : bs.length ≤ s.canWrite
        · obtain ⟨s', e, i, a, _⟩ := rawProduce_spec s hi bs hw
          simp only [run, step, e] at h
          simpa [specStep, a] using ih s' t i h
        · have := (rawProduce_none s hi bs).2 (by omega)
          simp [run, step, this] at h
      | consume n =>
        simp only [run, step] at h
        have := ih _ t (consume_inv s hi n) h
        simpa [specStep, consume_asString s hi n] using this
  exact key ops init b init_inv h

/-- **C01, conservation form.** The bytes readable at the end are a suffix of everything that was
written, in order: nothing is invented, duplicated or reordered. -/
theorem c01_suffix_of_written (ops : List Op) (b : Buf) (h : run init ops = some b) :
    b.asString <:+ written ops := by
  rw [c01_fifo ops b h]
  have key : ∀ (ops : List Op) (q : List Byte), ops.foldl specStep q <:+ q ++ written ops := by
    intro ops
    induction ops with
    | nil => intro q; simp [written]
    | cons op ops ih =>
      intro q
      cases op with
      | write bs => simpa [specStep, written] using ih (q ++ bs)
      | ensure n => simpa [specStep, written] using ih q
      | rawProduce bs => simpa [specStep, written] using ih (q ++ bs)
      | consume n =>
        refine List.IsSuffix.trans (by simpa [specStep] using ih (q.drop n)) ?_
        exact ⟨q.take n, by rw [← List.append_assoc, List.take_append_drop]; rfl⟩
  simpa using key ops []

/-- **C02.** `EnsureWritableSize(n)` succeeds from every reachable state, provides `n` writable
bytes and does not change what is readable. -/
theorem c02_ensure (ops : List Op) (b : Buf) (h : run init ops = some b) (n : Int) :
    ∃ b', b.ensure n = some b' ∧ n ≤ b'.canWrite ∧ b'.asString = b.asString ∧
      b'.wr ≤ b'.data.length := by
  have : b.Inv := by
    have key : ∀ (ops : List Op) (s t : Buf), s.Inv → run s ops = some t → t.Inv := by
      intro ops
      induction ops with
      | nil => intro s t i h; simp [run] at h; subst h; exact i
      | cons op ops ih =>
        intro s t hi h
        cases op with
        | write bs =>
          obtain ⟨s', e, i, _⟩ := write_spec s hi bs
          simp only [run, step, e] at h; exact ih s' t i h
        | ensure n =>
          obtain ⟨s', e, i, _⟩ := ensure_spec s hi n
          simp only [run, step, e] at h; exact ih s' t i h
        | rawProduce bs =>
          by_cases hw : bs.length ≤ s.canWrite
          · obtain ⟨s', e, i, _⟩ := rawProduce_spec s hi bs hw
            simp only [run, step, e] at h; exact ih s' t i h
          · have := (rawProduce_none s hi bs).2 (by omega)
            simp [run, step, this] at h
        | consume n => simp only [run, step] at h; exact ih _ t (consume_inv s hi n) h
    exact key ops init b init_inv h
  obtain ⟨b', e, i, a, w, _⟩ := ensure_spec b this n
  exact ⟨b', e, w, a, i.2⟩

/-- Operations a well-behaved client performs: everything except storing through `GetWrite()`,
and that only right after `EnsureWritableSize` asked for enough room. -/
inductive Safe : List Op → Prop
  | nil : Safe []
  | write (bs) {ops} : Safe ops → Safe (.write bs :: ops)
  | ensure (n) {ops} : Safe ops → Safe (.ensure n :: ops)
  | consume (n) {ops} : Safe ops → Safe (.consume n :: ops)
  | ensureProduce (n : Nat) (bs) {ops} : bs.length ≤ n → Safe ops →
      Safe (.ensure n :: .rawProduce bs :: ops)

/-- **C02.** No safe operation sequence ever hits undefined behaviour, and in the resulting state
read position ≤ write position ≤ storage size. -/
theorem c02_no_out_of_bounds (ops : List Op) (hs : Safe ops) :
    ∃ b, run init ops = some b ∧ b.rd ≤ b.wr ∧ b.wr ≤ b.data.length := by
  have key : ∀ (ops : List Op), Safe ops → ∀ s : Buf, s.Inv → ∃ b, run s ops = some b ∧ b.Inv := by
    intro ops hs
    induction hs with
    | nil => intro s i; exact ⟨s, rfl, i⟩
    | write bs _ ih =>
      intro s i; obtain ⟨s', e, i', _⟩ := write_spec s i bs
      simpa only [run, step, e] using ih s' i'
    | ensure n _ ih =>
      intro s i; obtain ⟨s', e, i', _⟩ := ensure_spec s i n
      simpa only [run, step, e] using ih s' i'
    | consume n _ ih =>
      intro s i; simpa only [run, step] using ih _ (consume_inv s i n)
    | ensureProduce n bs hle _ ih =>
      intro s i; obtain ⟨s1, e, i1, _, w, _⟩ := ensure_spec s i n
      obtain ⟨s2, e2, i2, _⟩ := rawProduce_spec s1 i1 bs (by omega)
      simpa only [run, step, e, e2] using ih s2 i2
  exact key ops hs init init_inv

/-- **C02, converse (the contract callers must respect).** Storing through `GetWrite()` more bytes
than `CanWriteSize()` is the only way to corrupt memory. -/
theorem c02_ub_iff (b : Buf) (h : b.rd ≤ b.wr ∧ b.wr ≤ b.data.length) (op : Op) :
    step b op = none ↔ ∃ bs, op = .rawProduce bs ∧ b.canWrite < bs.length := by
  cases op with
  | write bs => obtain ⟨s', e, _⟩ := write_spec b h bs; simp [step, e]
  | ensure n => obtain ⟨s', e, _⟩ := ensure_spec b h n; simp [step, e]
  | rawProduce bs => simp [step, rawProduce_none b h bs]
  | consume n => simp [step]

/-- The total storage only grows and is never moved below the readable data: a reader that stays
idle keeps its bytes whatever is written (prefix stability). -/
theorem c01_reader_prefix_stable (ops : List Op) (b b' : Buf) (bs : List Byte)
    (h : run init ops = some b) (hw : b.write bs = some b') :
    b.asString <+: b'.asString := by
  have h1 := c01_fifo ops b h
  have h2 : run init (ops ++ [.write bs]) = some b' := by
    have key : ∀ (ops : List Op) (s : Buf), run s ops = some b →
        run s (ops ++ [.write bs]) = some b' := by
      intro ops
      induction ops with
      | nil => intro s h; simp [run] at h; subst h; simp [run, step, hw]
      | cons op ops ih =>
        intro s h
        simp only [run, List.cons_append] at h ⊢
        split at h
        · simp at h
        · rename_i s' e; simpa [e] using ih _ h
    exact key ops init h
  rw [c01_fifo _ b' h2, List.foldl_append, ← h1]
  simp [specStep]

/-- **FindCRLF is correct**: it returns the offset of the first CRLF of the readable bytes. -/
theorem findCRLF_correct (b : Buf) (i : Nat) (h : b.findCRLF = some i) :
    (∃ pre post, b.asString = pre ++ 13 :: 10 :: post ∧ pre.length = i) ∧
    ∀ j < i, ¬ (b.asString[j]? = some 13 ∧ b.asString[j+1]? = some 10) := by
  have key : ∀ (l : List Byte) (i : Nat), searchCRLF l = some i →
      (∃ pre post, l = pre ++ 13 :: 10 :: post ∧ pre.length = i) ∧
      ∀ j < i, ¬ (l[j]? = some 13 ∧ l[j+1]? = some 10) := by
    intro l
    induction l with
    | nil => intro i h; simp [searchCRLF] at h
    | cons a t ih =>
      cases t with
      | nil => intro i h; simp [searchCRLF] at h
      | cons c t =>
        intro i h
        unfold searchCRLF at h
        split at h
        · rename_i hc; obtain ⟨rfl, rfl⟩ := hc
          simp at h; subst h
          exact ⟨⟨[], t, rfl, rfl⟩, by intro j hj; omega⟩
        · rename_i hc
          cases hs : searchCRLF (c :: t) with
          | none => simp [hs] at h
          | some k =>
            simp [hs] at h; subst h
            obtain ⟨⟨pre, post, e, l⟩, hno⟩ := ih k hs
            refine ⟨⟨a :: pre, post, by rw [e]; rfl, by simp [l]⟩, ?_⟩
            intro j hj
            cases j with
            | zero => simpa using hc
            | succ j =>
              have := hno j (by omega)
              simpa using this
  unfold Buf.findCRLF at h
  split at h
  · simp at h
  · exact key _ i h

/-- **FindCRLF is complete**: it returns NULL only when the readable bytes contain no CRLF. -/
theorem findCRLF_none (b : Buf) (h : b.findCRLF = none) (pre post : List Byte) : b.asString ≠ pre ++ 13 :: 10 :: post := by
  have key : ∀ (pre l : List Byte), l = pre ++ 13 :: 10 :: post → searchCRLF l ≠ none := by
    intro pre
    induction pre with
    | nil => intro l e; subst e; simp [searchCRLF]
    | cons a pre ih =>
      intro l e
      have := ih _ rfl
      subst e
      cases hp : pre ++ 13 :: 10 :: post with
      | nil => simp at hp
      | cons c t =>
        rw [List.cons_append, hp]; rw [hp] at this
        unfold searchCRLF
        split
        · simp
        · simpa using this
  intro e
  unfold Buf.findCRLF at h
  split at h
  · rename_i h0
    have : b.asString.length = 0 := by
      unfold Buf.asString; unfold Buf.canRead at h0; simp; omega
    rw [e] at this; simp at this
  · exact key pre _ e h

/-- The move constructor transfers the contents and leaves an empty source. -/
theorem move_transfers (b : Buf) :
    b.moveFrom.1.asString = b.asString ∧ b.moveFrom.2.asString = [] := by
  simp [Buf.moveFrom, Buf.asString]

/-- The new object continues as the old one would have: every further sequence of operations gives the same;
and the moved-from object is an empty buffer that can be used again. -/
theorem move_continues (b : Buf) (ops : List Op) :
    run b.moveFrom.1 ops = run b ops ∧ b.moveFrom.2.canRead = 0 ∧
    ∀ bs, ∃ s, b.moveFrom.2.write bs = some s ∧ s.asString = bs := by
  refine ⟨rfl, rfl, fun bs => ?_⟩
  obtain ⟨s, e, _, a⟩ := write_spec b.moveFrom.2 (by simp [Buf.moveFrom, Buf.Inv]) bs
  exact ⟨s, e, by rw [a]; simp [Buf.moveFrom, Buf.asString]⟩

/-- `HasALine` says whether a line feed is among the readable bytes. -/
theorem hasALine_iff (b : Buf) : b.hasALine = true ↔ ∃ pre post, b.asString = pre ++ 10 :: post := by
  unfold Buf.hasALine
  rw [List.any_eq_true]
  constructor
  · rintro ⟨x, hx, e⟩
    rw [beq_iff_eq] at e
    subst e
    exact List.append_of_mem hx
  · rintro ⟨pre, post, e⟩
    exact ⟨10, by rw [e]; simp, by simp⟩

/-! ### Non-vacuity -/
example : ∃ b, run init [.write [1,2,3], .consume 2, .ensure 511, .rawProduce [4,5]] = some b ∧
    b.asString = [3,4,5] := by
  obtain ⟨b, h, _⟩ := c02_no_out_of_bounds
    [.write [1,2,3], .consume 2, .ensure 511, .rawProduce [4,5]]
    (.write _ (.consume _ (.ensureProduce 511 [4,5] (by decide) .nil)))
  exact ⟨b, h, by rw [c01_fifo _ b h]; decide⟩
example : Safe [.write [1,2,3], .ensure 2, .rawProduce [4,5], .consume 1] :=
  .write _ (.ensureProduce 2 [4,5] (by decide) (.consume _ .nil))
example : (⟨[65,13,10,66], 0, 4⟩ : Buf).findCRLF = some 1 := by decide
example : step ⟨[0,0], 0, 1⟩ (.rawProduce [7,8]) = none := by decide

end Ltio.IOBuffer
