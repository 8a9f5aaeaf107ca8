/-
Generic facts about "decode as many items as possible from the receive buffer" loops, the shape of
`RawCodecService::OnDataReceived` and similar codec loops: the receive buffer keeps undecoded bytes
between read events.
-/
namespace Ltio.Stream

/-- Result of trying to decode one item from the front of the buffer. -/
inductive Res (α ε : Type) where
  | more                           -- not enough bytes yet
  | out (e : ε) (rest : List α)    -- one item, remaining bytes
  | crash                          -- undefined behaviour or process termination
deriving Repr, DecidableEq

/-- Final outcome of a decoding loop: items, and either the bytes kept or a crash. -/
structure Outcome (α ε : Type) where
  items : List ε
  rest  : Option (List α)   -- `none` = crashed
deriving Repr, DecidableEq

variable {α ε : Type}

/-- A one-item decoder that consumes at least one byte per item. -/
structure Decoder (α ε : Type) where
  dec : List α → Res α ε
  shrinks : ∀ {b e r}, dec b = .out e r → r.length < b.length

/-- The loop: decode until more data is needed. -/
def Decoder.drain (d : Decoder α ε) (b : List α) : Outcome α ε :=
  match h : d.dec b with
  | .more => ⟨[], some b⟩
  | .crash => ⟨[], none⟩
  | .out e r =>
    have := d.shrinks h
    let o := d.drain r
    ⟨e :: o.items, o.rest⟩
termination_by b.length

/-- Deliver a list of chunks: each is appended to the bytes kept and the loop is run. -/
def Decoder.feed (d : Decoder α ε) : List α → List (List α) → Outcome α ε
  | kept, [] => ⟨[], some kept⟩
  | kept, c :: cs =>
    let o := d.drain (kept ++ c)
    match o.rest with
    | none => o
    | some k => let o' := d.feed k cs; ⟨o.items ++ o'.items, o'.rest⟩

/-- Decisions are stable when more bytes arrive. -/
structure Decoder.Stable (d : Decoder α ε) : Prop where
  out : ∀ {b e r} (x), d.dec b = .out e r → d.dec (b ++ x) = .out e (r ++ x)
  crash : ∀ {b} (x), d.dec b = .crash → d.dec (b ++ x) = .crash

theorem drain_more (d : Decoder α ε) {b} (h : d.dec b = .more) : d.drain b = ⟨[], some b⟩ := by
  rw [Decoder.drain]; split <;> simp_all

theorem drain_crash (d : Decoder α ε) {b} (h : d.dec b = .crash) : d.drain b = ⟨[], none⟩ := by
  rw [Decoder.drain]; split <;> simp_all

theorem drain_out (d : Decoder α ε) {b e r} (h : d.dec b = .out e r) :
    d.drain b = ⟨e :: (d.drain r).items, (d.drain r).rest⟩ := by
  rw [Decoder.drain]; split
  · simp_all
  · simp_all
  · rename_i e' r' h'; rw [h] at h'; cases h'; rfl

/-- Bytes kept by the loop need more data. -/
theorem drain_rest_more (d : Decoder α ε) (b : List α) {k} (h : (d.drain b).rest = some k) :
    d.dec k = .more := by
  induction hn : b.length using Nat.strongRecOn generalizing b with
  | ind n ih =>
    cases hd : d.dec b with
    | more => rw [drain_more d hd] at h; simp at h; subst h; exact hd
    | crash => rw [drain_crash d hd] at h; simp at h
    | out e r =>
      rw [drain_out d hd] at h
      exact ih r.length (by have := d.shrinks hd; omega) r h rfl

theorem drain_append (d : Decoder α ε) (hs : d.Stable) (b x : List α) :
    d.drain (b ++ x) = match (d.drain b).rest with
      | none => d.drain b
      | some k => ⟨(d.drain b).items ++ (d.drain (k ++ x)).items, (d.drain (k ++ x)).rest⟩ := by
  induction hn : b.length using Nat.strongRecOn generalizing b with
  | ind n ih =>
    cases hd : d.dec b with
    | more => rw [drain_more d hd]; simp
    | crash => rw [drain_crash d hd, drain_crash d (hs.crash x hd)]
    | out e r =>
      rw [drain_out d hd, drain_out d (hs.out x hd),
        ih r.length (by have := d.shrinks hd; omega) r rfl]
      simp only
      cases h : (d.drain r).rest <;> simp [h]

/-- Chunking does not matter. -/
theorem feed_flat (d : Decoder α ε) (hs : d.Stable) (kept : List α) (hk : d.dec kept = .more)
    (cs : List (List α)) : d.feed kept cs = d.drain (kept ++ cs.flatten) := by
  induction cs generalizing kept with
  | nil => simp [Decoder.feed, drain_more d hk]
  | cons c cs ih =>
    simp only [Decoder.feed, List.flatten_cons]
    rw [← List.append_assoc, drain_append d hs (kept ++ c)]
    cases h : (d.drain (kept ++ c)).rest with
    | none => rfl
    | some k =>
      simp only
      rw [ih k (drain_rest_more d _ h)]

/-- If each wire encoding decodes to its item whatever follows, a concatenation decodes to the
list of items. -/
theorem drain_concat (d : Decoder α ε) {ι : Type} (wire : ι → List α) (item : ι → ε)
    (l : List ι) (h : ∀ i ∈ l, ∀ x, d.dec (wire i ++ x) = .out (item i) x) (x : List α) :
    d.drain (l.flatMap wire ++ x) = ⟨l.map item ++ (d.drain x).items, (d.drain x).rest⟩ := by
  induction l with
  | nil => simp
  | cons i l ih =>
    have h1 := h i (by simp) (l.flatMap wire ++ x)
    rw [List.flatMap_cons, List.append_assoc, drain_out d h1,
      ih (fun j hj => h j (by simp [hj]))]
    simp

end Ltio.Stream
