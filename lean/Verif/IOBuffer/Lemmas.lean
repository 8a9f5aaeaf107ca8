import Verif.IOBuffer.Model
namespace Ltio.IOBuffer

/-- Index discipline. -/
def Buf.Inv (b : Buf) : Prop := b.rd ≤ b.wr ∧ b.wr ≤ b.data.length

theorem init_inv : init.Inv := by simp [init, Buf.Inv]

theorem writeAt_some {d : List Byte} {p : Nat} {bs d' : List Byte} (h : writeAt d p bs = some d') :
    p + bs.length ≤ d.length ∧ d' = d.take p ++ bs ++ d.drop (p + bs.length) := by
  unfold writeAt at h
  split at h
  · exact ⟨by assumption, by simpa using h.symm⟩
  · simp at h

theorem writeAt_length {d : List Byte} {p : Nat} {bs d' : List Byte} (h : writeAt d p bs = some d') :
    d'.length = d.length := by
  obtain ⟨h1, h2⟩ := writeAt_some h
  subst h2; simp; omega

theorem asString_length (b : Buf) (h : b.Inv) : b.asString.length = b.canRead := by
  unfold Buf.asString Buf.canRead; unfold Buf.Inv at h; simp; omega

theorem ensure_spec (b : Buf) (h : b.Inv) (len : Int) :
    ∃ b', b.ensure len = some b' ∧ b'.Inv ∧ b'.asString = b.asString ∧ len ≤ b'.canWrite
      ∧ b.data.length ≤ b'.data.length := by
  obtain ⟨h1, h2⟩ := h
  unfold Buf.ensure
  split
  · rename_i hc
    exact ⟨b, rfl, ⟨h1, h2⟩, rfl, by simpa [Buf.canWrite] using hc, Nat.le_refl _⟩
  · split
    · rename_i hn hc
      have hlen : ((b.data.drop b.rd).take b.canRead).length = b.canRead := by
        simp [Buf.canRead]; omega
      have hw : writeAt b.data 0 ((b.data.drop b.rd).take b.canRead) =
          some ((b.data.drop b.rd).take b.canRead ++ b.data.drop b.canRead) := by
        unfold writeAt
        rw [if_pos]
        · rw [hlen]; simp
        · rw [hlen]; simp [Buf.canRead]; omega
      simp only [hw]
      have hcw : (⟨(b.data.drop b.rd).take b.canRead ++ b.data.drop b.canRead, 0, b.canRead⟩ : Buf).canWrite
          = b.canWrite + b.rd := by
        simp only [Buf.canWrite, List.length_append, hlen, List.length_drop]; simp only [Buf.canRead]; omega
      rw [hcw, if_pos hc]
      refine ⟨_, rfl, ?_, ?_, ?_, ?_⟩
      · simp only [Buf.Inv, List.length_append, hlen, List.length_drop]; omega
      · simp only [Buf.asString, List.drop_zero, Nat.sub_zero]
        rw [List.take_append_of_le_length (by rw [hlen]; exact Nat.le_refl _)]
        rw [List.take_take, Nat.min_self]; rfl
      · rw [hcw]; exact hc
      · simp only [List.length_append, hlen, List.length_drop]; omega
    · rename_i hn hc
      refine ⟨_, rfl, ?_, ?_, ?_, ?_⟩
      · simp [Buf.Inv, resize, h1]; omega
      · simp only [Buf.asString, resize]
        have hl : (b.data.length) ≤ b.wr + len.toNat := by simp [Buf.canWrite] at hc; omega
        rw [List.take_of_length_le hl, List.drop_append, List.take_append_of_le_length]
        simp; omega
      · simp [Buf.canWrite, resize]; omega
      · simp [resize]; simp [Buf.canWrite] at hc; omega

theorem rawProduce_spec (b : Buf) (h : b.Inv) (bs : List Byte) (hw : bs.length ≤ b.canWrite) :
    ∃ b', b.rawProduce bs = some b' ∧ b'.Inv ∧ b'.asString = b.asString ++ bs
      ∧ b'.data.length = b.data.length := by
  obtain ⟨h1, h2⟩ := h
  simp only [Buf.canWrite] at hw
  have hle : b.wr + bs.length ≤ b.data.length := by omega
  refine ⟨⟨b.data.take b.wr ++ bs ++ b.data.drop (b.wr + bs.length), b.rd, b.wr + bs.length⟩, ?_, ?_, ?_, ?_⟩
  · simp [Buf.rawProduce, writeAt, hle]
  · simp [Buf.Inv]; omega
  · simp only [Buf.asString]
    have ht : (b.data.take b.wr).length = b.wr := by simp; omega
    rw [List.append_assoc, List.drop_append_of_le_length (by omega), List.drop_take,
      ← List.append_assoc, List.take_append_of_le_length (by simp; omega)]
    rw [List.take_of_length_le (by simp; omega)]
  · simp; omega

theorem rawProduce_none (b : Buf) (h : b.Inv) (bs : List Byte) :
    b.rawProduce bs = none ↔ b.canWrite < bs.length := by
  obtain ⟨h1, h2⟩ := h
  unfold Buf.rawProduce writeAt Buf.canWrite
  by_cases hc : b.wr + bs.length ≤ b.data.length
  · simp [hc]; omega
  · simp [hc]; omega

theorem write_spec (b : Buf) (h : b.Inv) (bs : List Byte) :
    ∃ b', b.write bs = some b' ∧ b'.Inv ∧ b'.asString = b.asString ++ bs := by
  obtain ⟨b1, e1, i1, a1, w1, _⟩ := ensure_spec b h bs.length
  obtain ⟨b2, e2, i2, a2, _⟩ := rawProduce_spec b1 i1 bs (by omega)
  exact ⟨b2, by simp [Buf.write, e1, e2], i2, by rw [a2, a1]⟩

theorem consume_inv (b : Buf) (h : b.Inv) (n : Nat) : (b.consume n).Inv := by
  unfold Buf.consume Buf.Inv Buf.canRead at *
  simp only
  split <;> simp <;> omega

theorem consume_asString (b : Buf) (h : b.Inv) (n : Nat) :
    (b.consume n).asString = b.asString.drop n := by
  obtain ⟨h1, h2⟩ := h
  unfold Buf.consume Buf.canRead
  simp only
  split
  · simp only [Buf.asString]
    simp; omega
  · simp only [Buf.asString]
    rw [List.drop_take, List.drop_drop]
    congr 1
    · omega
    · congr 1; omega

end Ltio.IOBuffer
