import Verif.Base64.Props
/- Property C11: what the decoder does with any text at all. -/
namespace Ltio.Base64

/-- Specification: the octets whose bits are those of the given six-bit values; an incomplete last octet is
dropped. -/
def octets : List Nat → List Byte
  | a :: b :: c :: d :: rest =>
    UInt8.ofNat ((a * 262144 + b * 4096 + c * 64 + d) / 65536) :: UInt8.ofNat ((a * 262144 + b * 4096 + c * 64 + d) / 256) ::
    UInt8.ofNat (a * 262144 + b * 4096 + c * 64 + d) :: octets rest
  | [a, b, c] => [UInt8.ofNat ((a * 4096 + b * 64 + c) / 1024), UInt8.ofNat ((a * 4096 + b * 64 + c) / 4)]
  | [a, b] => [UInt8.ofNat ((a * 64 + b) / 16)]
  | _ => []

/-- The characters of the alphabet. -/
def IsDigit (c : Byte) : Prop := ∃ v, v < 64 ∧ c = Spec.digit v

theorem not_digit (c : Byte) (h : ¬ IsDigit c) : c = eqSign ∨ inverse.getD c.toNat (-1) = -1 := by
  have key : (∀ k : Fin 64, c ≠ Spec.digit k.val) → c = eqSign ∨ inverse.getD c.toNat (-1) = -1 :=
    forall_byte (P := fun c => (∀ k : Fin 64, c ≠ Spec.digit k.val) → c = eqSign ∨ inverse.getD c.toNat (-1) = -1) (by decide +kernel) c
  exact key (fun k hk => h ⟨k.val, k.isLt, hk⟩)

theorem loop_stop (s : St) (rest : List Byte) (h : ∀ c ∈ rest.head?, ¬ IsDigit c) : loop s rest = s := by
  cases rest with
  | nil => rfl
  | cons c t =>
    rcases not_digit c (h c rfl) with h1 | h1
    · rw [loop, if_pos h1]
    · rw [loop, if_pos h1, ite_self]

theorem mod_ofNat (a b : Nat) (h : a % 256 = b % 256) : UInt8.ofNat a = UInt8.ofNat b := by
  apply UInt8.toNat_inj.1; simpa using h

theorem c3_octets (a b c d : Nat) (ha : a < 64) (hb : b < 64) (hc : c < 64) (hd : d < 64) :
    c3 (UInt8.ofNat a) (UInt8.ofNat b) (UInt8.ofNat c) (UInt8.ofNat d) = octets [a, b, c, d] := by
  unfold c3 octets octets
  rw [g_shl2, g_30 _ hb, g_f _ hb, g_3c _ hc, g_3 _ hc, ofNat_add, ofNat_add, ofNat_add]
  rw [mod_ofNat (a * 4 + b / 16) ((a * 262144 + b * 4096 + c * 64 + d) / 65536) (by omega),
    mod_ofNat (b % 16 * 16 + c / 4) ((a * 262144 + b * 4096 + c * 64 + d) / 256) (by omega),
    mod_ofNat (c % 4 * 64 + d) (a * 262144 + b * 4096 + c * 64 + d) (by omega)]

theorem any_aux (vs : List Nat) (hv : ∀ v ∈ vs, v < 64) (rest : List Byte) (hr : ∀ c ∈ rest.head?, ¬ IsDigit c)
    (g out : List Byte) (rd : Nat) (hg : g.length = 4) :
    finish (loop ⟨g, 0, out, rd⟩ (vs.map Spec.digit ++ rest)) = out ++ octets vs ∧
    (loop ⟨g, 0, out, rd⟩ (vs.map Spec.digit ++ rest)).read = rd + vs.length := by
  match vs, hv with
  | a :: b :: c :: d :: t, hv =>
    have ha := hv a (by simp)
    have hb := hv b (by simp)
    have hc := hv c (by simp)
    have hd := hv d (by simp)
    have ih := any_aux t (fun v h => hv v (by simp [h])) rest hr [UInt8.ofNat a, UInt8.ofNat b, UInt8.ofNat c, UInt8.ofNat d]
      (out ++ octets [a, b, c, d]) (rd + 4) rfl
    simp only [List.map_cons, List.cons_append]
    rw [loop_group g out rd hg a b c d ha hb hc hd, c3_octets a b c d ha hb hc hd, ih.1, ih.2]
    refine ⟨?_, by simp only [List.length_cons]; omega⟩
    simp [octets]
  | [a, b, c], hv =>
    have ha := hv a (by simp)
    have hb := hv b (by simp)
    have hc := hv c (by simp)
    match g, hg with
    | [x0, x1, x2, x3], _ =>
      simp only [List.map_cons, List.map_nil, List.cons_append, List.nil_append]
      rw [loop_digit _ _ ha, loop_digit _ _ hb, loop_digit _ _ hc, loop_stop _ _ hr]
      refine ⟨?_, rfl⟩
      simp only [accept, finish, c3, octets, List.set_cons_zero, List.set_cons_succ, Nat.zero_add, Nat.reduceAdd, Nat.reduceEqDiff, if_false,
        List.getD_cons_zero, List.getD_cons_succ, Nat.reduceSub, ne_eq, not_false_eq_true, if_true, List.take_succ_cons, List.take_zero]
      rw [g_shl2, g_30 _ hb, g_f _ hb, g_3c _ hc, ofNat_add, ofNat_add,
        mod_ofNat (a * 4 + b / 16) ((a * 4096 + b * 64 + c) / 1024) (by omega),
        mod_ofNat (b % 16 * 16 + c / 4) ((a * 4096 + b * 64 + c) / 4) (by omega)]
  | [a, b], hv =>
    have ha := hv a (by simp)
    have hb := hv b (by simp)
    match g, hg with
    | [x0, x1, x2, x3], _ =>
      simp only [List.map_cons, List.map_nil, List.cons_append, List.nil_append]
      rw [loop_digit _ _ ha, loop_digit _ _ hb, loop_stop _ _ hr]
      refine ⟨?_, rfl⟩
      simp only [accept, finish, c3, octets, List.set_cons_zero, List.set_cons_succ, Nat.zero_add, Nat.reduceAdd, Nat.reduceEqDiff, if_false,
        List.getD_cons_zero, List.getD_cons_succ, Nat.reduceSub, ne_eq, not_false_eq_true, if_true, List.take_succ_cons, List.take_zero]
      rw [g_shl2, g_30 _ hb, ofNat_add, mod_ofNat (a * 4 + b / 16) ((a * 64 + b) / 16) (by omega)]
  | [a], hv =>
    have ha := hv a (by simp)
    match g, hg with
    | [x0, x1, x2, x3], _ =>
      simp only [List.map_cons, List.map_nil, List.cons_append, List.nil_append]
      rw [loop_digit _ _ ha, loop_stop _ _ hr]
      refine ⟨?_, rfl⟩
      simp [accept, finish, octets]
  | [], _ =>
    rw [List.map_nil, List.nil_append, loop_stop _ _ hr]
    simp [finish, octets]

/-- **C11, any text.** Whatever the text and the uninitialised temporaries: the decoder reads up to the first
character that is not of the alphabet (or the end), and stores exactly the octets spelled by the characters
before it. -/
theorem c11_decode_any (g : List Byte) (hg : g.length = 4) (vs : List Nat) (hv : ∀ v ∈ vs, v < 64)
    (rest : List Byte) (hr : ∀ c ∈ rest.head?, ¬ IsDigit c) :
    decode g (vs.map Spec.digit ++ rest) = (octets vs, vs.length) := by
  have := any_aux vs hv rest hr g [] 0 hg
  simp only [decode]
  rw [this.1, this.2]
  simp

/-- Every text is of that form. -/
theorem c11_every_text (t : List Byte) : ∃ (vs : List Nat) (rest : List Byte), t = vs.map Spec.digit ++ rest ∧ (∀ v ∈ vs, v < 64) ∧
    ∀ c ∈ rest.head?, ¬ IsDigit c := by
  induction t with
  | nil => exact ⟨[], [], rfl, by simp, by simp⟩
  | cons c t ih =>
    by_cases hc : IsDigit c
    · obtain ⟨v, h1, h2⟩ := hc
      obtain ⟨vs, rest, h3, h4, h5⟩ := ih
      refine ⟨v :: vs, rest, by rw [h3, h2]; rfl, ?_, h5⟩
      intro x hx
      rcases List.mem_cons.1 hx with rfl | hx
      · exact h1
      · exact h4 x hx
    · exact ⟨[], c :: t, rfl, by simp, by intro x hx; simp at hx; exact hx ▸ hc⟩

example : ¬ IsDigit 10 := by
  rintro ⟨v, h1, h2⟩
  exact absurd h2 (by have : ∀ k : Fin 64, (10 : Byte) ≠ Spec.digit k.val := by decide +kernel
                      exact this ⟨v, h1⟩)

end Ltio.Base64
