import Verif.WebSocket.Spec
namespace Ltio.WebSocket

@[simp] theorem flatten_nil : flatten [] = [] := rfl
@[simp] theorem flatten_cons (e es) : flatten (e :: es) = flatten1 e ++ flatten es := rfl
@[simp] theorem flatten_append (a b) : flatten (a ++ b) = flatten a ++ flatten b := by
  simp [flatten]

/-! ### exec equations -/

theorem exec_nil (p : Parser) : exec p [] = some (p, []) := by rw [exec]

theorem exec_cons_none {p : Parser} {c rest} (h : iter p c rest = none) : exec p (c :: rest) = none := by
  rw [exec]; split
  · rfl
  · rename_i h'; rw [h] at h'; simp at h'

theorem exec_cons_some {p : Parser} {c rest p' l' ev} (h : iter p c rest = some (p', l', ev)) :
    exec p (c :: rest) = (exec p' l').map (fun r => (r.1, ev ++ r.2)) := by
  rw [exec]; split
  · rename_i h'; rw [h] at h'; simp at h'
  · rename_i h'
    rw [h] at h'; simp only [Option.some.injEq, Prod.mk.injEq] at h'
    obtain ⟨rfl, rfl, rfl⟩ := h'
    cases exec p' l' <;> rfl

/-- Flattened execution. -/
def execF (p : Parser) (l : List Byte) : Option (Parser × List FEvent) :=
  (exec p l).map (fun r => (r.1, flatten r.2))

theorem execF_nil (p : Parser) : execF p [] = some (p, []) := by simp [execF, exec_nil]

theorem execF_cons_none {p : Parser} {c rest} (h : iter p c rest = none) :
    execF p (c :: rest) = none := by simp [execF, exec_cons_none h]

theorem execF_cons_some {p : Parser} {c rest p' l' ev} (h : iter p c rest = some (p', l', ev)) :
    execF p (c :: rest) = (execF p' l').map (fun r => (r.1, flatten ev ++ r.2)) := by
  simp only [execF, exec_cons_some h, Option.map_map]
  congr 1; funext r; simp

/-- Sequencing of flattened executions. -/
def seqF (r : Option (Parser × List FEvent)) (k : Parser → Option (Parser × List FEvent)) :
    Option (Parser × List FEvent) :=
  match r with
  | none => none
  | some (p, e) => (k p).map (fun r => (r.1, e ++ r.2))

theorem seqF_assoc (r k k') : seqF (seqF r k) k' = seqF r (fun p => seqF (k p) k') := by
  cases r with
  | none => rfl
  | some r =>
    obtain ⟨p, e⟩ := r
    simp only [seqF]
    cases k p with
    | none => rfl
    | some r => obtain ⟨q, e'⟩ := r; simp [Option.map_map, Function.comp_def]

/-! ### Decode -/

theorem decode_nil (m off) : decode m off [] = ([], off % 4) := by simp [decode]

theorem decode_cons (m : List Byte) (off : Nat) (c : Byte) (cs : List Byte) :
    decode m off (c :: cs) =
      ((c ^^^ m.getD (off % 4) 0) :: (decode m ((1 + off) % 4) cs).1,
        (decode m ((1 + off) % 4) cs).2) := by
  simp only [decode, List.mapIdx_cons, Prod.mk.injEq, List.length_cons, Nat.zero_add]
  refine ⟨?_, by omega⟩
  congr 1
  apply List.mapIdx_eq_mapIdx_iff.2
  intro i hi
  have : (i + 1 + off) % 4 = (i + (1 + off) % 4) % 4 := by omega
  rw [this]

theorem decode_append (m : List Byte) (off : Nat) (a b : List Byte) :
    decode m off (a ++ b) =
      ((decode m off a).1 ++ (decode m (decode m off a).2 b).1, (decode m (decode m off a).2 b).2) := by
  induction a generalizing off with
  | nil =>
    simp only [List.nil_append, decode_nil]
    simp [decode]
  | cons c cs ih => simp [decode_cons, ih]

/-- Masking the same bytes twice from the same offset is the identity. -/
theorem decode_decode (m : List Byte) (off : Nat) (bs : List Byte) :
    (decode m off (decode m off bs).1).1 = bs := by
  induction bs generalizing off with
  | nil => simp [decode_nil]
  | cons c cs ih =>
    simp only [decode_cons, ih]
    congr 1
    rw [UInt8.xor_assoc, UInt8.xor_self, UInt8.xor_zero]

theorem decode_length (m off bs) : (decode m off bs).1.length = bs.length := by simp [decode]

/-! ### Invariant of reachable parser states -/

def Parser.Inv (p : Parser) : Prop :=
  p.mask.length = 4 ∧ p.maskOffset < 4 ∧
  (p.state = .length ∨ p.state = .mask ∨ p.state = .body → p.require ≠ 0)

theorem init_inv : Parser.init.Inv := by simp [Parser.init, Parser.Inv]

theorem enterBody_inv {p : Parser} (h : p.mask.length = 4) (ho : p.maskOffset < 4) :
    (enterBody p).1.Inv := by
  unfold enterBody Parser.Inv; split <;> simp_all

theorem afterLength_inv {p : Parser} (h : p.mask.length = 4) (ho : p.maskOffset < 4) :
    (afterLength p).1.Inv := by
  unfold afterLength; split
  · simp [Parser.Inv, h, ho]
  · exact enterBody_inv h ho

theorem unmaskBody_cons (p : Parser) (c : Byte) (cs : List Byte) :
    unmaskBody p (c :: cs) =
      ((unmaskBody (unmaskBody p [c]).1 cs).1, (unmaskBody p [c]).2 ++ (unmaskBody (unmaskBody p [c]).1 cs).2) := by
  unfold unmaskBody
  split
  · simp [decode_cons, decode_nil]
  · simp

theorem unmaskBody_fields (p : Parser) (l : List Byte) :
    (unmaskBody p l).1.state = p.state ∧ (unmaskBody p l).1.flags = p.flags ∧
    (unmaskBody p l).1.mask = p.mask ∧ (unmaskBody p l).1.require = p.require ∧
    (unmaskBody p l).1.length = p.length := by
  unfold unmaskBody; split <;> simp

theorem unmaskBody_off {p : Parser} (l : List Byte) (h : p.maskOffset < 4) :
    (unmaskBody p l).1.maskOffset < 4 := by
  unfold unmaskBody; split
  · simp only [decode]; omega
  · exact h

theorem unmaskBody_require (p : Parser) (l : List Byte) (r : Nat) :
    unmaskBody { p with require := r } l =
      ({ (unmaskBody p l).1 with require := r }, (unmaskBody p l).2) := by
  unfold unmaskBody; split <;> simp

/-- One byte at a time is always possible without hitting the (memory) bound. -/
theorem iter_single_rest {p : Parser} (hi : p.Inv) (c : Byte) {p' : Parser} {l' ev}
    (h : iter p c [] = some (p', l', ev)) : l' = [] ∧ p'.Inv := by
  obtain ⟨hm, ho, hr⟩ := hi
  unfold iter at h
  cases hs : p.state <;> simp only [hs] at h hr
  · simp at h; obtain ⟨rfl, rfl, rfl⟩ := h; simp [Parser.Inv, hm]
  · split at h
    · simp at h; obtain ⟨rfl, rfl, rfl⟩ := h; refine ⟨rfl, hm, ho, ?_⟩; simp; split <;> omega
    · simp only [Option.some.injEq, Prod.mk.injEq] at h
      obtain ⟨rfl, rfl, rfl⟩ := h
      exact ⟨rfl, afterLength_inv hm ho⟩
  · have h0 : p.require ≠ 0 := by simpa using hr
    simp only [lenLoop, h0, if_false] at h
    split at h
    · simp only [Option.some.injEq, Prod.mk.injEq] at h
      obtain ⟨rfl, rfl, rfl⟩ := h
      exact ⟨rfl, afterLength_inv hm ho⟩
    · rename_i hn
      simp only [Option.some.injEq, Prod.mk.injEq] at h
      obtain ⟨rfl, rfl, rfl⟩ := h
      exact ⟨rfl, hm, ho, fun _ => hn⟩
  · have h0 : p.require ≠ 0 := by simpa using hr
    simp only [maskLoop, h0, if_false] at h
    split at h
    · simp only [Option.some.injEq, Prod.mk.injEq] at h
      obtain ⟨rfl, rfl, rfl⟩ := h
      exact ⟨rfl, enterBody_inv (by simp [pushMask, hm]) ho⟩
    · rename_i hn
      simp only [Option.some.injEq, Prod.mk.injEq] at h
      obtain ⟨rfl, rfl, rfl⟩ := h
      exact ⟨rfl, by simp [pushMask, hm], ho, fun _ => hn⟩
  · have h0 : p.require ≠ 0 := by simpa using hr
    simp only [h0, if_false] at h
    split at h
    · simp at h
    · split at h
      · simp only [Option.some.injEq, Prod.mk.injEq] at h
        obtain ⟨rfl, rfl, rfl⟩ := h
        refine ⟨by simp; omega, ?_, unmaskBody_off _ ho, by simp⟩
        simp [unmaskBody_fields, hm]
      · rename_i hgt
        simp only [Option.some.injEq, Prod.mk.injEq] at h
        obtain ⟨rfl, rfl, rfl⟩ := h
        refine ⟨rfl, by simp [unmaskBody_fields, hm], unmaskBody_off _ ho, ?_⟩
        simp at hgt; simp; omega

theorem iter_body_full {p : Parser} (hs : p.state = .body) (h0 : p.require ≠ 0)
    (hub : ¬ 2^63 ≤ p.require) (c : Byte) (rest : List Byte) (hle : p.require ≤ (c :: rest).length) :
    iter p c rest = some
      ({ (unmaskBody p ((c :: rest).take p.require)).1 with require := 0, state := .start },
        (c :: rest).drop p.require,
        [.body (unmaskBody p ((c :: rest).take p.require)).2, .frameEnd p.flags]) := by
  simp only [iter, hs, if_neg h0, if_neg hub, if_pos hle]

theorem iter_body_part {p : Parser} (hs : p.state = .body) (h0 : p.require ≠ 0)
    (hub : ¬ 2^63 ≤ p.require) (c : Byte) (rest : List Byte) (hle : ¬ p.require ≤ (c :: rest).length) :
    iter p c rest = some
      ({ (unmaskBody p (c :: rest)).1 with require := p.require - (c :: rest).length }, [],
        [.body (unmaskBody p (c :: rest)).2]) := by
  simp only [iter, hs, if_neg h0, if_neg hub, if_neg hle]

/-- Key lemma: consuming `c :: l` at once is observably the same as consuming `c`, then `l`. -/
theorem execF_cons {p : Parser} (hi : p.Inv) (c : Byte) (l : List Byte) :
    execF p (c :: l) = seqF (execF p [c]) (fun q => execF q l) := by
  obtain ⟨hm, ho, hr⟩ := hi
  -- iterations that do not look at the rest
  have indep : ∀ p' ev, (∀ rest, iter p c rest = some (p', rest, ev)) →
      execF p (c :: l) = seqF (execF p [c]) (fun q => execF q l) := by
    intro p' ev h
    rw [execF_cons_some (h l), execF_cons_some (h []), execF_nil]
    simp [seqF]
  cases l with
  | nil =>
    cases h : execF p [c] with
    | none => rfl
    | some r => simp [seqF, execF_nil]
  | cons d ds =>
    cases hs : p.state with
    | start => exact indep _ _ (fun rest => by simp only [iter, hs]; rfl)
    | head =>
      by_cases hl : (c &&& 0x7F).toNat ≥ 126
      · exact indep _ _ (fun rest => by simp only [iter, hs, hl, if_true]; rfl)
      · exact indep _ _ (fun rest => by simp only [iter, hs, hl, if_false]; rfl)
    | length =>
      have h0 : p.require ≠ 0 := hr (Or.inl hs)
      by_cases h1 : (pushLen p c).require = 0
      · have hloop : ∀ rest, lenLoop p (c :: rest) = (pushLen p c, rest) := by
          intro rest
          rw [lenLoop, if_neg h0]
          cases rest with
          | nil => rfl
          | cons x xs => rw [lenLoop, if_pos h1]
        exact indep _ _ (fun rest => by simp only [iter, hs, hloop, h1, if_true]; rfl)
      · have e1 : iter p c [] = some (pushLen p c, [], []) := by
          simp only [iter, hs, lenLoop, if_neg h0, if_neg h1]
        have e2 : iter p c (d :: ds) = iter (pushLen p c) d ds := by
          have hs' : (pushLen p c).state = .length := hs
          have : lenLoop p (c :: d :: ds) = lenLoop (pushLen p c) (d :: ds) := by
            rw [lenLoop, if_neg h0]
          simp only [iter, hs, hs', this]
        rw [execF_cons_some e1, execF_nil]
        simp only [seqF, Option.map_some, flatten_nil, List.nil_append]
        cases h : iter (pushLen p c) d ds with
        | none => rw [execF_cons_none h, execF_cons_none (e2.trans h)]; rfl
        | some r =>
          obtain ⟨p', l', ev⟩ := r
          rw [execF_cons_some h, execF_cons_some (e2.trans h)]
          simp [Function.comp_def]
    | mask =>
      have h0 : p.require ≠ 0 := hr (Or.inr (Or.inl hs))
      by_cases h1 : (pushMask p c).require = 0
      · have hloop : ∀ rest, maskLoop p (c :: rest) = (pushMask p c, rest) := by
          intro rest
          rw [maskLoop, if_neg h0]
          cases rest with
          | nil => rfl
          | cons x xs => rw [maskLoop, if_pos h1]
        exact indep _ _ (fun rest => by simp only [iter, hs, hloop, h1, if_true]; rfl)
      · have e1 : iter p c [] = some (pushMask p c, [], []) := by
          simp only [iter, hs, maskLoop, if_neg h0, if_neg h1]
        have e2 : iter p c (d :: ds) = iter (pushMask p c) d ds := by
          have hs' : (pushMask p c).state = .mask := hs
          have : maskLoop p (c :: d :: ds) = maskLoop (pushMask p c) (d :: ds) := by
            rw [maskLoop, if_neg h0]
          simp only [iter, hs, hs', this]
        rw [execF_cons_some e1, execF_nil]
        simp only [seqF, Option.map_some, flatten_nil, List.nil_append]
        cases h : iter (pushMask p c) d ds with
        | none => rw [execF_cons_none h, execF_cons_none (e2.trans h)]; rfl
        | some r =>
          obtain ⟨p', l', ev⟩ := r
          rw [execF_cons_some h, execF_cons_some (e2.trans h)]
          simp [Function.comp_def]
    | body =>
      have h0 : p.require ≠ 0 := hr (Or.inr (Or.inr hs))
      by_cases hub : 2^63 ≤ p.require
      · have : ∀ rest, iter p c rest = none := by
          intro rest; simp only [iter, hs, if_neg h0, if_pos hub]
        rw [execF_cons_none (this _), execF_cons_none (this _)]; rfl
      · by_cases h1 : p.require = 1
        · refine indep ({ (unmaskBody p [c]).1 with require := 0, state := .start })
            [.body (unmaskBody p [c]).2, .frameEnd p.flags] (fun rest => ?_)
          rw [iter_body_full hs h0 hub c rest (by simp [h1])]
          simp [h1]
        · have e1 : iter p c [] = some ({ (unmaskBody p [c]).1 with require := p.require - 1 }, [],
              [.body (unmaskBody p [c]).2]) := by
            simp only [iter, hs, if_neg h0, if_neg hub]
            rw [if_neg (by simp; omega)]; simp
          rw [execF_cons_some e1, execF_nil]
          simp only [seqF, Option.map_some, List.append_nil]
          have hq : ({ (unmaskBody p [c]).1 with require := p.require - 1 } : Parser).state = .body := by
            simp [unmaskBody_fields, hs]
          have hu := unmaskBody_cons p c (d :: ds)
          have hu' := fun k => unmaskBody_cons p c ((d :: ds).take k)
          generalize hqd : ({ (unmaskBody p [c]).1 with require := p.require - 1 } : Parser) = q
          rw [hqd] at hq
          have hqr : q.require = p.require - 1 := by rw [← hqd]
          have hqf : q.flags = p.flags := by rw [← hqd]; simp [unmaskBody_fields]
          have hqu : ∀ l, unmaskBody q l = ({ (unmaskBody (unmaskBody p [c]).1 l).1 with
              require := p.require - 1 }, (unmaskBody (unmaskBody p [c]).1 l).2) := by
            intro l; rw [← hqd, unmaskBody_require]
          by_cases hle : p.require ≤ (c :: d :: ds).length
          · have e2 := iter_body_full hs h0 hub c (d :: ds) hle
            have e3 := iter_body_full hq (by omega) (by omega) d ds
              (by rw [hqr]; simp only [List.length_cons] at *; omega)
            rw [execF_cons_some e2, execF_cons_some e3]
            obtain ⟨k, hk⟩ : ∃ k, p.require = k + 1 := ⟨p.require - 1, by omega⟩
            have hqk : q.require = k := by omega
            rw [hqf, hqk, hk, List.take_succ_cons, List.drop_succ_cons, hu', hqu]
            simp [flatten1, Option.map_map, Function.comp_def]
          · have e2 := iter_body_part hs h0 hub c (d :: ds) hle
            have e3 := iter_body_part hq (by omega) (by omega) d ds
              (by rw [hqr]; simp only [List.length_cons] at *; omega)
            rw [execF_cons_some e2, execF_cons_some e3, execF_nil, execF_nil]
            have hx : q.require - (d :: ds).length = p.require - (c :: d :: ds).length := by
              rw [hqr]; simp only [List.length_cons]; omega
            rw [hu, hqu, hx]
            simp [flatten1]

theorem execF_single_inv {p : Parser} (hi : p.Inv) (c : Byte) {q e} (h : execF p [c] = some (q, e)) :
    q.Inv := by
  cases hit : iter p c [] with
  | none => rw [execF_cons_none hit] at h; simp at h
  | some r =>
    obtain ⟨p', l', ev⟩ := r
    obtain ⟨rfl, hi'⟩ := iter_single_rest hi c hit
    rw [execF_cons_some hit, execF_nil] at h
    simp at h; obtain ⟨rfl, _⟩ := h; exact hi'

theorem execF_append {p : Parser} (hi : p.Inv) (a b : List Byte) :
    execF p (a ++ b) = seqF (execF p a) (fun q => execF q b) := by
  induction a generalizing p with
  | nil =>
    simp only [List.nil_append, execF_nil, seqF]
    cases execF p b <;> simp
  | cons c cs ih =>
    rw [List.cons_append, execF_cons hi, execF_cons hi c cs, seqF_assoc]
    cases h : execF p [c] with
    | none => rfl
    | some r =>
      obtain ⟨q, e⟩ := r
      simp only [seqF]
      rw [ih (execF_single_inv hi c h)]
      rfl

theorem execF_inv {p : Parser} (hi : p.Inv) (l : List Byte) {q e} (h : execF p l = some (q, e)) :
    q.Inv := by
  induction l generalizing p e with
  | nil => rw [execF_nil] at h; simp at h; obtain ⟨rfl, _⟩ := h; exact hi
  | cons c cs ih =>
    rw [execF_cons hi] at h
    cases h1 : execF p [c] with
    | none => simp [h1, seqF] at h
    | some r =>
      obtain ⟨p1, e1⟩ := r
      have hi1 := execF_single_inv hi c h1
      simp only [h1, seqF, Option.map_eq_some_iff] at h
      obtain ⟨⟨q', e'⟩, h2, h3⟩ := h
      simp at h3; obtain ⟨rfl, _⟩ := h3
      exact ih hi1 h2

theorem iter_none {p : Parser} {c rest} (h : iter p c rest = none) :
    p.state = .body ∧ 2^63 ≤ p.require := by
  unfold iter at h
  cases hs : p.state <;> simp only [hs] at h
  · simp at h
  · split at h <;> simp at h
  · split at h <;> simp at h
  · split at h <;> simp at h
  · split at h
    · simp at h
    · split at h
      · exact ⟨rfl, by assumption⟩
      · split at h <;> simp at h

theorem execF_single_none {p : Parser} (hi : p.Inv) (c : Byte) (h : execF p [c] = none) :
    p.state = .body ∧ 2^63 ≤ p.require := by
  cases hit : iter p c [] with
  | none => exact iter_none hit
  | some r =>
    obtain ⟨p', l', ev⟩ := r
    obtain ⟨rfl, _⟩ := iter_single_rest hi c hit
    rw [execF_cons_some hit, execF_nil] at h
    simp at h

/-- In body state, a header announcing at least `require` bytes has been reported. -/
theorem execF_single_body {p : Parser} (hi : p.Inv) (c : Byte) {q : Parser} {e : List FEvent}
    (he : execF p [c] = some (q, e)) (hb : q.state = .body) :
    (p.state = .body ∧ q.require ≤ p.require) ∨ ∃ f n, FEvent.header f n ∈ e ∧ q.require ≤ n := by
  have hEB : ∀ p : Parser, (enterBody p).1.state = .body →
      ∃ f n, FEvent.header f n ∈ flatten (enterBody p).2 ∧ (enterBody p).1.require ≤ n := by
    intro p hb; unfold enterBody at *; split at hb
    · rename_i hz; rw [if_pos hz]; exact ⟨p.flags, p.length, by simp [flatten1], Nat.le_refl _⟩
    · simp at hb
  have hAL : ∀ p : Parser, (afterLength p).1.state = .body →
      ∃ f n, FEvent.header f n ∈ flatten (afterLength p).2 ∧ (afterLength p).1.require ≤ n := by
    intro p hb; unfold afterLength at *; split at hb
    · simp at hb
    · rename_i hz; rw [if_neg hz]; exact hEB p hb
  cases hit : iter p c [] with
  | none => rw [execF_cons_none hit] at he; simp at he
  | some r =>
    obtain ⟨p', l', ev⟩ := r
    obtain ⟨rfl, _⟩ := iter_single_rest hi c hit
    rw [execF_cons_some hit, execF_nil] at he
    simp only [Option.map_some, List.append_nil, Option.some.injEq, Prod.mk.injEq] at he
    obtain ⟨rfl, rfl⟩ := he
    unfold iter at hit
    cases hs : p.state <;> simp only [hs] at hit
    · simp at hit; obtain ⟨rfl, _⟩ := hit; simp at hb
    · split at hit
      · simp at hit; obtain ⟨rfl, _⟩ := hit; simp at hb
      · simp only [Option.some.injEq, Prod.mk.injEq] at hit
        obtain ⟨rfl, _, rfl⟩ := hit; exact Or.inr (hAL _ hb)
    · split at hit
      · simp only [Option.some.injEq, Prod.mk.injEq] at hit
        obtain ⟨rfl, _, rfl⟩ := hit; exact Or.inr (hAL _ hb)
      · simp only [Option.some.injEq, Prod.mk.injEq] at hit
        obtain ⟨rfl, _, rfl⟩ := hit
        rw [(lenLoop_len p [c]).2.1, hs] at hb; simp at hb
    · split at hit
      · simp only [Option.some.injEq, Prod.mk.injEq] at hit
        obtain ⟨rfl, _, rfl⟩ := hit; exact Or.inr (hEB _ hb)
      · simp only [Option.some.injEq, Prod.mk.injEq] at hit
        obtain ⟨rfl, _, rfl⟩ := hit
        rw [(maskLoop_len p [c]).2.1, hs] at hb; simp at hb
    · left
      refine ⟨rfl, ?_⟩
      split at hit
      · simp at hit; obtain ⟨rfl, _⟩ := hit; simp at hb
      · split at hit
        · simp at hit
        · split at hit
          · simp only [Option.some.injEq, Prod.mk.injEq] at hit
            obtain ⟨rfl, _⟩ := hit; simp at hb
          · simp only [Option.some.injEq, Prod.mk.injEq] at hit
            obtain ⟨rfl, _⟩ := hit; simp

/-! ### Chunks -/

theorem execChunks_flat {p : Parser} (hi : p.Inv) (chs : List (List Byte)) :
    (execChunks p chs).map (fun r => (r.1, flatten r.2)) = execF p chs.flatten := by
  induction chs generalizing p with
  | nil => simp [execChunks, execF_nil]
  | cons ch chs ih =>
    rw [List.flatten_cons, execF_append hi]
    have hF : execF p ch = (exec p ch).map (fun r => (r.1, flatten r.2)) := rfl
    unfold execChunks
    cases h : exec p ch with
    | none => simp [hF, h, seqF]
    | some r =>
      obtain ⟨q, e⟩ := r
      have hq : q.Inv := execF_inv hi ch (by rw [hF, h]; rfl)
      have := ih hq
      simp only [hF, h, seqF, Option.map_some, ← this, Option.map_map]
      cases execChunks q chs <;> simp

theorem execF_cons_start {p : Parser} (hs : p.state = .start) (c : Byte) (l : List Byte) :
    execF p (c :: l) = execF { p with
      length := 0, maskOffset := 0,
      flags := (c &&& WS_OP_MASK) ||| (if c &&& 0x80 ≠ 0 then WS_FIN else 0),
      state := .head } l := by
  have : iter p c l = some ({ p with
      length := 0, maskOffset := 0,
      flags := (c &&& WS_OP_MASK) ||| (if c &&& 0x80 ≠ 0 then WS_FIN else 0),
      state := .head }, l, []) := by simp only [iter, hs]
  rw [execF_cons_some this]
  simp

theorem or_push (x : Nat) (c : Byte) (hx : x < 2^56) :
    (x * 256 % 2^64) ||| c.toNat = x * 256 + c.toNat := by
  rw [Nat.mod_eq_of_lt (by omega)]
  have := Nat.two_pow_add_eq_or_of_lt (i := 8) (b := c.toNat) (by have := c.toNat_lt; omega) x
  rw [Nat.mul_comm x 256]; exact this.symm

theorem ofNat_toNat_and (n : Nat) : (UInt8.ofNat (n &&& 0xFF)).toNat = n % 256 := by
  have : n &&& 0xFF = n % 256 := Nat.and_two_pow_sub_one_eq_mod n 8
  rw [this]; simp

theorem ofNat_toNat_shift (n : Nat) : (UInt8.ofNat (n >>> 8)).toNat = n / 256 % 256 := by
  simp [Nat.shiftRight_eq_div_pow]

/-- A frame head: what the parser makes of the first two bytes and the extended length. -/
theorem flag_bits (op : Byte) (hop : op.toNat < 16) (fin m : Bool) :
    let fl := mkFlags op m fin
    let b0 : Byte := (if fl &&& WS_FIN ≠ 0 then 0x80 else 0) ||| (fl &&& WS_OP_MASK)
    ((b0 &&& WS_OP_MASK) ||| (if b0 &&& 0x80 ≠ 0 then WS_FIN else 0)) ||| (if m then WS_HAS_MASK else 0) = fl
    ∧ (fl &&& WS_HAS_MASK ≠ 0 ↔ m = true) ∧ (fl &&& WS_FIN ≠ 0 ↔ fin = true) ∧ fl &&& WS_OP_MASK = op := by
  have key : ∀ (k : Fin 16) (fin m : Bool),
    let fl := mkFlags (UInt8.ofNat k.val) m fin
    let b0 : Byte := (if fl &&& WS_FIN ≠ 0 then 0x80 else 0) ||| (fl &&& WS_OP_MASK)
    ((b0 &&& WS_OP_MASK) ||| (if b0 &&& 0x80 ≠ 0 then WS_FIN else 0)) ||| (if m then WS_HAS_MASK else 0) = fl
    ∧ (fl &&& WS_HAS_MASK ≠ 0 ↔ m = true) ∧ (fl &&& WS_FIN ≠ 0 ↔ fin = true)
      ∧ fl &&& WS_OP_MASK = UInt8.ofNat k.val := by decide
  have := key ⟨op.toNat, hop⟩ fin m
  simpa using this

theorem head_bits (x : Byte) (hx : x.toNat < 128) (m : Bool) :
    let b1 : Byte := if m then 0x80 else 0
    ((b1 ||| x) &&& 0x7F).toNat = x.toNat ∧ ((b1 ||| x) &&& 0x80 ≠ 0 ↔ m = true) := by
  have key : ∀ (k : Fin 128) (m : Bool),
    let b1 : Byte := if m then 0x80 else 0
    ((b1 ||| UInt8.ofNat k.val) &&& 0x7F).toNat = (UInt8.ofNat k.val).toNat ∧
      ((b1 ||| UInt8.ofNat k.val) &&& 0x80 ≠ 0 ↔ m = true) := by decide +kernel
  have := key ⟨x.toNat, hx⟩ m
  simpa using this

theorem iter_no_empty_body {p : Parser} {c rest p' l' ev} (h : iter p c rest = some (p', l', ev)) :
    Event.body [] ∉ ev := by
  have hA : ∀ q, Event.body [] ∉ (enterBody q).2 := by
    intro q; unfold enterBody; split <;> simp
  have hB : ∀ q, Event.body [] ∉ (afterLength q).2 := by
    intro q; unfold afterLength; split
    · simp
    · exact hA q
  have hU : ∀ (q : Parser) (l : List Byte), l ≠ [] → (unmaskBody q l).2 ≠ [] := by
    intro q l hl; unfold unmaskBody; split
    · intro h0
      have := decode_length q.mask q.maskOffset l
      simp only at h0; rw [h0] at this; exact hl (List.length_eq_zero_iff.1 this.symm)
    · exact hl
  unfold iter at h
  cases hs : p.state <;> simp only [hs] at h
  · simp at h; obtain ⟨_, _, rfl⟩ := h; simp
  · split at h
    · simp at h; obtain ⟨_, _, rfl⟩ := h; simp
    · simp only [Option.some.injEq, Prod.mk.injEq] at h; rw [← h.2.2]; exact hB _
  · split at h
    · simp only [Option.some.injEq, Prod.mk.injEq] at h; rw [← h.2.2]; exact hB _
    · simp at h; obtain ⟨_, _, rfl⟩ := h; simp
  · split at h
    · simp only [Option.some.injEq, Prod.mk.injEq] at h; rw [← h.2.2]; exact hA _
    · simp at h; obtain ⟨_, _, rfl⟩ := h; simp
  · split at h
    · simp at h; obtain ⟨_, _, rfl⟩ := h; simp
    · rename_i h0
      split at h
      · simp at h
      · split at h
        · simp only [Option.some.injEq, Prod.mk.injEq] at h; rw [← h.2.2]
          have := hU p ((c :: rest).take p.require) (by
            obtain ⟨k, hk⟩ : ∃ k, p.require = k + 1 := ⟨p.require - 1, by omega⟩
            simp [hk])
          simpa using this
        · simp only [Option.some.injEq, Prod.mk.injEq] at h; rw [← h.2.2]
          have := hU p (c :: rest) (by simp)
          simpa using this

theorem exec_no_empty_body (n : Nat) : ∀ (p : Parser) (l : List Byte) (q ev),
    3 * l.length + p.state.rank ≤ n → exec p l = some (q, ev) → Event.body [] ∉ ev := by
  induction n with
  | zero =>
    intro p l q ev hn h
    have : l = [] := List.length_eq_zero_iff.1 (by omega)
    subst this; rw [exec_nil] at h; simp at h; obtain ⟨_, rfl⟩ := h; simp
  | succ n ih =>
    intro p l q ev hn h
    cases l with
    | nil => rw [exec_nil] at h; simp at h; obtain ⟨_, rfl⟩ := h; simp
    | cons c rest =>
      cases hit : iter p c rest with
      | none => rw [exec_cons_none hit] at h; simp at h
      | some r =>
        obtain ⟨p', l', e1⟩ := r
        have hd := iter_decreases hit
        rw [exec_cons_some hit, Option.map_eq_some_iff] at h
        obtain ⟨⟨q', e2⟩, h1, h2⟩ := h
        simp at h2; obtain ⟨rfl, rfl⟩ := h2
        have h3 := ih p' l' q' e2 (by omega) h1
        have h4 := iter_no_empty_body hit
        simp [h3, h4]

theorem execChunks_no_empty_body (p : Parser) (chs : List (List Byte)) {q ev}
    (h : execChunks p chs = some (q, ev)) : Event.body [] ∉ ev := by
  induction chs generalizing p q ev with
  | nil => simp only [execChunks, Option.some.injEq, Prod.mk.injEq] at h; obtain ⟨_, rfl⟩ := h; simp
  | cons ch chs ih =>
    unfold execChunks at h
    cases h1 : exec p ch with
    | none => simp [h1] at h
    | some r =>
      obtain ⟨p1, e1⟩ := r
      cases h2 : execChunks p1 chs with
      | none => simp [h1, h2] at h
      | some r2 =>
        obtain ⟨p2, e2⟩ := r2
        simp [h1, h2] at h
        obtain ⟨_, rfl⟩ := h
        have := exec_no_empty_body _ p ch p1 e1 (Nat.le_refl _) h1
        have := ih p1 h2
        simp [*]

/-! ### Service callbacks on flattened events -/

def onF (cur : Cur) : FEvent → Option (Cur × List Out)
  | .header f n => onEvent cur (.header f n)
  | .byte b => onEvent cur (.body [b])
  | .frameEnd f => onEvent cur (.frameEnd f)

def onFs (cur : Cur) : List FEvent → Option (Cur × List Out)
  | [] => some (cur, [])
  | e :: es => match onF cur e with
    | none => none
    | some (c', o) => match onFs c' es with
      | none => none
      | some (c'', os) => some (c'', o ++ os)

theorem onFs_append (cur : Cur) (a b : List FEvent) :
    onFs cur (a ++ b) = match onFs cur a with
      | none => none
      | some (c', o) => match onFs c' b with
        | none => none
        | some (c'', os) => some (c'', o ++ os) := by
  induction a generalizing cur with
  | nil =>
    simp only [List.nil_append, onFs]
    cases onFs cur b <;> simp
  | cons e es ih =>
    simp only [List.cons_append, onFs]
    cases onF cur e with
    | none => rfl
    | some r =>
      obtain ⟨c1, o1⟩ := r
      simp only [ih]
      cases onFs c1 es with
      | none => rfl
      | some r2 =>
        obtain ⟨c2, o2⟩ := r2
        simp only
        cases onFs c2 b <;> simp

theorem onFs_bytes (m : Message) (bs : List Byte) :
    onFs (some m) (bs.map .byte) = some (some { m with payload := m.payload ++ bs }, []) := by
  induction bs generalizing m with
  | nil => simp [onFs]
  | cons b bs ih => simp [onFs, onF, onEvent, ih]

theorem onEvents_flat (cur : Cur) (evs : List Event) (h : Event.body [] ∉ evs) :
    onEvents cur evs = onFs cur (flatten evs) := by
  induction evs generalizing cur with
  | nil => rfl
  | cons e es ih =>
    have ih' := fun c => ih c (fun hc => h (List.mem_cons_of_mem _ hc))
    rw [flatten_cons, onFs_append, onEvents]
    have h1 : onEvent cur e = onFs cur (flatten1 e) := by
      cases e with
      | header f n =>
        simp only [flatten1, onFs, onF]; cases onEvent cur (.header f n) <;> simp
      | frameEnd f =>
        simp only [flatten1, onFs, onF]; cases onEvent cur (.frameEnd f) <;> simp
      | body bs =>
        cases cur with
        | some m => simp [flatten1, onFs_bytes, onEvent]
        | none =>
          cases bs with
          | nil => simp at h
          | cons b bs => simp [flatten1, onFs, onF, onEvent]
    rw [h1]
    cases onFs cur (flatten1 e) with
    | none => rfl
    | some r => obtain ⟨c1, o1⟩ := r; simp only [ih']; cases onFs c1 (flatten es) <;> rfl

end Ltio.WebSocket
